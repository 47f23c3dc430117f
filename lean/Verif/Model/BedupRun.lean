import Verif.Model.Auth
import Verif.Model.Prepend

/-!
# What bedup is told to work on: `run_bedup`, `src/server/bedup.c:892-1012`

The options, the groups, the clients and their locks. What is done to the files of one directory is in
`Verif/Model/Bedup.lean` and `Verif/Model/BedupConc.lean`; here it is known what it comes to. Memory does
not run out.
-/

namespace Verif.BedupRun

/-- The options, as `getopt` gives them, `src/server/bedup.c:904-940`. The number of `-m` is what `atoi`
makes of it; `help` also is an option that is not known or has no argument. -/
inductive Opt where
  | config (path : Str)
  | delete
  | groups (list : Str)
  | link
  | max (n : Int)
  | nonburp
  | version
  | verbose
  | help
  deriving DecidableEq, Repr

/-- The variables that are set from the options, `src/server/bedup.c:28-36,894-899`. -/
structure Vars where
  nonburp : Bool
  groups : Option Str
  /-- `configfile` if `givenconfigfile` -/
  config : Option Str
  deletedups : Bool
  makelinks : Bool
  maxlinks : Nat
  deriving DecidableEq, Repr

/-- `DEF_MAX_LINKS`, `src/server/bedup.c:20`. -/
def defMaxLinks : Nat := 10000

/-- An `int` in an `unsigned int`. -/
def unsigned (n : Int) : Nat := (n % 2 ^ 32).toNat

def initial : Vars := ⟨false, none, none, false, false, defMaxLinks⟩

/-- What the loop over the options comes to. -/
inductive Parsed where
  /-- bedup ends with this code -/
  | exit (code : Nat)
  | vars (v : Vars)
  deriving DecidableEq, Repr

/-- The loop, `src/server/bedup.c:904-940`. -/
def parse (v : Vars) : List Opt → Parsed
  | [] => .vars v
  | .config p :: os => parse { v with config := some p } os
  | .delete :: os => parse { v with deletedups := true } os
  | .groups g :: os => parse { v with groups := some g } os
  | .link :: os => parse { v with makelinks := true } os
  | .max n :: os => parse { v with maxlinks := unsigned n } os
  | .nonburp :: os => parse { v with nonburp := true } os
  | .verbose :: os => parse v os
  | .version :: _ => .exit 0
  | .help :: _ => .exit 1

/-- The checks, `src/server/bedup.c:942-989`: whether bedup goes on. -/
def accepted (v : Vars) (args : List Str) : Bool :=
  !(v.nonburp && v.config.isSome) && !(v.nonburp && v.groups.isSome)
    && !(!v.nonburp && v.maxlinks != defMaxLinks) && !(v.deletedups && v.makelinks)
    && !(v.deletedups && !v.nonburp)
    && (if args.isEmpty then !v.nonburp else v.nonburp)
    && !(decide (v.maxlinks < 2))

/-- `strtok` with `",\n"`, again and again, `src/server/bedup.c:763-774`: the names that are not empty.
`cur` is the name so far. -/
def groupNames (cur : Str) : Str → List Str
  | [] => if cur = [] then [] else [cur]
  | x :: xs =>
    if x = 44 ∨ x = newline then
      if cur = [] then groupNames [] xs else cur :: groupNames [] xs
    else groupNames (cur ++ [x]) xs

/-- What `process_dir` comes to, `src/server/bedup.c:531-624`. -/
inductive Res where
  | done
  /-- not one of our directories, or one that cannot be opened -/
  | skipped
  | error
  deriving DecidableEq, Repr

/-- What the configuration of a client says. -/
structure ClientConf where
  group : Option Str
  /-- `directory` -/
  directory : Str
  /-- `client_lockdir` -/
  lockdir : Option Str
  deriving DecidableEq, Repr

/-- A name in `clientconfdir`. -/
structure Entry where
  name : Str
  /-- `d_ino==0` -/
  noInode : Bool
  /-- `is_regular_file` -/
  regular : Bool
  /-- `none` if it cannot be loaded -/
  conf : Option ClientConf
  deriving DecidableEq, Repr

/-- The configuration of the server. -/
structure Conf where
  isServer : Bool
  maxHardlinks : Int
  lockfile : Str
  /-- what `readdir` gives, `none` if the directory cannot be opened -/
  clients : Option (List Entry)
  deriving DecidableEq, Repr

/-- What bedup finds: configuration files, which locks can be got, and what the work on a directory comes
to. -/
structure World where
  conf : Str → Option Conf
  free : Str → Bool
  result : Str → Res

/-- What bedup does, in order. -/
inductive Ev where
  | locked (path : Str)
  /-- `process_dir` on a directory, with the knowledge of burp's storage or without -/
  | work (burp : Bool) (dir : Str)
  /-- every lock is given up -/
  | released
  deriving DecidableEq, Repr

/-- The lock of a client, `src/server/bedup.c:710-714`. -/
def lockPath (e : Entry) (c : ClientConf) : Str :=
  Prepend.prependS (some (Prepend.prependS (some (c.lockdir.getD c.directory)) e.name))
    (bytes "lockfile.bedup")

/-- The storage directory of a client, `src/server/bedup.c:742-743`. -/
def storage (e : Entry) (c : ClientConf) : Str := Prepend.prependS (some c.directory) e.name

/-- `in_group`, `src/server/bedup.c:648-656`, and where it is called, 701-708. -/
def inGroup (groups : Option (List Str)) (c : ClientConf) : Bool :=
  match groups with
  | none => true
  | some gs =>
    match c.group with
    | none => false
    | some g => gs.contains g

/-- The loop of `iterate_over_clients`, `src/server/bedup.c:672-752`: what is done, and whether it is
success. A client whose configuration cannot be loaded ends everything, as success. The empty name does
not occur. -/
def clients (w : World) (groups : Option (List Str)) : List Entry → List Ev × Bool
  | [] => ([.released], true)
  | e :: es =>
    if e.noInode || decide (Auth.cnameValid e.name ≠ .valid) || !e.regular then clients w groups es
    else
      match e.conf with
      | none => ([], true)
      | some c =>
        if !inGroup groups c then clients w groups es
        else if !w.free (lockPath e c) then clients w groups es
        else
          let before := [.locked (lockPath e c), .work true (storage e c)]
          match w.result (storage e c) with
          | .error => (before ++ [.released], false)
          | _ => let r := clients w groups es
                 (before ++ r.1, r.2)

/-- `process_from_conf`, `src/server/bedup.c:760-841`, and `iterate_over_clients` before its loop. The
third part is the limit on links that is used. -/
def fromConf (w : World) (path : Str) (groups : Option Str) : List Ev × Bool × Option Nat :=
  let names := groups.map (groupNames [])
  if names = some [] then ([], false, none)
  else match w.conf path with
    | none => ([], false, none)
    | some c =>
      if !c.isServer then ([], false, none)
      else
        let lock := c.lockfile ++ bytes ".bedup"
        let m := some (unsigned c.maxHardlinks)
        if names.isNone && !w.free lock then ([], false, m)
        else
          let before := if names.isNone then [.locked lock] else []
          match c.clients with
          | none => (before, true, m)
          | some es =>
            let r := clients w names es
            (before ++ r.1, r.2, m)

/-- An argument without its last slash, `src/server/bedup.c:852-854`; `none` is a read of the byte before
the argument. -/
def trimmed (a : Str) : Option Str :=
  match a.getLast? with
  | none => none
  | some c => some (if c = slash then a.dropLast else a)

/-- `get_link`, `src/server/bedup.c:489-496`, with the name that is in the buffer and the target of the link,
if there is one: the name without its last slash; `none` is a read of the byte before the buffer. -/
def getLink (buffer : Str) (link : Option Str) : Option Str := trimmed (link.getD buffer)

/-- `process_from_command_line`, `src/server/bedup.c:843-856`. The last part tells whether the run is
defined. -/
def fromArgs (w : World) : List Str → List Ev × Bool × Bool
  | [] => ([], true, true)
  | a :: as =>
    match trimmed a with
    | none => ([], false, false)
    | some d =>
      match w.result d with
      | .done =>
        let r := fromArgs w as
        (.work false d :: r.1, r.2)
      | _ => ([.work false d], false, true)

/-- What a run of bedup comes to. -/
structure Run where
  /-- the exit code -/
  code : Nat
  evs : List Ev
  deletes : Bool
  links : Bool
  /-- the limit on links, if it has been decided on -/
  max : Option Nat
  defined : Bool
  deriving DecidableEq, Repr

/-- `run_bedup`, `src/server/bedup.c:892-1012`; `dflt` is the usual configuration file. -/
def run (w : World) (dflt : Str) (opts : List Opt) (args : List Str) : Run :=
  match parse initial opts with
  | .exit n => ⟨n, [], false, false, none, true⟩
  | .vars v =>
    if !accepted v args then ⟨1, [], false, false, none, true⟩
    else if v.nonburp then
      let r := fromArgs w args
      ⟨if r.2.1 then 0 else 1, r.1, v.deletedups, v.makelinks, some v.maxlinks, r.2.2⟩
    else
      let r := fromConf w (v.config.getD dflt) v.groups
      ⟨if r.2.1 then 0 else 1, r.1, v.deletedups, v.makelinks, r.2.2, true⟩

end Verif.BedupRun
