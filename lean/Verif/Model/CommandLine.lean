import Verif.Model.Request
import Verif.Model.Cntr

/-!
# The command line: `src/prog.c`

`main` from the words of the command line to `client` or `server`. The program is not called `bedup`, and
`POSIXLY_CORRECT` is not set. Not on Windows; allocation does not fail. What is logged is left out.
-/

namespace Verif.CommandLine
open Verif Seed

/-- The letters in the string for `getopt`, `src/prog.c:303`. -/
inductive Letter where
  /-- `-a` -/
  | action
  /-- `-b` -/
  | backup
  /-- `-C` -/
  | client
  /-- `-c` -/
  | conf
  /-- `-d` -/
  | dir
  /-- `-o` -/
  | override
  /-- `-F` -/
  | foreground
  /-- `-f` -/
  | force
  /-- `-g` -/
  | generateCa
  /-- `-h` -/
  | help
  /-- `-i` -/
  | symbols
  /-- `-j`, which nothing is done with -/
  | unused
  /-- `-l` -/
  | logfile
  /-- `-n` -/
  | noFork
  /-- `-Q` -/
  | quiet
  /-- `-q` -/
  | delay
  /-- `-R` -/
  | iregex
  /-- `-r` -/
  | regex
  /-- `-s` -/
  | strip
  /-- `-t` -/
  | test
  /-- `-V` -/
  | version
  /-- `-v` -/
  | verbose
  /-- `-X` -/
  | vssOff
  /-- `-x` -/
  | vssStrip
  /-- `-z` -/
  | browsefile
  /-- `-?` -/
  | question
  deriving DecidableEq, Repr

/-- The letters, with their bytes, and whether a colon is behind them, `src/prog.c:303`. -/
def letters : List (Letter × Byte × Bool) :=
  [(.action, 97, true), (.backup, 98, true), (.client, 67, true), (.conf, 99, true), (.dir, 100, true),
   (.override, 111, true), (.foreground, 70, false), (.force, 102, false), (.generateCa, 103, false),
   (.help, 104, false), (.symbols, 105, false), (.unused, 106, false), (.logfile, 108, true), (.noFork, 110, false),
   (.quiet, 81, false), (.delay, 113, true), (.iregex, 82, true), (.regex, 114, true), (.strip, 115, true),
   (.test, 116, false), (.version, 86, false), (.verbose, 118, false), (.vssOff, 88, false), (.vssStrip, 120, false),
   (.browsefile, 122, true), (.question, 63, false)]

/-- What `getopt` gives: an option, with its argument; or `?` for something that is wrong. -/
inductive Item where
  | opt (l : Letter) (arg : Option Str)
  | bad
  deriving DecidableEq, Repr

/-- One word behind its `-`: what is in it, and an option at its end that has its argument in the next word. -/
def cluster : Str → List Item × Option Letter
  | [] => ([], none)
  | c :: t => match letters.find? (fun x => decide (x.2.1 = c)) with
    | none => (.bad :: (cluster t).1, (cluster t).2)
    | some (l, _, true) => if t = [] then ([], some l) else ([.opt l (some t)], none)
    | some (l, _, false) => (.opt l none :: (cluster t).1, (cluster t).2)

/-- A word with options: a `-`, and something behind it. -/
def optWord : Str → Option Str
  | 45 :: c :: t => some (c :: t)
  | _ => none

/-- `getopt` of the C library, called until it gives -1: what it gives, and whether words are left, which it has moved
to the end. The first argument is an option that waits for its argument. -/
def getopt : Option Letter → List Str → List Item × Bool
  | some _, [] => ([.bad], false)
  | some l, w :: ws => (.opt l (some w) :: (getopt none ws).1, (getopt none ws).2)
  | none, [] => ([], false)
  | none, w :: ws =>
    if w = bytes "--" then ([], !ws.isEmpty)
    else match optWord w with
      | some s => ((cluster s).1 ++ (getopt (cluster s).2 ws).1, (getopt (cluster s).2 ws).2)
      | none => ((getopt none ws).1, true)

/-- `enum action`. -/
inductive Act where
  | backup | backupTimed | timerCheck | restore | verify | list | listLong | listParseable | status | statusSnapshot
  | estimate | delete | diff | diffLong | monitor
  deriving DecidableEq, Repr

/-- `!strncmp(optarg, s, 1)` -/
def firstIs (s : Str) (c : Byte) : Bool := decide (s.head? = some c)

/-- `parse_action`, `src/prog.c:143-194`: the action, and what is added to the overrides. -/
def parseAction (s : Str) : Option (Act × List Str) :=
  if firstIs s 98 then some (.backup, [])
  else if firstIs s 116 then some (.backupTimed, [])
  else if firstIs s 84 then some (.timerCheck, [])
  else if firstIs s 114 then some (.restore, [])
  else if firstIs s 82 then some (.restore, [bytes "restore_list=/dev/stdin"])
  else if firstIs s 118 then some (.verify, [])
  else if firstIs s 86 then some (.verify, [bytes "restore_list=/dev/stdin"])
  else if firstIs s 108 then some (.list, [])
  else if firstIs s 76 then some (.listLong, [])
  else if firstIs s 112 then some (.listParseable, [])
  else if firstIs s 115 then some (.status, [])
  else if firstIs s 83 then some (.statusSnapshot, [])
  else if firstIs s 101 then some (.estimate, [])
  else if (bytes "delete").isPrefixOf s then some (.delete, [])
  else if firstIs s 100 then some (.diff, [])
  else if firstIs s 68 then some (.diffLong, [])
  else if firstIs s 109 then some (.monitor, [])
  else none

/-- `enum vss_restore` -/
inductive Vss where
  | on | off | offStrip
  deriving DecidableEq, Repr

/-- The variables of `real_main`, `src/prog.c:266-295`. `restoreprefix` and `browsedir` are always the same. -/
structure Line where
  act : Act
  backup : Option Str
  backup2 : Option Str
  origClient : Option Str
  conffile : Str
  dir : Option Str
  daemon : Bool
  force : Bool
  generateCa : Bool
  logfile : Option Str
  forking : Bool
  overrides : List Str
  randomise : Int
  regex : Option Str
  caseInsensitive : Bool
  strip : Int
  vss : Vss
  test : Bool
  browsefile : Option Str
  deriving DecidableEq, Repr

/-- What they are at first, `src/prog.c:266-295`. -/
def Line.init (conffile : Str) : Line :=
  ⟨.list, none, none, none, conffile, none, true, false, false, none, true, [], 0, none, false, 0, .on, false, none⟩

/-- What one option does. -/
inductive Step where
  | go (l : Line)
  /-- `-i`, `-V`: 0 -/
  | shown
  /-- `usage()`: 1 -/
  | usage
  deriving DecidableEq, Repr

/-- One time through the loop, `src/prog.c:305-393`. -/
def step (l : Line) : Item → Step
  | .bad => .usage
  | .opt .action (some v) => match parseAction v with
    | some (a, o) => .go { l with act := a, overrides := l.overrides ++ o }
    | none => .usage
  | .opt .backup v =>
    let l := if l.backup2.isNone && l.backup.isSome then { l with backup2 := v } else l
    .go (if l.backup.isNone then { l with backup := v } else l)
  | .opt .client v => .go { l with origClient := v }
  | .opt .conf v => .go { l with conffile := v.getD l.conffile }
  | .opt .dir v => .go { l with dir := v }
  | .opt .foreground _ => .go { l with daemon := false }
  | .opt .force _ => .go { l with force := true }
  | .opt .generateCa _ => .go { l with generateCa := true }
  | .opt .symbols _ => .shown
  | .opt .logfile v => .go { l with logfile := v }
  | .opt .noFork _ => .go { l with forking := false }
  | .opt .override v => .go { l with overrides := l.overrides ++ v.toList }
  | .opt .quiet _ => .go { l with overrides := l.overrides ++ [bytes "progress_counter=0", bytes "stdout=0"] }
  | .opt .delay v => .go { l with randomise := Cntr.atoi (v.getD []) }
  | .opt .iregex v => .go { l with caseInsensitive := true, regex := v }
  | .opt .regex v => .go { l with caseInsensitive := false, regex := v }
  | .opt .strip v => .go { l with strip := Cntr.atoi (v.getD []) }
  | .opt .version _ => .shown
  | .opt .verbose _ => .go { l with overrides := l.overrides ++ [bytes "stdout=1"] }
  | .opt .vssOff _ => .go { l with vss := .off }
  | .opt .vssStrip _ => .go { l with vss := .offStrip }
  | .opt .test _ => .go { l with test := true }
  | .opt .browsefile v => .go { l with browsefile := v }
  | .opt .action none => .usage
  | .opt .help _ => .usage
  | .opt .question _ => .usage
  | .opt .unused _ => .usage

/-- The loop, `src/prog.c:303-394`. -/
def loop : List Item → Line → Step
  | [], l => .go l
  | i :: is, l => match step l i with
    | .go l' => loop is l'
    | s => s

/-- `enum burp_mode`, from the configuration. -/
inductive Mode where
  | server | client
  deriving DecidableEq, Repr

/-- What is in a configuration file: the mode and `randomise`. -/
structure Conf where
  mode : Mode
  randomise : Int
  deriving DecidableEq, Repr

/-- What else decides: what is in a configuration file with overrides, whether the settings for a client can be
loaded, whether the lock can be got (`get_prog_lock`, `src/prog.c:231-256`), and whether user and group can be
changed. -/
structure Env where
  load : Str → List Str → Option Conf
  loadClient : Str → Bool
  lock : Bool
  chuser : Bool

/-- What the program does in the end. -/
inductive Out where
  | usage
  | shown
  | badConf
  /-- `-t`, and what it returns -/
  | tested (code : Int)
  | noBackup
  | noLock
  | noUser
  /-- `server()`, with the lock -/
  | server (l : Line)
  /-- `client()`, after a delay of this number of seconds at most, with or without the lock -/
  | client (l : Line) (delay : Int) (locked : Bool)
  deriving DecidableEq, Repr

/-- `run_test_confs`, `src/prog.c:207-229`: what it returns. -/
def runTestConfs (e : Env) : Option Str → Int
  | none => 0
  | some c => if e.loadClient c then -1 else -1

/-- Backups that are not given, `src/prog.c:427-449`. `none` if there is none to delete. -/
def Line.defaults (l : Line) : Option Line :=
  if l.backup.isNone && decide (l.act = .delete) then none
  else
    let l := if l.backup.isNone && decide (l.act ∈ [Act.restore, .verify, .diff, .diffLong]) then
      { l with backup := some (bytes "0") } else l
    some (if l.backup2.isNone && decide (l.act ∈ [Act.diff, .diffLong]) then
      { l with backup2 := some (bytes "n") } else l)

/-- An original client with an empty name is not set, `src/prog.c:457-460`; slashes at the end of the directory are
taken off, `src/prog.c:518-519`. -/
def Line.settle (l : Line) : Line :=
  { l with
    origClient := l.origClient.filter (fun c => !c.isEmpty)
    dir := l.dir.map stripTrailing }

/-- The actions of a client that need the lock, `src/prog.c:482-503`. -/
def Act.locks (a : Act) : Bool := decide (a ∈ [Act.backup, .backupTimed, .timerCheck])

/-- `real_main`, `src/prog.c:401-550`, behind the loop; the delay is `random_delay`, `src/prog.c:196-205`. -/
def start (e : Env) (l : Line) : Out :=
  let overrides := l.overrides ++ (if l.act = .listParseable then [bytes "stdout=0"] else [])
  match e.load l.conffile overrides with
  | none => .badConf
  | some c =>
    if l.test then .tested (runTestConfs e l.origClient)
    else match l.defaults with
      | none => .noBackup
      | some l =>
        let l : Line := { l with overrides := overrides }
        let delay : Int := if decide (c.mode = .client) && decide (l.act ∈ [Act.backupTimed, .timerCheck]) then
          if l.randomise ≠ (0 : Int) then l.randomise else c.randomise else (0 : Int)
        let wanted := decide (c.mode = .server) || l.act.locks
        if wanted && !e.lock then .noLock
        else if !e.chuser then .noUser
        else match c.mode with
          | .server => .server l.settle
          | .client => .client l.settle delay wanted

/-- `real_main`, `src/prog.c:264-399`. -/
def main (e : Env) (conffile : Str) (argv : List Str) : Out :=
  match loop (getopt none argv).1 (Line.init conffile) with
  | .shown => .shown
  | .usage => .usage
  | .go l => if (getopt none argv).2 then .usage else start e l

/-- What it returns, when `client` or `server` do not say. -/
def Out.code : Out → Option Int
  | .shown => some 0
  | .tested c => some c
  | .noUser => some (-1)
  | .server _ => none
  | .client _ _ _ => none
  | _ => some 1

/-- What `client` asks the server for, as in `Verif.Model.Request`. Whether there is a list of files to
restore comes from the configuration. -/
def Line.args (l : Line) (restoreList : Bool) : Option Request.Args :=
  let mk := fun w => some (Request.Args.mk w l.backup l.backup2 l.regex l.dir restoreList)
  match l.act with
  | .restore => mk .restore
  | .verify => mk .verify
  | .list | .listLong | .listParseable => mk .list
  | .diff | .diffLong => mk .diff
  | .delete => mk .delete
  | _ => none

end Verif.CommandLine
