import Verif.Model.Basic

/-!
# Running as another user: `chuser_and_or_chgrp`, `src/handy.c:338-459`

The system calls are not code of burp. What they do to the credentials of a process is written down here
from their manual pages (setuid(2), setgid(2), setreuid(2), initgroups(3), capabilities(7)). Of the
capabilities it is known whether a process has all of them, none, or the one for reading everything.
Memory does not run out. File system ids follow the effective ids and are left out.
-/

namespace Verif.Privs

/-- A set of capabilities: none, `CAP_DAC_READ_SEARCH` alone, or all. -/
inductive Caps where
  | none
  | read
  | all
  deriving DecidableEq, Repr

/-- The credentials of a process, credentials(7). -/
structure Cred where
  ruid : Nat
  euid : Nat
  suid : Nat
  rgid : Nat
  egid : Nat
  sgid : Nat
  /-- the supplementary groups -/
  groups : List Nat
  permitted : Caps
  effective : Caps
  /-- the flag of `PR_SET_KEEPCAPS` -/
  keep : Bool
  deriving DecidableEq, Repr

/-- The system calls that change the credentials. -/
inductive Call where
  /-- `initgroups`: the list that it makes -/
  | setgroups (groups : List Nat)
  | setgid (gid : Nat)
  | setuid (uid : Nat)
  | setreuid (ruid euid : Nat)
  /-- `prctl(PR_SET_KEEPCAPS, 1)` -/
  | keepCaps
  /-- `cap_set_proc` with this set permitted and effective -/
  | capset (caps : Caps)
  deriving DecidableEq, Repr

/-- The capabilities after user ids have changed, capabilities(7), "Effect of user ID changes on
capabilities". -/
def fixCaps (old new : Cred) : Cred :=
  let n :=
    if (old.ruid = 0 ∨ old.euid = 0 ∨ old.suid = 0)
        ∧ new.ruid ≠ 0 ∧ new.euid ≠ 0 ∧ new.suid ≠ 0 ∧ old.keep = false then
      { new with permitted := .none, effective := .none }
    else new
  if old.euid = 0 ∧ new.euid ≠ 0 then { n with effective := .none }
  else if old.euid ≠ 0 ∧ new.euid = 0 then { n with effective := n.permitted }
  else n

/-- Whether a set of capabilities is within another. -/
def Caps.within : Caps → Caps → Bool
  | .none, _ => true
  | .read, .read => true
  | _, .all => true
  | _, _ => false

/-- What a system call does; `none` if it is not allowed. -/
def call (c : Cred) : Call → Option Cred
  | .setgroups gs => if c.effective = .all then some { c with groups := gs } else none
  | .setgid g =>
    if c.effective = .all then some { c with rgid := g, egid := g, sgid := g }
    else if g = c.rgid ∨ g = c.sgid then some { c with egid := g }
    else none
  | .setuid u =>
    if c.effective = .all then some (fixCaps c { c with ruid := u, euid := u, suid := u })
    else if u = c.ruid ∨ u = c.suid then some (fixCaps c { c with euid := u })
    else none
  | .setreuid r e =>
    if c.effective = .all
        ∨ ((r = c.ruid ∨ r = c.euid) ∧ (e = c.ruid ∨ e = c.euid ∨ e = c.suid)) then
      some (fixCaps c { c with ruid := r, euid := e, suid := e })
    else none
  | .keepCaps => some { c with keep := true }
  | .capset s =>
    if s.within c.permitted then some { c with permitted := s, effective := s } else none

/-- An entry of the password database. -/
structure Passwd where
  name : Str
  uid : Nat
  gid : Nat
  deriving DecidableEq, Repr

/-- The databases of users and groups, how burp was built, and which calls fail although they are
allowed. -/
structure Site where
  /-- `getpwnam` -/
  pwnam : Str → Option Passwd
  /-- `getpwuid` -/
  pwuid : Nat → Option Passwd
  /-- `getgrnam`, the id -/
  grnam : Str → Option Nat
  /-- `getgrgid`, whether there is one -/
  grgid : Nat → Bool
  /-- the groups that name this user as a member -/
  memberOf : Str → List Nat
  /-- `ENABLE_KEEP_READALL_CAPS_SUPPORT` -/
  canKeep : Bool
  fails : Call → Bool

/-- What is asked for: the arguments of `chuser_and_or_chgrp`, `src/handy.c:338`. -/
structure Ask where
  user : Option Str
  group : Option Str
  readall : Bool
  deriving DecidableEq, Repr

/-- "Allow setting readall=1 without setting user", `src/handy.c:349-351`. -/
def askedUser (a : Ask) : Option Str :=
  if a.readall && a.user.isNone then some (bytes "nobody") else a.user

/-- The user, `src/handy.c:354-376`: the one that is named, or the one that runs the program. The name that
is kept is the one that was asked for. -/
def lookupUser (s : Site) (user : Option Str) (c : Cred) : Option Passwd :=
  match user with
  | some u => (s.pwnam u).map ({ · with name := u })
  | none => s.pwuid c.ruid

/-- The group, `src/handy.c:377-398`: the one that is named, or that of the user, which has to be in the
database. -/
def lookupGroup (s : Site) (group : Option Str) (p : Passwd) : Option Nat :=
  match group with
  | some g => s.grnam g
  | none => if s.grgid p.gid then some p.gid else none

/-- The calls, each with what it depends on, `src/handy.c:399-451`: `none` where nothing is called. -/
def steps (s : Site) (a : Ask) (p : Passwd) (gid : Nat) : List (Cred → Option Call) :=
  [fun c => if gid ≠ c.rgid then some (.setgroups (gid :: s.memberOf p.name)) else none,
   fun c => if a.group.isSome ∧ gid ≠ c.rgid then some (.setgid gid) else none]
  ++ (if a.readall then
      [fun _ => some .keepCaps, fun _ => some (.setreuid p.uid p.uid), fun _ => some (.capset .read)]
    else
      [fun c => if p.uid ≠ c.ruid then some (.setuid p.uid) else none])

/-- One after the other, up to the first that fails. -/
def runSteps (s : Site) (c : Cred) : List (Cred → Option Call) → Bool × Cred
  | [] => (true, c)
  | f :: fs =>
    match f c with
    | none => runSteps s c fs
    | some k =>
      if s.fails k then (false, c)
      else
        match call c k with
        | none => (false, c)
        | some c' => runSteps s c' fs

/-- `chuser_and_or_chgrp`, `src/handy.c:338-459`: whether it returns 0, and the credentials then. Without
support for it, `readall` fails after the groups have been changed, `src/handy.c:447-450`. -/
def change (s : Site) (a : Ask) (c : Cred) : Bool × Cred :=
  if (askedUser a).isNone && a.group.isNone then (true, c)
  else
    match lookupUser s (askedUser a) c with
    | none => (false, c)
    | some p =>
      match lookupGroup s a.group p with
      | none => (false, c)
      | some gid =>
        if a.readall && !s.canKeep then
          (false, (runSteps s c ((steps s a p gid).take 2)).2)
        else runSteps s c (steps s a p gid)

/-- The program after it has started, `src/prog.c:506-510`: with which credentials it goes on; `none` if
it ends. A client has `readall` for a backup only, `src/prog.c:488-496`; a server never. -/
def start (s : Site) (a : Ask) (c : Cred) : Option Cred :=
  if (change s a c).1 then some (change s a c).2 else none

/-- A setting of the client on the server: its own, or that of the server (`CONF_FLAG_CC_OVERRIDE`,
`src/conf.c:562-567`). -/
def inherited (server own : Option Str) : Option Str :=
  if own.isSome then own else server

/-- Whether the process for a client changes again, `src/server/child.c:277-278`. -/
def again (server client : Option Str) : Bool :=
  server.isNone || (client.isSome && decide (server ≠ client))

/-- The process for a client, `src/server/child.c:265-286`: with which credentials it goes on; `none` if
the client is refused. -/
def child (s : Site) (su sg cu cg : Option Str) (c : Cred) : Option Cred :=
  let u := inherited su cu
  let g := inherited sg cg
  if again su u || again sg g then
    if (change s ⟨u, g, false⟩ c).1 then some (change s ⟨u, g, false⟩ c).2 else none
  else some c

/-- A server that was started with `c` and the process it makes for a client. -/
def serve (s : Site) (su sg cu cg : Option Str) (c : Cred) : Option Cred :=
  match start s ⟨su, sg, false⟩ c with
  | none => none
  | some c' => child s su sg cu cg c'

/-- Any calls afterwards; those that are not allowed do nothing. -/
def later (c : Cred) : List Call → Cred
  | [] => c
  | k :: ks => later ((call c k).getD c) ks

end Verif.Privs
