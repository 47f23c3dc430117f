import Verif.Model.Basic

/-!
# Lock files: `src/lock.c`

One lock file, and any number of processes that use it. Locks belong to a process and an inode; closing the file
gives the lock up, and a child does not get the locks of its parent (`man lockf`, `man fcntl`). Each system call is
one step. Processes can die at any time.
-/

namespace Verif.Lock

/-- How far a process has got. -/
inductive Pc where
  | idle
  /-- `lock_get_quick`: the file is open -/
  | opened (i : Nat)
  /-- `GET_LOCK_NOT_GOT` -/
  | refused
  /-- `GET_LOCK_ERROR`, the file being open and locked -/
  | failed (i : Nat)
  /-- `GET_LOCK_GOT` -/
  | holding (i : Nat)
  /-- `lock_release`: the file has been removed, but is still open -/
  | unlinked (i : Nat)
  /-- `lock_test`: the file is open -/
  | testOpened (i : Nat)
  /-- `lock_test`: the lock was to be had, so it is held for the moment -/
  | testing (i : Nat)
  /-- the child of a process that held the lock goes on in its place -/
  | daemon (i : Nat)
  deriving DecidableEq, Repr

/-- The lock file: the inode at its path, who has locked which inode, the next inode to be used, and the
processes. -/
structure Sys where
  path : Option Nat
  owner : Nat → Option Nat
  next : Nat
  pc : Nat → Pc

def start : Sys := ⟨none, fun _ => none, 0, fun _ => .idle⟩

/-- Steps of process `p`. -/
inductive Act where
  /-- `open(…, O_WRONLY|O_CREAT, …)` -/
  | open (p : Nat)
  /-- `lockf(fd, F_TLOCK, 0)` and `lock_write_pid`, and whether the latter works -/
  | tlock (p : Nat) (wrote : Bool)
  /-- `unlink` in `lock_release` -/
  | unlink (p : Nat)
  /-- `close` in `lock_release` -/
  | close (p : Nat)
  | testOpen (p : Nat)
  | testLock (p : Nat)
  | testClose (p : Nat)
  /-- the process ends, however that may be -/
  | die (p : Nat)
  /-- `daemonise`: the process starts another and ends -/
  | daemonise (p c : Nat)
  deriving DecidableEq, Repr

def Sys.setPc (s : Sys) (p : Nat) (x : Pc) : Sys := { s with pc := fun q => if q = p then x else s.pc q }

def Sys.setOwner (s : Sys) (i : Nat) (x : Option Nat) : Sys :=
  { s with owner := fun j => if j = i then x else s.owner j }

/-- All locks of a process are given up. -/
def Sys.drop (s : Sys) (p : Nat) : Sys :=
  { s with owner := fun j => if s.owner j = some p then none else s.owner j }

/-- One step: `lock_get_quick`, src/lock.c:40-79 (`lock_get`, 106-136, only makes sure of the directory and the
disc), `lock_test`, 138-160, `lock_release`, 162-175, and `daemonise`, src/server/main.c:644-700. A step that the
process cannot make now does nothing. -/
def step (s : Sys) : Act → Sys
  | .open p => match s.pc p, s.path with
    | .idle, some i => s.setPc p (.opened i)
    | .idle, none => { s with path := some s.next, next := s.next + 1 }.setPc p (.opened s.next)
    | _, _ => s
  | .tlock p wrote => match s.pc p with
    | .opened i =>
      if s.owner i = none then
        (s.setOwner i (some p)).setPc p (if wrote then .holding i else .failed i)
      else s.setPc p .refused
    | _ => s
  | .unlink p => match s.pc p with
    | .holding i => { s with path := none }.setPc p (.unlinked i)
    | _ => s
  | .close p => match s.pc p with
    | .unlinked i => (s.setOwner i none).setPc p .idle
    | _ => s
  | .testOpen p => match s.pc p, s.path with
    | .idle, some i => s.setPc p (.testOpened i)
    | _, _ => s
  | .testLock p => match s.pc p with
    | .testOpened i =>
      if s.owner i = none then (s.setOwner i (some p)).setPc p (.testing i)
      else s.setPc p .idle
    | _ => s
  | .testClose p => match s.pc p with
    | .testing i => (s.setOwner i none).setPc p .idle
    | _ => s
  | .die p => (s.drop p).setPc p .idle
  | .daemonise p c => match s.pc p, s.pc c with
    | .holding i, .idle => if p = c then s else ((s.drop p).setPc p .idle).setPc c (.daemon i)
    | _, _ => s

/-- A history. -/
def run (s : Sys) : List Act → Sys
  | [] => s
  | a :: as => run (step s a) as

end Verif.Lock
