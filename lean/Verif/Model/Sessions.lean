import Verif.Model.Basic

/-!
# Sessions for one client at the same time: `run_action_server_do`, `src/server/run_action.c:461-591`

Each session is a process of its own. What they share is the directory of the client: its backups, the lock
for writing (`lock_storage_for_write`), in each backup the lock `lockfile.read`, and the file `restore_list`.
Locks are taken at once or not at all (`lock_get`); that one process at a time has a lock is the matter of
`Verif/Model/Lock.lean`. A restore sends the entries of a backup one after the other. The sessions that list
or compare take no locks and change nothing, and are left out.
-/

namespace Verif.Sessions
open Verif

/-- What a session that writes does to the backups. -/
inductive Change where
  | add (b : Nat)
  | remove (b : Nat)
  deriving DecidableEq, Repr

/-- What a session is for: restore or verify of this backup, with the list that the client sends, if any; or
a backup or a `Delete`, with what it does. -/
inductive Kind where
  | restore (b : Nat) (list : Option Str)
  | write (changes : List Change)
  deriving DecidableEq, Repr

/-- What came of a session. -/
inductive Outcome where
  /-- somebody else has the lock -/
  | refused
  /-- no such backup, or the list cannot be opened -/
  | failed
  /-- so many entries were sent, picked by this list -/
  | sent (n : Nat) (used : Option Str)
  | written
  | killed
  deriving DecidableEq, Repr

/-- How far a session is. -/
inductive Stage where
  | start
  /-- the list has been received -/
  | listed
  /-- the lock of the backup is had -/
  | locked
  /-- the entries have been counted -/
  | counted
  /-- so many entries to come, so many sent -/
  | reading (left got : Nat) (used : Option Str)
  /-- the lock has been given back -/
  | unlocked (o : Outcome)
  /-- the lock for writing is had -/
  | writing (todo : List Change)
  | done (o : Outcome)
  deriving DecidableEq, Repr

structure State where
  backups : List Nat
  writer : Option Nat
  reader : Nat → Option Nat
  /-- the file `restore_list` -/
  listFile : Option Str
  kind : Nat → Kind
  stage : Nat → Stage

/-- A function with one value changed. -/
def upd {α : Type} (f : Nat → α) (p : Nat) (x : α) : Nat → α := fun q => if q = p then x else f q

def State.at (s : State) (p : Nat) (g : Stage) : State := { s with stage := upd s.stage p g }

/-- Giving back the lock of a backup, `src/server/restore.c:655`. -/
def State.free (s : State) (b : Nat) : State := { s with reader := upd s.reader b none }

/-- Whether `maybe_open_restore_list` succeeds, `src/server/restore.c:150-164`. -/
def listOpens (s : State) (list : Option Str) : Bool := list.isNone || s.listFile.isSome

/-- The next step of a restore, `run_restore`, `src/server/run_action.c:227-290`, `do_restore_server` and
`restore_manifest`, `src/server/restore.c:568-736`. `size` says how many entries a backup has. An entry whose
data are gone is warned of and left out. -/
def restoreStep (size : Nat → Nat) (s : State) (p b : Nat) (list : Option Str) : Stage → State
  -- `src/server/run_action.c:264-270`
  | .start => ({ s with listFile := if list.isSome then list else s.listFile }).at p .listed
  -- `src/server/restore.c:688-721,581-591`
  | .listed =>
    if b ∉ s.backups then s.at p (.unlocked .failed)
    else if (s.reader b).isSome then s.at p (.unlocked .refused)
    else ({ s with reader := upd s.reader b (some p) }).at p .locked
  -- `setup_cntr`, `src/server/restore.c:166-222,625-627`
  | .locked =>
    if b ∈ s.backups ∧ listOpens s list then s.at p .counted
    else (s.free b).at p (.unlocked .failed)
  -- `actual_restore`, `src/server/restore.c:425-430,644`
  | .counted =>
    if b ∈ s.backups ∧ listOpens s list then
      s.at p (.reading (size b) 0 (if list.isSome then s.listFile else none))
    else (s.free b).at p (.unlocked .failed)
  | .reading 0 got used => (s.free b).at p (.unlocked (.sent got used))
  | .reading (n + 1) got used => s.at p (.reading n (if b ∈ s.backups then got + 1 else got) used)
  -- `src/server/run_action.c:521`
  | .unlocked o => ({ s with listFile := none }).at p (.done o)
  | .writing _ => s
  | .done _ => s

/-- The backups after a change. -/
def Change.apply (bs : List Nat) : Change → List Nat
  | .add b => b :: bs
  | .remove b => bs.filter (· ≠ b)

/-- The next step of a backup or a `Delete`, `src/server/run_action.c:525-569,601`. -/
def writeStep (s : State) (p : Nat) (changes : List Change) : Stage → State
  -- `get_lock_sdirs_for_write`, `src/server/run_action.c:28-74`
  | .start =>
    if s.writer.isSome then s.at p (.done .refused)
    else ({ s with writer := some p }).at p (.writing changes)
  | .writing [] => ({ s with writer := none }).at p (.done .written)
  | .writing (c :: cs) => ({ s with backups := c.apply s.backups }).at p (.writing cs)
  | _ => s

def step (size : Nat → Nat) (s : State) (p : Nat) : State :=
  match s.kind p with
  | .restore b list => restoreStep size s p b list (s.stage p)
  | .write cs => writeStep s p cs (s.stage p)

/-- A process that is killed loses its locks; files stay. -/
def kill (s : State) (p : Nat) : State :=
  match s.stage p with
  | .done _ => s
  | _ =>
    ({ s with
        writer := if s.writer = some p then none else s.writer
        reader := fun b => if s.reader b = some p then none else s.reader b }).at p (.done .killed)

inductive Event where
  | step (p : Nat)
  | kill (p : Nat)
  deriving DecidableEq, Repr

def exec (size : Nat → Nat) (s : State) : Event → State
  | .step p => step size s p
  | .kill p => kill s p

/-- Any interleaving. -/
def run (size : Nat → Nat) (s : State) (es : List Event) : State := es.foldl (exec size) s

/-- Before any of them. -/
def initial (backups : List Nat) (kind : Nat → Kind) : State :=
  ⟨backups, none, fun _ => none, none, kind, fun _ => .start⟩

end Verif.Sessions
