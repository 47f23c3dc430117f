import Verif.Model.Basic

/-!
# The directories of one client and the links to them, with power cuts

`src/server/backup.c`, `src/server/backup_phase4.c`, `src/server/delete.c` and `src/server/rubble.c`, as
sequences of operations on the file system that can be cut off after any of them. A directory of a
backup is known by a number that stands for its whole name, which is made of the number of the backup and
the time (see `Verif/Model/BackupNumber.lean`); numbers are in the order of the names. What happens inside
`jiggle` is in `Verif/Model/Jiggle.lean`. Operations do not fail for reasons that lie outside the code,
such as a full disc.
-/

namespace Verif.Links

/-- How far the backup in a directory has come: created; scanned, that is phase 1 is complete; ready,
that is phases 2 and 3 are complete too; complete, that is phase 4 has put all data in place. A
directory that is being removed is like one just created. -/
inductive Stage where
  | created | scanned | ready | complete
  deriving DecidableEq, Repr

/-- A directory: how far it has come, and whether it has the file `hardlinked`. -/
structure Dir where
  stage : Stage
  hard : Bool
  deriving DecidableEq, Repr

/-- The symbolic links `current`, `currenttmp`, `working` and `finishing`, the directories, and
`currentdup` (`src/server/fdirs.c:12-31`), which is inside the directory of the client. -/
structure State where
  current : Option Nat := none
  currenttmp : Option Nat := none
  working : Option Nat := none
  finishing : Option Nat := none
  dup : Option Dir := none
  dirs : Nat → Option Dir := fun _ => none

/-- Replace one directory. -/
def upd (f : Nat → Option Dir) (n : Nat) (v : Option Dir) : Nat → Option Dir :=
  fun m => if m = n then v else f m

/-- Single operations. -/
inductive Op where
  /-- `do_symlink(fname, sdirs->working)`, `src/server/sdirs.c:100` -/
  | linkWorking (n : Nat)
  /-- `mkdir(sdirs->rworking)`, `src/server/sdirs.c:107` -/
  | mkdir (n : Nat)
  /-- a phase has been completed, or removing has begun -/
  | stage (n : Nat) (s : Stage)
  /-- the file `hardlinked` is written or removed, `src/server/backup_phase4.c:803-823` -/
  | hard (n : Nat) (b : Bool)
  /-- `do_rename(sdirs->working, sdirs->finishing)`, `src/server/backup.c:262` -/
  | workingToFinishing
  /-- `recursive_hardlink(sdirs->current, ...)` and the renaming to `currentdup`,
  `src/server/backup_phase4.c:785-790`; fails if `current` points to nothing -/
  | dupCurrent
  /-- `deleteme_move`, `src/server/deleteme.c:9-58`; nothing happens if there is no such directory -/
  | moveAside (n : Nat)
  /-- `do_rename(fdirs->currentdup, fdirs->fullrealcurrent)`, `src/server/backup_phase4.c:856` -/
  | dupBack (n : Nat)
  /-- `do_rename(sdirs->finishing, sdirs->current)`, `src/server/backup.c:275`, `src/server/rubble.c:296` -/
  | finishingToCurrent
  /-- `do_rename_w(bu->path, sdirs->deleteme, ...)`, `src/server/delete.c:59,79,95`; also the last step of
  `recursive_delete(sdirs->rworking)`, `src/server/rubble.c:117` -/
  | remove (n : Nat)
  /-- `unlink(sdirs->current)`, `src/server/delete.c:63` -/
  | unlinkCurrent
  /-- `unlink(sdirs->currenttmp)` and `do_symlink(target, sdirs->currenttmp)`,
  `src/server/delete.c:76-77` -/
  | linkTmp (n : Nat)
  /-- `do_rename(sdirs->currenttmp, sdirs->current)`, `src/server/delete.c:87`,
  `src/server/rubble.c:434,448` -/
  | tmpToCurrent
  /-- `unlink_w(sdirs->currenttmp)`, `src/server/rubble.c:414,440` -/
  | unlinkTmp
  /-- `unlink(sdirs->working)`, `src/server/rubble.c:124,169` -/
  | unlinkWorking
  deriving DecidableEq, Repr

/-- The effect of one operation, `none` if it fails. -/
def exec (o : Op) (s : State) : Option State :=
  match o with
  | .linkWorking n => match s.working with
    | none => some { s with working := some n }
    | some _ => none
  | .mkdir n => match s.dirs n with
    | none => some { s with dirs := upd s.dirs n (some ⟨.created, false⟩) }
    | some _ => none
  | .stage n st => match s.dirs n with
    | none => none
    | some d => some { s with dirs := upd s.dirs n (some { d with stage := st }) }
  | .hard n b => match s.dirs n with
    | none => none
    | some d => some { s with dirs := upd s.dirs n (some { d with hard := b }) }
  | .workingToFinishing => match s.working with
    | none => none
    | some n => some { s with working := none, finishing := some n }
  | .dupCurrent => match s.current with
    | none => none
    | some c => match s.dirs c with
      | none => none
      | some d => some { s with dup := some d }
  | .moveAside n => some { s with dirs := upd s.dirs n none }
  | .dupBack n => match s.dup with
    | none => none
    | some d => match s.dirs n with
      | none => some { s with dup := none, dirs := upd s.dirs n (some d) }
      | some _ => none
  | .finishingToCurrent => match s.finishing with
    | none => none
    | some n => some { s with finishing := none, current := some n }
  | .remove n => match s.dirs n with
    | none => none
    | some _ => some { s with dirs := upd s.dirs n none }
  | .unlinkCurrent => match s.current with
    | none => none
    | some _ => some { s with current := none }
  | .linkTmp n => some { s with currenttmp := some n }
  | .tmpToCurrent => match s.currenttmp with
    | none => none
    | some t => some { s with currenttmp := none, current := some t }
  | .unlinkTmp => match s.currenttmp with
    | none => none
    | some _ => some { s with currenttmp := none }
  | .unlinkWorking => match s.working with
    | none => none
    | some _ => some { s with working := none }

/-- Run operations in order. The code stops at the first that fails. -/
def run : List Op → State → Option State
  | [], s => some s
  | o :: os, s => match exec o s with
    | none => none
    | some s' => run os s'

/-- Where the state is when the operations have been cut off after some of them, or have stopped because
one failed. -/
inductive Cut : List Op → State → State → Prop where
  | here {os s} : Cut os s s
  | step {o os s s' s''} (h : exec o s = some s') (hc : Cut os s' s'') : Cut (o :: os) s s''

/-- `lstat(fdirs->hlinkedcurrent)`, `src/server/backup_phase4.c:762`, which goes through the link
`current`. -/
def hasHard : Option Dir → Bool
  | none => false
  | some d => d.hard

/-- `backup_phase4_server_all`, `src/server/backup_phase4.c:726-868`, for the directory that `finishing`
points to. `h` says whether the new backup is to be a hardlinked archive. -/
def phase4 (s : State) (n : Nat) (h : Bool) : List Op :=
  match s.current with
  | none => [.hard n h, .stage n .complete]
  | some c =>
    if hasHard (s.dirs c) then [.hard n h, .stage n .complete]
    else (if s.dup.isNone then [.dupCurrent] else []) ++
      [.hard n h, .stage n .complete, .moveAside c, .dupBack c]

/-- The end of `do_backup_server`, `src/server/backup.c:262-277`, from the renaming on. `s` is the state
before. -/
def finish (s : State) (n : Nat) (h : Bool) : List Op := phase4 s n h ++ [.finishingToCurrent]

/-- `do_backup_server`, `src/server/backup.c:167-298`, for a new backup. -/
def newBackup (s : State) (n : Nat) (h : Bool) : List Op :=
  [.linkWorking n, .mkdir n, .stage n .scanned, .stage n .ready, .workingToFinishing] ++ finish s n h

/-- `do_backup_server` when resuming. -/
def resumeBackup (s : State) (n : Nat) (h : Bool) : List Op :=
  [.stage n .ready, .workingToFinishing] ++ finish s n h

/-- `delete_backup`, `src/server/delete.c:51-101`: `prev` and `next` are the neighbours of `b` in the
list of backups. What becomes of the directory once it is in `deleteme` is left out. -/
def deleteBackup (b : Nat) (prev next : Option Nat) : List Op :=
  match next, prev with
  | none, none => [.remove b, .unlinkCurrent]
  | none, some p => [.linkTmp p, .remove b, .tmpToCurrent]
  | some _, _ => [.remove b]

/-- `working_delete`, `src/server/rubble.c:94-127`. -/
def workingDelete (n : Nat) : List Op := [.stage n .created, .remove n, .unlinkWorking]

/-- `recover_currenttmp`, `src/server/rubble.c:404-450`, when `currenttmp` points to `t`. -/
def recoverCurrenttmp (s : State) (t : Nat) : List Op :=
  match s.dirs t with
  | none => [.unlinkTmp]
  | some _ => match s.current with
    | none => [.tmpToCurrent]
    | some c => match s.dirs c with
      | none => [.tmpToCurrent]
      | some _ => [.unlinkTmp]

/-- `check_for_rubble_and_clean`, `src/server/rubble.c:460-500`. `h` is as for `phase4`; `del` says
whether `recover_working` decides to delete (see `Verif/Model/Rubble.lean`), which it always does if the
scan was not completed. -/
def recover (s : State) (h : Bool) (del : Bool) : List Op :=
  match s.finishing with
  | some n => finish s n h
  | none => match s.working with
    | some n => match s.dirs n with
      | none => [.unlinkWorking]
      | some d => if del || d.stage == .created then workingDelete n else []
    | none => match s.currenttmp with
      | some t => recoverCurrenttmp s t
      | none => []

end Verif.Links
