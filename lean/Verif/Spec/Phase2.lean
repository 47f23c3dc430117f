import Verif.Model.Phase2
import Verif.Spec.Merge

/-!
# Accounting for entries, and when an entry may be carried over
-/

namespace Verif
open Verif.Phase2

/-- The scanned entry that something is recorded about. -/
def Phase2.Out.scanned {E : Type} : Out E → Option E
  | .new p => some p
  | .changed p _ => some p
  | .unchanged p _ => some p
  | .deleted _ => none

/-- The entry of the previous backup that something is recorded about. -/
def Phase2.Out.previous {E : Type} : Out E → Option E
  | .new _ => none
  | .changed _ c => some c
  | .unchanged _ c => some c
  | .deleted c => some c

/-- Decisions to take the whole entry again. -/
def Whole (d : Processed) : Prop := d = .new ∨ d = .doneNew

instance (d : Processed) : Decidable (Whole d) := by unfold Whole; infer_instance

/-- The kinds of record whose content depends on more than the data of a file, so that a change of
the inode has to be noticed: the extra metadata, and files encrypted by Windows. -/
def extraKinds : List Cmd := [.metadata, .encMetadata, .efsFile, .vss, .encVss, .vssT, .encVssT]

/-- The same entry as before, as far as can be told without reading it: same kind, same modification
time, and same change time unless it is a plain entry of a client that is not Windows. -/
def LooksSame (windows : Bool) (old new : Ent) : Prop :=
  old.cmd = new.cmd ∧ old.mtime = new.mtime ∧
    (old.ctime = new.ctime ∨ windows = false ∧ new.cmd ∉ extraKinds)

/-- A hard link that has become a file, with the same inode and the same modification time. -/
def LinkBecameFile (old new : Ent) : Prop :=
  old.cmd = .hardLink ∧ (new.cmd = .file ∨ new.cmd = .encFile) ∧
    old.dev = new.dev ∧ old.ino = new.ino ∧ old.mtime = new.mtime

/-- A delta against the stored data is possible: it is allowed by the settings for files of both
sizes, and the stored data is a plain file stored with compression if and only if the new data will be. -/
def DeltaAllowed (s : Settings) (old new : Ent) : Prop :=
  s.librsync = true ∧ (s.maxSize = 0 ∨ old.size ≤ s.maxSize ∧ new.size ≤ s.maxSize) ∧
  old.cmd = .file ∧ new.cmd = .file ∧
  ((∃ d, old.datapth = some d ∧ (old.compression > 0 ∨ old.compression < 0 ∧ bytes ".gz" <:+ d)) ↔
    new.compression ≠ 0)

end Verif
