import Verif.Model.Jiggle
import Verif.Spec.History

/-!
# What finishing a backup has to achieve in spite of power cuts
-/

namespace Verif
open Verif.History Verif.Jiggle

variable {C D S K : Type}

/-- The file system at the start of phase 4 holds the files that `ini` says, and nothing is in the
new backup yet. Names refer to existing inodes, and a received file has no other name. -/
def Initial (ini : Str → Slot C D) (fs : FS C D S K) : Prop :=
  (∀ d, fs.look (.fin d) = none ∧ fs.look (.rev d) = none ∧
    fs.look (.old d) = (ini d).old.map .whole ∧ fs.look (.tmp d) = (ini d).tmp.map .whole ∧
    fs.look (.fwd d) = (ini d).fwd.map .delta ∧ fs.look (.rel d) = (ini d).rel.map .whole ∧
    (ini d).fin = none ∧ (ini d).rev = none) ∧
  fs.look .inflate = none ∧ fs.look .sig = none ∧ fs.dels = [] ∧
  (∀ n i, fs.names n = some i → i < fs.next) ∧
  (∀ d i n, fs.names (.tmp d) = some i → fs.names n = some i → n = .tmp d)

/-- The states that any number of interrupted runs of the program can leave. -/
inductive Crashed (many : FS C D S K → Name → Bool) (p : Prog C D S K) (fs0 : FS C D S K) :
    FS C D S K → Prop
  | start : Crashed many p fs0 fs0
  | again {fs s : FS C D S K} : Crashed many p fs0 fs → s ∈ (p.run many fs).1 →
      Crashed many p fs0 s

/-- What runs, each of which notes the entries of `F` in order until it is interrupted, leave in the
deletions file, which is appended to. -/
inductive Logged (F : List K) : List K → Prop
  | nil : Logged F []
  | more {l p : List K} : Logged F l → p <+: F → Logged F (l ++ p)

/-- The new backup, as its files say. -/
def newData (fs : FS C D S K) (d : Str) : Option C :=
  match fs.look (.fin d) with
  | some (.whole c) => some c
  | _ => none

/-- The previous backup as it was before. -/
def previous (ini : Str → Slot C D) : Backup C D K :=
  { bno := 1, hard := false, man := [], data := fun d => (ini d).old, delta := fun _ => none }

/-- A file either does not exist or is complete. -/
def Complete (b : Option (Blob C D S)) : Prop := b ≠ some .junk

/-- The previous backup and the new one, as their files say, for `restoreFile`. A file that is not
complete counts as missing. -/
def twoBackups (fs : FS C D S K) : List (Backup C D K) :=
  [{ bno := 1, hard := false, man := [],
     data := fun d => match fs.look (.old d) with | some (.whole c) => some c | _ => none
     delta := fun d => match fs.look (.rev d) with | some (.delta x) => some x | _ => none },
   { bno := 2, hard := false, man := [], data := newData fs, delta := fun _ => none }]

end Verif
