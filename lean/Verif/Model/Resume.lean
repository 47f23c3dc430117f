import Verif.Model.Phase2

/-!
# Resuming an interrupted phase 2: `src/server/resume.c`

Files are lists of the entries that can be read from them; a last entry that was written in part is not
one of them, since the readers here take an error for the end of the file
(`src/server/resume.c:186-193,275-284`). A position in a file is the number of entries before it.
Storage paths are in `Verif/Model/Dpth.lean`, the counters in `Verif/Model/ResumeCntr.lean`, and the same with
the bytes of the files in `Verif/Model/ResumeFiles.lean`.
-/

namespace Verif.Resume
open Verif.Phase2 Verif.Manifest

/-- What is looked at in an entry of the lists of phase 2. -/
structure Info (R : Type) where
  key : R → Cmd × Option Str
  endfile : R → Bool
  isDir : R → Bool

variable {R E : Type}

/-- The hacks for `split_vss`, `src/server/resume.c:286-303`. -/
def vssStart (i : Info R) (x : R) (got : Bool) : Bool :=
  match (i.key x).1 with
  | .vss => true
  | .encVss => true
  | .vssT => false
  | .encVssT => false
  | .file => if i.isDir x then false else got
  | .encFile => if i.isDir x then false else got
  | _ => got

/-- The loop of `get_last_good_entry`, `src/server/resume.c:233-312`: `n` entries have been read, and
`acc` is the result and the position so far. Both are updated at the top of the loop, before the next
entry is read. -/
def lastGoodLoop (i : Info R) (got : Bool) (n : Nat) (acc : Option R × Nat) : List R → Option R × Nat
  | [] => acc
  | x :: xs =>
    let got := vssStart i x got
    let acc :=
      if got then acc
      else if (!(i.key x).1.isFiledata && !(i.key x).1.isVssdata) || i.endfile x then (some x, n + 1)
      else acc
    lastGoodLoop i got (n + 1) acc xs

/-- `get_last_good_entry`, `src/server/resume.c:215-328`. -/
def lastGood (i : Info R) (l : List R) : Option R × Nat := lastGoodLoop i false 0 (none, 0) l

/-- `forward_past_entry`, `src/server/resume.c:58-135`: what is left of the file from the position on. -/
def forwardPast (target : Cmd × Option Str) (key : E → Cmd × Option Str) : List E → List E
  | [] => []
  | x :: xs =>
    let r := Iobuf.iobufPathcmp target (key x)
    if r = 0 then xs
    else if r = -1 then x :: xs
    else forwardPast target key xs

/-- The loop of `forward_before_entry`, `src/server/resume.c:158-204`: `n` entries have been read, the
position so far is `pos`. -/
def forwardBeforeLoop (target : Cmd × Option Str) (i : Info R) (n pos : Nat) : List R → Nat
  | [] => pos
  | x :: xs =>
    if Iobuf.iobufPathcmp target (i.key x) ≤ 0 then pos
    else forwardBeforeLoop target i (n + 1)
      (if i.endfile x || !(i.key x).1.isFiledata then n + 1 else pos) xs

/-- `forward_before_entry`, `src/server/resume.c:140-208`, and the truncating: what is left of the file
before the position. -/
def forwardBefore (target : Cmd × Option Str) (i : Info R) (l : List R) : List R :=
  l.take (forwardBeforeLoop target i 0 0 l)

/-- What phase 2 goes on with: the lists it appends to, and the rest of the scan and of the previous
manifest. -/
structure Point (R E : Type) where
  changed : List R
  unchanged : List R
  scan : List E
  prev : Option (List E)

/-- `do_resume_work`, `src/server/resume.c:447-566`. -/
def resume (i : Info R) (key : E → Cmd × Option Str) (changed unchanged : List R) (scan : List E)
    (prev : Option (List E)) : Point R E :=
  let g := lastGood i changed
  let changed := changed.take g.2
  match g.1 with
  | some r =>
    { changed, unchanged := forwardBefore (i.key r) i unchanged,
      scan := forwardPast (i.key r) key scan, prev := prev.map (forwardPast (i.key r) key) }
  | none => { changed, unchanged := [], scan, prev }

/-! ### What phase 2 writes -/

/-- What is recorded about scanned entries, in order (`src/server/backup_phase2.c:221-296,724-765`). -/
def records (w : Walk E) (scan : List E) (prev : Option (List E)) : List (Out E) :=
  (phase2 w scan prev).filter (fun o => match o with | .deleted _ => false | _ => true)

/-- The scanned entry. -/
def subject : Out E → E
  | .new p => p
  | .changed p _ => p
  | .unchanged p _ => p
  | .deleted c => c

/-- Whether a record goes to the list of changed entries, once its data has been received; all others
go to the list of unchanged entries at once. -/
def toChanged (w : Walk E) : Out E → Bool
  | .new p => (w.key p).1.isFiledata || (w.key p).1.isVssdata
  | .changed p _ => (w.key p).1.isFiledata || (w.key p).1.isVssdata
  | .unchanged _ _ => false
  | .deleted _ => false

/-- What is read of a record when resuming. An entry with data has the record of its end. -/
def outInfo (w : Walk E) (isDir : E → Bool) : Info (Out E) where
  key o := w.key (subject o)
  endfile o := (w.key (subject o)).1.isFiledata || (w.key (subject o)).1.isVssdata
  isDir o := isDir (subject o)

end Verif.Resume
