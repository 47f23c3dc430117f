import Verif.Model.Resume
import Verif.Spec.Phase2

/-!
# What an interrupted backup leaves behind
-/

namespace Verif
open Verif.Phase2 Verif.Resume

variable {E : Type}

/-- What phase 2 would write to the list of changed entries if it were not interrupted. `sent` says which
files the client can send; a file that is gone or cannot be read is not recorded. -/
def fullChanged (w : Walk E) (sent : E → Bool) (scan : List E) (prev : Option (List E)) : List (Out E) :=
  (records w scan prev).filter (fun o => toChanged w o && sent (subject o))

/-- What phase 2 would write to the list of unchanged entries. -/
def fullUnchanged (w : Walk E) (scan : List E) (prev : Option (List E)) : List (Out E) :=
  (records w scan prev).filter (fun o => !toChanged w o)

/-- Phase 2 stopped when it had looked at `n` of the scanned entries: all that goes to the list of
unchanged entries has been written; of the rest, the data that has arrived. -/
def StoppedAfter (w : Walk E) (sent : E → Bool) (scan : List E) (prev : Option (List E)) (n : Nat)
    (changed unchanged : List (Out E)) : Prop :=
  changed <+: ((records w scan prev).take n).filter (fun o => toChanged w o && sent (subject o)) ∧
  unchanged = ((records w scan prev).take n).filter (fun o => !toChanged w o)

/-- The lists after any number of interruptions, each followed by resuming. -/
inductive Interrupted (w : Walk E) (isDir sent : E → Bool) (scan : List E) (prev : Option (List E)) :
    List (Out E) → List (Out E) → Prop where
  | first {n changed unchanged} (h : StoppedAfter w sent scan prev n changed unchanged) :
      Interrupted w isDir sent scan prev changed unchanged
  | again {n changed unchanged changed' unchanged'} (h : Interrupted w isDir sent scan prev changed unchanged)
      (h' : StoppedAfter w sent (resume (outInfo w isDir) w.key changed unchanged scan prev).scan
        (resume (outInfo w isDir) w.key changed unchanged scan prev).prev n changed' unchanged') :
      Interrupted w isDir sent scan prev
        ((resume (outInfo w isDir) w.key changed unchanged scan prev).changed ++ changed')
        ((resume (outInfo w isDir) w.key changed unchanged scan prev).unchanged ++ unchanged')

/-- The list of changed entries after resuming and going on to the end. -/
def resumedChanged (w : Walk E) (isDir sent : E → Bool) (scan : List E) (prev : Option (List E))
    (changed unchanged : List (Out E)) : List (Out E) :=
  let p := resume (outInfo w isDir) w.key changed unchanged scan prev
  p.changed ++ fullChanged w sent p.scan p.prev

/-- The list of unchanged entries after resuming and going on to the end. -/
def resumedUnchanged (w : Walk E) (isDir : E → Bool) (scan : List E) (prev : Option (List E))
    (changed unchanged : List (Out E)) : List (Out E) :=
  let p := resume (outInfo w isDir) w.key changed unchanged scan prev
  p.unchanged ++ fullUnchanged w p.scan p.prev

/-- A Windows header. -/
def Header {R : Type} (i : Info R) (x : R) : Prop := (i.key x).1 = .vss ∨ (i.key x).1 = .encVss

/-- What ends a group that begins with a Windows header: a Windows footer, or the entry of a directory. -/
def EndsGroup {R : Type} (i : Info R) (x : R) : Prop :=
  (i.key x).1 = .vssT ∨ (i.key x).1 = .encVssT ∨
  (((i.key x).1 = .file ∨ (i.key x).1 = .encFile) ∧ i.isDir x = true)

/-- The list stops inside such a group. -/
def InGroup {R : Type} (i : Info R) (l : List R) : Prop :=
  ∃ a x b, l = a ++ x :: b ∧ Header i x ∧ ∀ y ∈ b, ¬ EndsGroup i y

/-- The entry is all there: it has no data, or the end of its data has been recorded. -/
def Entire {R : Type} (i : Info R) (x : R) : Prop :=
  ((i.key x).1.isFiledata = false ∧ (i.key x).1.isVssdata = false) ∨ i.endfile x = true

end Verif
