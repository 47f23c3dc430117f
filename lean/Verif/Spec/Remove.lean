import Verif.Spec.Confine
import Verif.Model.Remove

/-!
# Specification: what is deleted
-/

namespace Verif.Remove
open Verif.Confine

/-- The path `p` is that of the entry `c` of the directory at `d`, and its way does not lead through what is
there: whatever becomes of that, the path stays the same. -/
def Names (fs : FS) (p d : List Name) (c : Name) : Prop :=
  ∀ fs' : FS, (∀ x, ¬ d ++ [c] <+: x → fs' x = fs x) → locate fs' p = .entry d c

/-- A file system, with what is in its directories. -/
structure Fits (w : World) (fs : FS) : Prop where
  good : GoodFS fs
  plain : ∀ q n, fs (q ++ [n]) ≠ none → isStay n = false ∧ isUp n = false
  covers : ∀ q n, fs (q ++ [n]) ≠ none → n ∈ w.names q

/-- No call fails without a reason. -/
structure Reliable (w : World) : Prop where
  calls : ∀ c p, w.fails c p = false
  reads : ∀ p, w.readErr p = none

/-- Everything that there is lies less than so deep. -/
def Shallow (depth : Nat) (fs : FS) : Prop := ∀ q, fs q ≠ none → q.length < depth

/-- Nothing has changed but at a place and below it. -/
def Only (r : List Name) (fs fs' : FS) : Prop := ∀ q, ¬ r <+: q → fs' q = fs q

/-- There is nothing at a place, nor below it. -/
def Gone (r : List Name) (fs : FS) : Prop := ∀ q, r <+: q → fs q = none

/-- There are directories and nothing else at and below a place. -/
def Bare (fs : FS) (q : List Name) : Prop := ∀ x, q <+: x → fs x = none ∨ fs x = some .dir

/-- The directories of a client on a server, and the directory of a backup in it. `o` is what holds the
`deleteme` directory, `n` the name of that in it; it can be there or not. -/
structure Layout (w : World) (fs : FS) (d : Dirs) (base target : Name) (o : List Name) (n : Name) : Prop where
  fits : Fits w fs
  client : RealDir fs d.client
  baseName : isStay base = false ∧ isUp base = false
  there : fs (d.client ++ [base]) = some .dir
  other : base ≠ bytes "current" ∧ base ≠ bytes "current.tmp"
  deleteme : d.deleteme = o ++ [n]
  outer : RealDir fs o
  plain : isStay n = false ∧ isUp n = false ∧ GoodName n
  dir : fs d.deleteme = none ∨ fs d.deleteme = some .dir
  /-- neither of the directories is in the way of the other -/
  apart : d.deleteme ≠ d.client ∧ ¬ d.client ++ [base] <+: d.deleteme ∧ ¬ d.current <+: d.deleteme ∧
    ¬ d.currenttmp <+: d.deleteme ∧ ¬ d.deleteme ++ [target] <+: d.client
  /-- the name of what is put aside can be that of a file -/
  targetName : isStay target = false ∧ isUp target = false ∧ GoodName target
  /-- `readdir` gives the names of what is made, and those of what has been moved -/
  named : n ∈ w.names o ∧ target ∈ w.names d.deleteme ∧ bytes "current" ∈ w.names d.client ∧
    bytes "current.tmp" ∈ w.names d.client ∧
    ∀ x, ∀ k ∈ w.names (d.client ++ [base] ++ x), k ∈ w.names (d.deleteme ++ [target] ++ x)

/-- Where the `current` link leads, and that nothing is left of making it, when the backup has been taken
away: if it was the newest one, to the one before it, if any. -/
def CurrentNow (d : Dirs) (newest : Bool) (prev : Option Name) (fs fs' : FS) : Prop :=
  match newest, prev with
  | true, none => fs' d.current = none ∧ fs' d.currenttmp = fs d.currenttmp
  | true, some b => fs' d.current = some (.lnk b) ∧ fs' d.currenttmp = none
  | false, _ => ∀ x, fs' (d.current ++ x) = fs (d.current ++ x) ∧ fs' (d.currenttmp ++ x) = fs (d.currenttmp ++ x)

end Verif.Remove
