import Verif.Model.Fzp

/-!
# Specification: files that are compressed, inflated and cut
-/

namespace Verif.Fzp
open Verif

/-- A complete compressed file with these contents. -/
def whole (bs : Str) : File := ⟨bs, true, .eof⟩

/-- What there was in the file `src` can be had: from it, while `dst` is what it was or has it all, or from
`dst`. -/
def Safe (src dst : Str) (f : File) (before : Option File) (d : Dir) : Prop :=
  (d src = some f ∧ (d dst = before ∨ d dst = some (whole f.data))) ∨ d dst = some (whole f.data)

/-- At the end and after every call on the way there was such a directory. -/
def Always (P : Dir → Prop) (s s' : S) : Prop :=
  P s'.dir ∧ ∃ h, s'.hist = h ++ s.hist ∧ ∀ d ∈ h, P d

/-- The first bytes; where there are not so many, zeros. -/
def cutTo (len : Nat) (bs : Str) : Str := bs.take len ++ List.replicate (len - bs.length) 0

end Verif.Fzp
