import Verif.Model.ForkChild

/-!
# Specification: the descriptors of a program that burp runs (C124)
-/

namespace Verif.ForkChild

/-- Before anything is done, descriptors stand for things that were opened before. -/
def Before (t : Tab) : Prop := ∀ j k, get t j ≠ some (.reads k) ∧ get t j ≠ some (.writes k)

/-- Standard input, output and error are open, as they are for each program that was started in the usual way. -/
def StdOpen (t : Tab) : Prop := ∀ j, j < 3 → get t j ≠ none

end Verif.ForkChild
