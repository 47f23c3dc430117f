import Verif.Model.Printable

/-!
# Specification: how a message that was not expected is shown in the log (C127)
-/

namespace Verif.Printable

/-- The characters that a terminal shows as they are: those from the blank to `~`. -/
def Shown (c : Byte) : Prop := 32 ≤ c.toNat ∧ c.toNat ≤ 126

/-- The same, or a newline. -/
def Text (s : Str) : Prop := ∀ c ∈ s, Shown c ∨ c = newline

end Verif.Printable
