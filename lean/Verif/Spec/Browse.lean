import Verif.Spec.Path

/-!
# What is in a directory
-/

namespace Verif

/-- The directory with one slash behind it. -/
def atDir (d : Str) : Str := if d.getLast? = some slash then d else d ++ [slash]

/-- The path `p` is, or lies within, what is shown as `c` in the directory `d`. In a directory, that is
a name, or `.` for the directory itself. With no directory given, it is the root directory, for paths that
start with a slash, or else the first name of the path (a drive). -/
def Shown (d c p : Str) : Prop :=
  if d = [] then (c = [slash] ∧ ∃ y, p = slash :: y) ∨ (c ≠ [] ∧ slash ∉ c ∧ Under c p)
  else (c = [dot] ∧ (p = d ∨ p = atDir d)) ∨ (c ≠ [] ∧ slash ∉ c ∧ Under (atDir d ++ c) p)

/-- A path without doubled slashes and without `.` as a component. -/
structure PlainPath (p : Str) : Prop where
  ne : p ≠ []
  noDouble : ∀ a b, p ≠ a ++ slash :: slash :: b
  noDot : ¬ Component [dot] p

end Verif
