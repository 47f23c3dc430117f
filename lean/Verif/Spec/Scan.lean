import Verif.Model.Scan

/-!
# What the scan has to find
-/

namespace Verif
open Verif.Scan

/-- The text of a path, given by the names on the way from the root. -/
def renderPath : List Str → Str
  | [] => [slash]
  | c :: cs => (c :: cs).flatMap (fun c => slash :: c)

/-- A name that a file can have. -/
def GoodName (c : Str) : Prop := c ≠ [] ∧ slash ∉ c ∧ NoNul c

/-- A file system: what is there are the names in the directories, each once, and there is a limit to the
depth. -/
structure GoodTree (t : Tree) (depth : Nat) : Prop where
  names : ∀ p ns, t p = .dir ns → ns.Nodup ∧ ∀ c ∈ ns, GoodName c
  there : ∀ p c, t (p ++ [c]) ≠ .missing ↔ ∃ ns, t p = .dir ns ∧ c ∈ ns
  depth : ∀ p, t p ≠ .missing → p.length ≤ depth

/-- `x` is the nearest directory at or above `q` that a line of the configuration names. -/
def Governs (lines : List (List Str)) (x q : List Str) : Prop :=
  x ∈ lines ∧ x <+: q ∧ ∀ y ∈ lines, y <+: q → y <+: x

/-- `q` is to be backed up: the nearest line of the configuration is an `include`, and the filters (regular
expressions and extensions) let through `q` and the directories on the way to it from there. -/
def Wanted (includes excludes : List (List Str)) (filter : Str → Prop) (q : List Str) : Prop :=
  ∃ x ∈ includes, Governs (includes ++ excludes) x q ∧
    ∀ a, x <+: a → a ≠ x → a <+: q → filter (renderPath a)

/-- `e` itself is let in by the lines of the configuration and by the filters. -/
def LetIn (includes excludes : List (List Str)) (filter : Str → Prop) (e : List Str) : Prop :=
  filter (renderPath e) ∧ ∃ x ∈ includes, Governs (includes ++ excludes) x e

/-- If an included directory contains another one, then everything on the way to it, from the directory
that the scan starts from, is let in. -/
def NoNested (includes excludes : List (List Str)) (filter : Str → Prop) : Prop :=
  ∀ x ∈ includes, ∀ y ∈ includes, x <+: y → x ≠ y →
    ∀ z ∈ includes, ∀ e, z <+: e → z ≠ e → e <+: x → LetIn includes excludes filter e

end Verif
