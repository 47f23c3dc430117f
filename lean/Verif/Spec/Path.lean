import Verif.Model.Basic

/-!
# Independent notions about paths
-/

namespace Verif

/-- The place of a byte in burp's path order: the separator first, then signed byte order. -/
def rank (c : Byte) : Int :=
  if c = slash then -129 else if c.toNat < 128 then (c.toNat : Int) else (c.toNat : Int) - 256

/-- `p` is `d` or lies beneath `d` (at a separator). -/
def Under (d p : Str) : Prop := p = d ∨ ∃ y, p = d ++ slash :: y

/-- `c` is one of the `/`-separated components of `p`. -/
def Component (c p : Str) : Prop :=
  slash ∉ c ∧ ∃ pre post, p = pre ++ c ++ post ∧ (pre = [] ∨ pre.getLast? = some slash) ∧
    (post = [] ∨ post.head? = some slash)

/-- The parts of a string between separators. -/
def splitSep (sep : Byte) : Str → List Str
  | [] => [[]]
  | c :: cs =>
    if c = sep then [] :: splitSep sep cs
    else match splitSep sep cs with
      | [] => [[c]]
      | h :: t => (c :: h) :: t

/-- The names in a path, in order: what the system walks through when it resolves the path. Repeated and
trailing separators do not count. -/
def components (p : Str) : List Str := (splitSep slash p).filter (fun c => !c.isEmpty)

end Verif
