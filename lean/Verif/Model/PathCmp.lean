import Verif.Model.Basic

/-!
# Path comparison: `src/pathcmp.c`

Pointers into a string are modelled by the suffix that they point at; `*p` is the head of the
suffix, or NUL when the suffix is empty.
-/

namespace Verif.PathCmp
open Verif

/-- `*p` for a pointer into a C string. -/
def deref (p : Str) : Byte := p.headD 0

/-- The loop of `is_subdir`, src/pathcmp.c:15-21. The state is `s`, `d`, `sl`, `dl` and `count`; the
result is that state when the loop ends. -/
def subdirLoop : (s d sl dl : Str) → (count : Nat) → Str × Str × Str × Str × Nat
  | s@(x :: s'), d@(y :: d'), sl, dl, count =>
    if x ≠ y then (s, d, sl, dl, count)
    else subdirLoop s' d' s d (if x = slash then count + 1 else count)
  | s, d, sl, dl, count => (s, d, sl, dl, count)

/-- `is_subdir`, src/pathcmp.c:7-28, on non-NULL arguments: the number of directories matched, 0 for
no match. -/
def isSubdir (dir sub : Str) : Nat :=
  match subdirLoop sub dir sub dir 1 with
  | (s, d, sl, dl, count) =>
    if d = [] ∧ s = [] then count
    else if d = [] ∧ deref s = slash then count
    else if deref dl = slash ∧ deref sl = slash ∧ sl.drop 1 ≠ [] ∧ dl.drop 1 = [] then count
    else 0

/-- `is_subdir` with possibly NULL arguments, src/pathcmp.c:14. -/
def isSubdirP (dir sub : Option Str) : Nat :=
  match dir, sub with
  | some d, some s => isSubdir d s
  | _, _ => 0

/-- `(int8_t)*x`, src/pathcmp.c:52. -/
def int8 (c : Byte) : Int := if c.toNat < 128 then (c.toNat : Int) else (c.toNat : Int) - 256

/-- The loop and end of `pathcmp`, src/pathcmp.c:42-61, on non-NULL arguments. -/
def pathcmp : Str → Str → Int
  | [], [] => 0
  | _ :: _, [] => 1
  | [], _ :: _ => -1
  | x :: xs, y :: ys =>
    if x = y then pathcmp xs ys
    else if x = slash ∧ y ≠ slash then -1
    else if x ≠ slash ∧ y = slash then 1
    else if int8 x < int8 y then -1
    else if int8 x > int8 y then 1
    else pathcmp xs ys

/-- `pathcmp` with possibly NULL arguments, src/pathcmp.c:30-62. -/
def pathcmpP : Option Str → Option Str → Int
  | none, none => 0
  | some _, none => 1
  | none, some _ => -1
  | some a, some b => pathcmp a b

/-- The loop of `has_dot_component`, src/pathcmp.c:68-79. `prev` is `none` when `p==path`, otherwise
`*(p-1)`. -/
def dotLoop (prev : Option Byte) : Str → Bool
  | [] => false
  | c :: p =>
    if c ≠ dot then dotLoop (some c) p
    else if (prev = none ∨ prev = some slash) ∧ (deref p = slash ∨ p = []) then true
    else if deref p = dot ∧ (prev = none ∨ prev = some slash) ∧
        (deref (p.drop 1) = slash ∨ p.drop 1 = []) then true
    else dotLoop (some c) p

/-- `has_dot_component`, src/pathcmp.c:65-81. -/
def hasDotComponent (path : Str) : Bool := dotLoop none path

/-- `isalpha`, C locale. -/
def isAlpha (c : Byte) : Bool := (65 ≤ c && c ≤ 90) || (97 ≤ c && c ≤ 122)

/-- `is_absolute`, src/pathcmp.c:83-95, non-Windows. -/
def isAbsolute (path : Str) : Bool :=
  if hasDotComponent path then false
  else (isAlpha (deref path) && deref (path.drop 1) == 58) || deref path == slash

end Verif.PathCmp
