import Verif.Model.Basic

/-!
# Logic expressions and what they mean
-/

namespace Verif.Logic

inductive Op where
  | and | or
  deriving DecidableEq, Repr

/-- An expression: tests and groups in parentheses, each possibly negated, chained by operators. What is
chained on comes last. -/
inductive Chain where
  | test (neg : Bool) (a : Str)
  | group (neg : Bool) (g : Chain)
  | moreTest (c : Chain) (op : Op) (neg : Bool) (a : Str)
  | moreGroup (c : Chain) (op : Op) (neg : Bool) (g : Chain)
  deriving DecidableEq, Repr

/-- The value of `a op b`. -/
def Op.value : Op → Bool → Bool → Bool
  | .and, a, b => a && b
  | .or, a, b => a || b

/-- A negation, if there is one. -/
def negIf (neg v : Bool) : Bool := if neg then !v else v

/-- The value of an expression, given the values of its tests: operators are taken from left to right. -/
def value (ev : Str → Bool) : Chain → Bool
  | .test n a => negIf n (ev a)
  | .group n g => negIf n (value ev g)
  | .moreTest c op n a => op.value (value ev c) (negIf n (ev a))
  | .moreGroup c op n g => op.value (value ev c) (negIf n (value ev g))

def Op.word : Op → Str
  | .and => bytes "and"
  | .or => bytes "or"

def notWord (neg : Bool) : List Str := if neg then [bytes "not"] else []

/-- An expression in words. -/
def words : Chain → List Str
  | .test n a => notWord n ++ [a]
  | .group n g => notWord n ++ [bytes "("] ++ words g ++ [bytes ")"]
  | .moreTest c op n a => words c ++ [op.word] ++ notWord n ++ [a]
  | .moreGroup c op n g => words c ++ [op.word] ++ notWord n ++ [bytes "("] ++ words g ++ [bytes ")"]

/-- The tests in an expression. -/
def tests : Chain → List Str
  | .test _ a => [a]
  | .group _ g => tests g
  | .moreTest c _ _ a => tests c ++ [a]
  | .moreGroup c _ _ g => tests c ++ tests g

/-- Two or more items. -/
def Long : Chain → Prop
  | .test _ _ => False
  | .group _ _ => False
  | .moreTest _ _ _ _ => True
  | .moreGroup _ _ _ _ => True

/-- All groups in it have two or more items. -/
def AllLong : Chain → Prop
  | .test _ _ => True
  | .group _ g => Long g ∧ AllLong g
  | .moreTest c _ _ _ => AllLong c
  | .moreGroup c _ _ g => AllLong c ∧ Long g ∧ AllLong g

/-- The groups that are within groups have two or more items. -/
def InnerLong : Chain → Prop
  | .test _ _ => True
  | .group _ g => AllLong g
  | .moreTest c _ _ _ => InnerLong c
  | .moreGroup c _ _ g => InnerLong c ∧ AllLong g

/-- Where the outermost groups stand: one at the very beginning, not negated, must have something behind it;
the others must be at the very end. `followed`: something stands behind the expression. -/
def WellPlaced (followed : Bool) : Chain → Prop
  | .test _ _ => True
  | .group n _ => n ≠ followed
  | .moreTest c _ _ _ => WellPlaced true c
  | .moreGroup c _ _ _ => followed = false ∧ WellPlaced true c

instance : (c : Chain) → Decidable (Long c)
  | .test _ _ => inferInstanceAs (Decidable False)
  | .group _ _ => inferInstanceAs (Decidable False)
  | .moreTest _ _ _ _ => inferInstanceAs (Decidable True)
  | .moreGroup _ _ _ _ => inferInstanceAs (Decidable True)

def decAllLong : (c : Chain) → Decidable (AllLong c)
  | .test _ _ => inferInstanceAs (Decidable True)
  | .group _ g => have := decAllLong g; inferInstanceAs (Decidable (Long g ∧ AllLong g))
  | .moreTest c _ _ _ => decAllLong c
  | .moreGroup c _ _ g =>
    have := decAllLong c; have := decAllLong g; inferInstanceAs (Decidable (AllLong c ∧ Long g ∧ AllLong g))

instance (c : Chain) : Decidable (AllLong c) := decAllLong c

def decInnerLong : (c : Chain) → Decidable (InnerLong c)
  | .test _ _ => inferInstanceAs (Decidable True)
  | .group _ g => inferInstanceAs (Decidable (AllLong g))
  | .moreTest c _ _ _ => decInnerLong c
  | .moreGroup c _ _ g => have := decInnerLong c; inferInstanceAs (Decidable (InnerLong c ∧ AllLong g))

instance (c : Chain) : Decidable (InnerLong c) := decInnerLong c

def decWellPlaced : (f : Bool) → (c : Chain) → Decidable (WellPlaced f c)
  | _, .test _ _ => inferInstanceAs (Decidable True)
  | f, .group n _ => inferInstanceAs (Decidable (n ≠ f))
  | _, .moreTest c _ _ _ => decWellPlaced true c
  | f, .moreGroup c _ _ _ =>
    have := decWellPlaced true c; inferInstanceAs (Decidable (f = false ∧ WellPlaced true c))

instance (f : Bool) (c : Chain) : Decidable (WellPlaced f c) := decWellPlaced f c

/-! ### How an expression is written -/

/-- From a point in a word: the quote it is in, the byte before. Outside of quotes, blanks and parentheses
are escaped; at the end, there is no open quote, no backslash and no blank. -/
def solidFrom (quote prev : Option Byte) : Str → Bool
  | [] => quote = none ∧ prev ≠ some 92 ∧ prev ≠ some space
  | c :: cs =>
    if quote = none ∧ (c = 39 ∨ c = 34) then solidFrom (some c) (some c) cs
    else if quote = some c then
      if prev = some 92 then solidFrom quote (some c) cs else solidFrom none (some c) cs
    else if quote = none ∧ (c = space ∨ c = 40 ∨ c = 41) then
      prev = some 92 ∧ solidFrom quote (some c) cs
    else solidFrom quote (some c) cs

/-- A word as the documentation asks for: blanks and parentheses in it are quoted or escaped. -/
def Solid (w : Str) : Prop := w ≠ [] ∧ solidFrom none none w = true

instance (w : Str) : Decidable (Solid w) := by unfold Solid; infer_instance

/-- A parenthesis. -/
def IsParen (w : Str) : Prop := w = bytes "(" ∨ w = bytes ")"

instance (w : Str) : Decidable (IsParen w) := by unfold IsParen; infer_instance

/-- Words, each with the number of blanks before it, and the blanks at the end. -/
def layout (l : List (Nat × Str)) (m : Nat) : Str :=
  l.flatMap (fun p => List.replicate p.1 space ++ p.2) ++ List.replicate m space

/-- There are blanks between words, except next to parentheses. -/
def Spaced : List (Nat × Str) → Prop
  | [] => True
  | [_] => True
  | p :: q :: l => (q.1 ≥ 1 ∨ IsParen p.2 ∨ IsParen q.2) ∧ Spaced (q :: l)

def decSpaced : (l : List (Nat × Str)) → Decidable (Spaced l)
  | [] => inferInstanceAs (Decidable True)
  | [_] => inferInstanceAs (Decidable True)
  | p :: q :: l =>
    have := decSpaced (q :: l)
    inferInstanceAs (Decidable ((q.1 ≥ 1 ∨ IsParen p.2 ∨ IsParen q.2) ∧ Spaced (q :: l)))

instance (l : List (Nat × Str)) : Decidable (Spaced l) := decSpaced l

/-- The tests that there are, by their first letters. -/
def IsTest (a : Str) : Prop :=
  bytes "file_ext" <+: a ∨ bytes "file_match" <+: a ∨ bytes "path_match" <+: a ∨ bytes "file_size" <+: a

instance (a : Str) : Decidable (IsTest a) := by unfold IsTest; infer_instance

/-- How the value of a test is written: as it is, if it does not start with a quote or `=`, or in quotes. -/
def Writes (v t : Str) : Prop :=
  (t = v ∧ ∃ c, v.head? = some c ∧ c ≠ 39 ∧ c ≠ 34 ∧ c ≠ 61) ∨ t = 39 :: (v ++ [39]) ∨ t = 34 :: (v ++ [34])

/-- How two sizes may be compared. -/
inductive Cmp where
  | lt | le | gt | ge | eq
  deriving DecidableEq, Repr

def Cmp.word : Cmp → Str
  | .lt => bytes "<"
  | .le => bytes "<="
  | .gt => bytes ">"
  | .ge => bytes ">="
  | .eq => bytes "="

def Cmp.holds : Cmp → Nat → Nat → Prop
  | .lt, a, b => a < b
  | .le, a, b => a ≤ b
  | .gt, a, b => a > b
  | .ge, a, b => a ≥ b
  | .eq, a, b => a = b

instance (c : Cmp) (a b : Nat) : Decidable (c.holds a b) := by
  cases c <;> unfold Cmp.holds <;> infer_instance

end Verif.Logic
