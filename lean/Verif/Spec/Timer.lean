import Verif.Model.Basic

/-!
# Time bands and intervals as the documentation writes them (`docs/timer_script.txt`)
-/

namespace Verif

/-- Letters without regard to case. -/
def lower (c : Byte) : Byte := if 65 ≤ c.toNat ∧ c.toNat ≤ 90 then c + 32 else c

def IsLetter (c : Byte) : Prop := (65 ≤ c.toNat ∧ c.toNat ≤ 90) ∨ (97 ≤ c.toNat ∧ c.toNat ≤ 122)
def IsDigit (c : Byte) : Prop := 48 ≤ c.toNat ∧ c.toNat ≤ 57

instance (c : Byte) : Decidable (IsLetter c) := by unfold IsLetter; infer_instance
instance (c : Byte) : Decidable (IsDigit c) := by unfold IsDigit; infer_instance

/-- The name of a day: three letters. -/
def DayName (t : Str) : Prop := t.length = 3 ∧ ∀ c ∈ t, IsLetter c

/-- An hour: two digits. -/
def HourName (t : Str) : Prop := t.length = 2 ∧ ∀ c ∈ t, IsDigit c

instance (t : Str) : Decidable (DayName t) := by unfold DayName; infer_instance
instance (t : Str) : Decidable (HourName t) := by unfold HourName; infer_instance

/-- Days and hours, separated by commas. -/
def commaJoin : List Str → Str
  | [] => []
  | [t] => t
  | t :: ts => t ++ 44 :: commaJoin ts

/-- The same name, without regard to case. -/
def SameName (a b : Str) : Prop := a.map lower = b.map lower

/-- Seconds in a unit of time. -/
def secondsIn : Byte → Option Nat := fun u =>
  match u with
  | 115 => some 1        -- s
  | 109 => some 60       -- m
  | 104 => some 3600     -- h
  | 100 => some 86400    -- d
  | 119 => some 604800   -- w
  | 110 => some 2592000  -- n, 30 days
  | _ => none

end Verif
