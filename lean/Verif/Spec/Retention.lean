import Verif.Model.Retention

/-!
# What the retention policy is meant to do
-/

namespace Verif
open Verif.Retention

/-- A list of backups as found on disc: oldest first, with increasing positive numbers. -/
def Listed (l : List Bu) : Prop := l.Pairwise (fun a b => a.bno < b.bno) ∧ ∀ b ∈ l, 0 < b.bno

instance (l : List Bu) : Decidable (Listed l) := by unfold Listed; infer_instance

/-- `b` may be deleted from `l`: it is the oldest backup, or the one just before it (the next older
one) is a hardlinked archive. -/
def Deletable (l : List Bu) (b : Bu) : Prop :=
  ∃ older newer, l = older ++ b :: newer ∧
    (older = [] ∨ ∃ h, older.getLast? = some h ∧ h.hard = true)

/-- The age of a backup counted in backup numbers; the newest backup has age 1. -/
def age (newest : Bu) (b : Bu) : Nat := newest.bno - b.bno + 1

/-- A keep configuration: all values positive. -/
def KeepOk (keep : List Nat) : Prop := ∀ k ∈ keep, 0 < k

instance (keep : List Nat) : Decidable (KeepOk keep) := by unfold KeepOk; infer_instance

/-- The generation intervals of a keep configuration `k1, k2, ...`: with `P = k1*...*ki`, the ages
in `(j*P, (j+1)*P]` for `1 <= j < k(i+1)`. -/
def Generation (keep : List Nat) (lo hi : Nat) : Prop :=
  ∃ pre k post j, keep = pre ++ k :: post ∧ pre ≠ [] ∧ 1 ≤ j ∧ j < k ∧
    lo = j * pre.prod ∧ hi = (j + 1) * pre.prod

/-- Deleting the listed numbers one after the other is permitted: each names a backup that is there
and deletable at that moment. -/
def LegalSequence : List Bu → List Nat → Prop
  | _, [] => True
  | l, x :: xs =>
    (∃ b ∈ l, b.bno = x ∧ Deletable l b) ∧ LegalSequence (l.filter (fun b => b.bno ≠ x)) xs

end Verif
