import Verif.Lemmas.BackupNumber

/-!
# Decimal numbers
-/

namespace Verif
open Verif.BackupNumber

theorem decimal_digits (n : Nat) : (∀ c ∈ decimal n, isDigit c = true) ∧ decimal n ≠ [] := by
  induction n using decimal.induct with
  | case1 n h =>
    rw [decimal, if_pos h]
    refine ⟨?_, by simp⟩
    intro c hc
    rw [List.mem_singleton.1 hc]
    unfold isDigit
    rw [char_toNat h]
    simp; omega
  | case2 n h ih =>
    rw [decimal, if_neg h]
    refine ⟨?_, by simp⟩
    intro c hc
    rcases List.mem_append.1 hc with hc | hc
    · exact ih.1 c hc
    · rw [List.mem_singleton.1 hc]
      unfold isDigit
      rw [char_toNat (Nat.mod_lt _ (by decide))]
      simp; omega

theorem decValue_append (a b : Str) (acc : Nat) (ha : ∀ c ∈ a, isDigit c = true) :
    decValue acc (a ++ b) = decValue (decValue acc a) b := by
  induction a generalizing acc with
  | nil => rfl
  | cons c a ih =>
    have hc := ha c (by simp)
    rw [List.cons_append, decValue, decValue, if_pos hc, if_pos hc]
    exact ih _ (fun x hx => ha x (by simp [hx]))

theorem decValue_decimal (n : Nat) : decValue 0 (decimal n) = n := by
  induction n using decimal.induct with
  | case1 n h =>
    rw [decimal, if_pos h, decValue]
    have : isDigit (UInt8.ofNat (48 + n)) = true := by
      unfold isDigit; rw [char_toNat h]; simp; omega
    rw [if_pos this, decValue, char_toNat h]
    omega
  | case2 n h ih =>
    rw [decimal, if_neg h, decValue_append _ _ _ (decimal_digits _).1, ih, decValue]
    have hm : n % 10 < 10 := Nat.mod_lt _ (by decide)
    have : isDigit (UInt8.ofNat (48 + n % 10)) = true := by
      unfold isDigit; rw [char_toNat hm]; simp; omega
    rw [if_pos this, decValue, char_toNat hm]
    omega

theorem takeWhile_app {p : Byte → Bool} {a : Str} {x : Byte} (ha : ∀ c ∈ a, p c = true) (hx : p x = false) (r : Str) :
    (a ++ x :: r).takeWhile p = a ∧ (a ++ x :: r).dropWhile p = x :: r := by
  induction a with
  | nil => simp [hx]
  | cons c a ih =>
    have hc := ha c (by simp)
    obtain ⟨h1, h2⟩ := ih (fun y hy => ha y (by simp [hy]))
    simp [hc, h1, h2]

end Verif
