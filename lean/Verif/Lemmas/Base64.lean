import Verif.Model.Base64

namespace Verif.Base64
open Verif

theorem digit_table : ∀ n : Fin 64, isDigitChar (digit n) = true ∧ digit n ≠ space ∧
    digit n ≠ 45 ∧ map (digit n) = n := by decide +kernel

theorem digit_ok {n : Nat} (h : n < 64) : isDigitChar (digit n) = true ∧ digit n ≠ space ∧
    digit n ≠ 45 ∧ map (digit n) = n := digit_table ⟨n, h⟩

theorem outLoop_length (v : Nat) : (outLoop v).length = sizeLoop v := by
  fun_induction outLoop v with
  | case1 v h => unfold sizeLoop; simp [h]
  | case2 v h ih => rw [sizeLoop]; simp [h, ih]

theorem sizeLoop_pos (v : Nat) : 0 < sizeLoop v := by
  unfold sizeLoop; split <;> omega

theorem sizeLoop_le (k : Nat) : ∀ v, v < 64 ^ (k + 1) → sizeLoop v ≤ k + 1 := by
  induction k with
  | zero => intro v h; unfold sizeLoop; simp at h; have : v / 64 = 0 := by omega
            simp [this]
  | succ k ih =>
    intro v h
    unfold sizeLoop
    split
    · omega
    · have h2 : v / 64 < 64 ^ (k + 1) := by
        rw [Nat.pow_succ] at h
        exact Nat.div_lt_of_lt_mul (by omega)
      have := ih _ h2
      omega

theorem lt_pow_sizeLoop (v : Nat) : v < 64 ^ sizeLoop v := by
  fun_induction sizeLoop v with
  | case1 v h => omega
  | case2 v h ih => rw [Nat.pow_succ]; omega

/-- Every character of the output is a digit. -/
theorem outLoop_mem (v : Nat) : ∀ c ∈ outLoop v, ∃ n, n < 64 ∧ c = digit n := by
  fun_induction outLoop v with
  | case1 v h => intro c hc; simp at hc; exact ⟨v % 64, by omega, hc⟩
  | case2 v h ih =>
    intro c hc
    rcases List.mem_append.1 hc with hc | hc
    · exact ih c hc
    · simp at hc; exact ⟨v % 64, by omega, hc⟩

theorem outLoop_ne_nil (v : Nat) : outLoop v ≠ [] := by
  intro h
  have := outLoop_length v
  have := sizeLoop_pos v
  simp_all

theorem inLoop_outLoop (v : Nat) : ∀ (acc : Nat) (rest : Str),
    acc * 64 ^ sizeLoop v + v < 2 ^ 64 →
    inLoop acc (outLoop v ++ rest) =
      ((inLoop (acc * 64 ^ sizeLoop v + v) rest).1,
       (inLoop (acc * 64 ^ sizeLoop v + v) rest).2 + sizeLoop v) := by
  fun_induction outLoop v with
  | case1 v h =>
    intro acc rest hb
    have hs : sizeLoop v = 1 := by unfold sizeLoop; simp [h]
    have hv : v < 64 := by omega
    rw [hs] at hb ⊢
    obtain ⟨h1, h2, _, h4⟩ := digit_ok (n := v % 64) (by omega)
    have hmod : v % 64 = v := Nat.mod_eq_of_lt hv
    simp only [List.cons_append, List.nil_append, inLoop, h2, h1, h4, if_false, Bool.not_true]
    simp only [Nat.pow_one] at hb ⊢
    have e : (acc * 64 % 2 ^ 64 + v % 64) % 2 ^ 64 = acc * 64 + v := by omega
    simp only [e]
    simp
  | case2 v h ih =>
    intro acc rest hb
    have hs : sizeLoop v = sizeLoop (v / 64) + 1 := by rw [sizeLoop]; simp [h]
    obtain ⟨h1, h2, _, h4⟩ := digit_ok (n := v % 64) (by omega)
    have e0 : acc * 64 ^ sizeLoop v = (acc * 64 ^ sizeLoop (v / 64)) * 64 := by
      rw [hs, Nat.pow_succ, Nat.mul_assoc]
    have hb' : acc * 64 ^ sizeLoop (v / 64) + v / 64 < 2 ^ 64 := by omega
    rw [List.append_assoc, ih acc _ hb']
    simp only [List.cons_append, List.nil_append, inLoop, h2, h1, h4, if_false, Bool.not_true]
    have e : ((acc * 64 ^ sizeLoop (v / 64) + v / 64) * 64 % 2 ^ 64 + v % 64) % 2 ^ 64
        = acc * 64 ^ sizeLoop v + v := by omega
    rw [e, hs]
    simp
    omega

/-- What may follow a number: the end of the string or a space. -/
theorem inLoop_end (v : Nat) (rest : Str) (h : rest = [] ∨ rest.head? = some space) :
    inLoop v rest = (v, 0) := by
  rcases h with h | h
  · subst h; rfl
  · cases rest with
    | nil => simp at h
    | cons c cs => simp at h; subst h; simp [inLoop]

theorem inLoop_out (v : Nat) (hv : v < 2 ^ 64) (rest : Str)
    (h : rest = [] ∨ rest.head? = some space) :
    inLoop 0 (outLoop v ++ rest) = (v, sizeLoop v) := by
  rw [inLoop_outLoop v 0 rest (by omega)]
  simp [inLoop_end _ _ h]

theorem outLoop_head (v : Nat) : ∃ c cs, outLoop v = c :: cs ∧ c ≠ space ∧ c ≠ 45 := by
  match h : outLoop v with
  | [] => exact absurd h (outLoop_ne_nil v)
  | c :: cs =>
    obtain ⟨n, hn, hc⟩ := outLoop_mem v c (by rw [h]; simp)
    have := digit_ok hn
    exact ⟨c, cs, rfl, by simp [hc, this], by simp [hc, this]⟩

theorem fromSign_toBase64 (v : Int) (h1 : -2 ^ 63 < v) (h2 : v < 2 ^ 63) (i : Nat) (rest : Str)
    (h : rest = [] ∨ rest.head? = some space) :
    ∃ s n, toBase64 v = some (s, n) ∧ s.length = n ∧ n ≤ 12 ∧ 0 < n ∧
      fromSign i (s ++ rest) = (some v, i + n) ∧
      s.head? ≠ some space ∧ (∀ c ∈ s, c = 45 ∨ ∃ n, n < 64 ∧ c = digit n) := by
  have hne : v ≠ -2 ^ 63 := by omega
  by_cases hneg : v < 0
  · have hlt : (-v).toNat < 2 ^ 63 := by omega
    have hsz : sizeLoop (-v).toNat ≤ 11 := sizeLoop_le 10 _ (by omega)
    refine ⟨45 :: outLoop (-v).toNat, 1 + sizeLoop (-v).toNat, ?_, ?_, ?_, ?_, ?_, ?_, ?_⟩
    · simp only [toBase64, hne, hneg, if_false, if_true]
    · simp [outLoop_length]; omega
    · omega
    · omega
    · simp only [List.cons_append, fromSign, if_true, fromDigits]
      rw [inLoop_out _ (by omega) _ h]
      simp only [toInt64, hlt, if_true]
      have : ((-v).toNat : Int) = -v := by omega
      rw [this]
      have hx : ¬ (-v = -2 ^ 63) := by omega
      simp only [hx, if_false]
      simp; omega
    · simp only [List.head?]; decide
    · intro c hc
      rcases List.mem_cons.1 hc with hc | hc
      · exact Or.inl hc
      · exact Or.inr (outLoop_mem _ c hc)
  · have hlt : v.toNat < 2 ^ 63 := by omega
    have hsz : sizeLoop v.toNat ≤ 11 := sizeLoop_le 10 _ (by omega)
    refine ⟨outLoop v.toNat, sizeLoop v.toNat, ?_, ?_, ?_, ?_, ?_, ?_, ?_⟩
    · simp only [toBase64, hne, hneg, if_false]
    · exact outLoop_length _
    · omega
    · exact sizeLoop_pos _
    · obtain ⟨c, cs, e, _, hc2⟩ := outLoop_head v.toNat
      have e2 : outLoop v.toNat ++ rest = c :: (cs ++ rest) := by rw [e]; rfl
      rw [e2]
      simp only [fromSign, hc2, if_false, fromDigits]
      rw [← e2, inLoop_out _ (by omega) _ h]
      simp only [toInt64, hlt, if_true]
      have : (v.toNat : Int) = v := by omega
      rw [this]; simp
    · obtain ⟨c, cs, e, hc1, _⟩ := outLoop_head v.toNat
      rw [e]; simpa using hc1
    · intro c hc; exact Or.inr (outLoop_mem _ c hc)

theorem fromBase64_plain (v : Int) (h1 : -2 ^ 63 < v) (h2 : v < 2 ^ 63) (rest : Str)
    (h : rest = [] ∨ rest.head? = some space) :
    ∃ s n, toBase64 v = some (s, n) ∧ s.length = n ∧ n ≤ 12 ∧ 0 < n ∧
      fromBase64 (s ++ rest) = (some v, n) ∧ fromBase64 (space :: (s ++ rest)) = (some v, n + 1) := by
  obtain ⟨s, n, e, hl, hn, hp, hf, hh, _⟩ := fromSign_toBase64 v h1 h2 0 rest h
  obtain ⟨s', n', e', _, _, _, hf', _⟩ := fromSign_toBase64 v h1 h2 1 rest h
  rw [e] at e'; cases e'
  refine ⟨s, n, e, hl, hn, hp, ?_, ?_⟩
  · cases s with
    | nil => simp at hl; omega
    | cons c cs =>
      have hc : c ≠ space := by simpa using hh
      simp only [List.cons_append, fromBase64, hc, if_false]
      simpa using hf
  · simp only [fromBase64, if_true]
    rw [hf']; simp; omega

end Verif.Base64
