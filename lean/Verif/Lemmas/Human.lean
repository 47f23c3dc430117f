import Verif.Spec.Human
import Verif.Lemmas.Decimal

/-!
# Lemmas about how sizes and durations are printed
-/

namespace Verif.Human
open BackupNumber

theorem dec_len (n k : Nat) (h : n < 10 ^ (k + 1)) : (decimal n).length ≤ k + 1 := by
  induction k generalizing n with
  | zero =>
    rw [decimal, if_pos (by simpa using h)]
    simp
  | succ k ih =>
    rw [decimal]
    split
    · simp
    · have := ih (n / 10) (by rw [Nat.div_lt_iff_lt_mul (by decide)]; rw [Nat.pow_succ] at h; exact h)
      simp only [List.length_append, List.length_cons, List.length_nil]
      omega

theorem decValue_zeros : ∀ (k : Nat) (s : Str), decValue 0 (List.replicate k 48 ++ s) = decValue 0 s
  | 0, _ => rfl
  | k + 1, s => by
    rw [List.replicate_succ, List.cons_append, decValue, if_pos (by decide)]
    exact decValue_zeros k s

theorem pad2_value (n : Nat) : decValue 0 (pad2 n) = n := by
  unfold pad2
  rw [decValue_zeros, decValue_decimal]

theorem pad2_colon (n : Nat) : (58 : Byte) ∉ pad2 n := by
  unfold pad2
  intro h
  rcases List.mem_append.1 h with h | h
  · have := (List.mem_replicate.1 h).2
    revert this; decide
  · have := (decimal_digits n).1 _ h
    revert this; decide

theorem pad2_length {n k : Nat} (h : n < 10 ^ (k + 1)) (hk : 1 ≤ k) : (pad2 n).length ≤ k + 1 := by
  unfold pad2
  have := dec_len n k h
  rw [List.length_append, List.length_replicate]
  omega

theorem fields_ne (s : Str) : fields s ≠ [] := by
  cases s with
  | nil => simp [fields]
  | cons c s =>
    rw [fields]
    split
    · simp
    · split <;> simp

theorem fields_one : ∀ {a : Str}, (58 : Byte) ∉ a → fields a = [a]
  | [], _ => rfl
  | c :: a, h => by
    simp only [List.mem_cons, not_or] at h
    have hc : c ≠ 58 := fun e => h.1 e.symm
    rw [fields, if_neg hc, fields_one h.2]

theorem fields_colon : ∀ {a : Str} (b : Str), (58 : Byte) ∉ a → fields (a ++ bytes ":" ++ b) = a :: fields b
  | [], b, _ => by
    have : bytes ":" = [58] := by decide
    rw [this, List.nil_append, List.singleton_append, fields, if_pos rfl]
  | c :: a, b, h => by
    simp only [List.mem_cons, not_or] at h
    have hc : c ≠ 58 := fun e => h.1 e.symm
    rw [List.cons_append, List.cons_append, fields, if_neg hc, fields_colon b h.2]

theorem colon_length (s : Str) : (s ++ bytes ":").length = s.length + 1 := by
  rw [List.length_append]; rfl

theorem buf8_pad {n k : Nat} (h : n < 10 ^ (k + 1)) (hk : 1 ≤ k) (h5 : k ≤ 5) : buf8 (pad2 n ++ bytes ":") = pad2 n ++ bytes ":" := by
  unfold buf8
  apply List.take_of_length_le
  rw [colon_length]
  have := pad2_length h hk
  omega

theorem buf8_pad' {n : Nat} (h : n < 100) : buf8 (pad2 n) = pad2 n := by
  unfold buf8
  apply List.take_of_length_le
  have := pad2_length (k := 1) h (by decide)
  omega

/-- What is printed, without the buffers. -/
theorem timeTaken_eq {d : Nat} (h : d < 86400 * 10 ^ 6) :
    timeTaken d =
      (if d / 86400 ≠ 0 then pad2 (d / 86400) ++ bytes ":" else []) ++
      ((if d / 86400 ≠ 0 ∨ d / 3600 % 24 ≠ 0 then pad2 (d / 3600 % 24) ++ bytes ":" else []) ++
      ((pad2 (d / 60 % 60) ++ bytes ":") ++ pad2 (d % 60))) := by
  have e1 : d / 60 / 60 = d / 3600 := by rw [Nat.div_div_eq_div_mul]
  have e2 : d / 3600 / 24 = d / 86400 := by rw [Nat.div_div_eq_div_mul]
  have hd : d / 86400 < 10 ^ 6 := by omega
  have hh : d / 3600 % 24 < 100 := by omega
  have hm : d / 60 % 60 < 100 := by omega
  have hs : d % 60 < 100 := by omega
  have l1 := pad2_length (k := 5) hd (by decide)
  have l2 := pad2_length (k := 1) hh (by decide)
  have l3 := pad2_length (k := 1) hm (by decide)
  have l4 := pad2_length (k := 1) hs (by decide)
  unfold timeTaken
  simp only [e1, e2, buf8_pad (k := 5) hd (by decide) (by decide), buf8_pad (k := 1) hh (by decide) (by decide),
    buf8_pad (k := 1) hm (by decide) (by decide), buf8_pad' hs]
  rw [List.take_of_length_le]
  · by_cases hz : d / 86400 = 0
    · by_cases hy : d / 3600 % 24 = 0
      · simp [hz, hy]
      · simp [hz, hy]
    · simp [hz]
  · have hb : (bytes ":").length = 1 := rfl
    by_cases hz : d / 86400 = 0
    · by_cases hy : d / 3600 % 24 = 0
      · simp only [hz, hy, ne_eq, not_true_eq_false, if_false, List.nil_append, List.length_append, hb]
        omega
      · simp only [hz, hy, ne_eq, not_true_eq_false, not_false_eq_true, if_false, if_true, List.nil_append, List.length_append, hb]
        omega
    · simp only [hz, ne_eq, not_false_eq_true, if_true, List.length_append, hb]
      omega

theorem near_arith {p n y : Nat} (hp : p * 8388608 ≤ n) (h1 : 2 * (y - n) ≤ p) (h2 : 2 * (n - y) ≤ p) :
    (y - n) * 16777216 ≤ n ∧ (n - y) * 16777216 ≤ n := by
  have e : 16777216 = 2 * 8388608 := rfl
  rw [e, ← Nat.mul_assoc, ← Nat.mul_assoc, Nat.mul_comm _ 2, Nat.mul_comm _ 2]
  exact ⟨Nat.le_trans (Nat.mul_le_mul_right _ h1) hp, Nat.le_trans (Nat.mul_le_mul_right _ h2) hp⟩

/-- A float is near the number. -/
theorem flt_near (n : Nat) : (flt n - n) * 2 ^ 24 ≤ n ∧ (n - flt n) * 2 ^ 24 ≤ n := by
  unfold flt
  split
  · simp
  · next h =>
    have hn : n ≠ 0 := by intro e; rw [e] at h; exact h (by decide)
    have hlog : 2 ^ n.log2 ≤ n := Nat.log2_self_le hn
    have hl : 24 ≤ n.log2 := (Nat.le_log2 hn).2 (by omega)
    obtain ⟨e, he⟩ : ∃ e, n.log2 = e + 23 := ⟨n.log2 - 23, by omega⟩
    simp only [he, Nat.add_sub_cancel]
    rw [he, Nat.pow_add] at hlog
    have hdm := Nat.div_add_mod n (2 ^ e)
    have hr : n % 2 ^ e < 2 ^ e := Nat.mod_lt _ (Nat.two_pow_pos e)
    have e24 : (2 : Nat) ^ 24 = 16777216 := rfl
    have e23 : 2 ^ e * 8388608 ≤ n := hlog
    rw [e24]
    rw [Nat.mul_comm (2 ^ e) (n / 2 ^ e)] at hdm
    apply near_arith e23
    · split
      · rw [Nat.add_mul, Nat.one_mul]
        clear h hlog hl he e23 e24
        generalize n / 2 ^ e * 2 ^ e = x at *
        omega
      · rw [Nat.add_zero]
        clear h hlog hl he e23 e24
        generalize n / 2 ^ e * 2 ^ e = x at *
        omega
    · split
      · rw [Nat.add_mul, Nat.one_mul]
        clear h hlog hl he e23 e24
        generalize n / 2 ^ e * 2 ^ e = x at *
        omega
      · next hup =>
        rw [Nat.add_zero]
        clear h hlog hl he e23 e24
        generalize n / 2 ^ e * 2 ^ e = x at *
        omega

theorem flt_small {n : Nat} (h : n < 2 ^ 24) : flt n = n := by
  unfold flt; rw [if_pos h]

theorem flt_ge {n : Nat} (h : 1024 ≤ n) : 1024 ≤ flt n := by
  by_cases hs : n < 2 ^ 24
  · rw [flt_small hs]; exact h
  · have := (flt_near n).2
    omega

end Verif.Human
