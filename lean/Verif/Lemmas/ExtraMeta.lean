import Verif.Spec.ExtraMeta
import Verif.Lemmas.Iobuf

/-!
# Records of access control lists and extended attributes
-/

namespace Verif.ExtraMeta
open Verif Verif.Iobuf

/-- Digits, as many as asked for. -/
def hexS : Nat → Nat → Str
  | 0, _ => []
  | w + 1, n => hexS w (n / 16) ++ [hexDigit n]

theorem hexS_length (w n : Nat) : (hexS w n).length = w := by
  induction w generalizing n with
  | zero => rfl
  | succ w ih => simp [hexS, ih]

theorem pad_hexS (w n : Nat) (h : n < 16 ^ w) :
    List.replicate (w - (hexDigits n).length) 48 ++ hexDigits n = hexS w n := by
  induction w generalizing n with
  | zero =>
    have : n = 0 := by simp at h; exact h
    subst this; rw [hexDigits_zero]; rfl
  | succ w ih =>
    have hq : n / 16 < 16 ^ w := by rw [Nat.pow_succ] at h; omega
    rw [hexS, ← ih _ hq]
    by_cases h0 : n = 0
    · subst h0
      rw [show (0 : Nat) / 16 = 0 from rfl, hexDigits_zero, hexDigit_small_zero (n := 0) rfl]
      simp only [List.length_nil, List.append_nil, Nat.sub_zero]
      rw [List.replicate_succ']
    · rw [hexDigits_pos h0]
      simp only [List.length_append, List.length_singleton]
      rw [Nat.add_sub_add_right, List.append_assoc]

theorem hex08_eq {n : Nat} (h : n < 2 ^ 32) : hex08 n = hexS 8 n := by
  unfold hex08; exact pad_hexS 8 n (by simpa using h)

theorem hex08_length {n : Nat} (h : n < 2 ^ 32) : (hex08 n).length = 8 := by
  rw [hex08_eq h, hexS_length]

theorem hexS_mem (w n : Nat) : ∀ c ∈ hexS w n, ∃ k, c = hexDigit k := by
  induction w generalizing n with
  | zero => intro c hc; cases hc
  | succ w ih =>
    intro c hc
    rw [hexS] at hc
    rcases List.mem_append.1 hc with hc | hc
    · exact ih _ c hc
    · exact ⟨n, by simpa using hc⟩

theorem scan_hexS (w n k : Nat) (t : Str) (acc : Option Nat) (h : n < 16 ^ w) (hw : 1 ≤ w) :
    scanDigits (w + k) (hexS w n ++ t) acc = scanDigits k t (some (acc.getD 0 * 16 ^ w + n)) := by
  induction w generalizing n k t with
  | zero => omega
  | succ w ih =>
    rw [hexS, List.append_assoc, List.singleton_append]
    have hq : n / 16 < 16 ^ w := by rw [Nat.pow_succ] at h; omega
    by_cases h0 : w = 0
    · subst h0
      simp only [hexS, List.nil_append]
      rw [Nat.add_comm (0 + 1) k, Nat.zero_add, scanDigits, (hexDigit_facts n).1]
      have : n % 16 = n := by simp at h; omega
      simp only [this, Nat.pow_one]
    · rw [show w + 1 + k = w + (k + 1) by omega, ih (n / 16) (k + 1) (hexDigit n :: t) hq (by omega), scanDigits,
        (hexDigit_facts n).1]
      simp only [Option.getD_some]
      congr 2
      rw [Nat.pow_succ, Nat.add_mul, Nat.mul_assoc]
      omega

theorem hexS_cons (w n : Nat) (h : 2 ≤ w) : ∃ a b r, hexS w n = hexDigit a :: hexDigit b :: r := by
  have hl := hexS_length w n
  match hs : hexS w n with
  | [] => rw [hs] at hl; simp at hl; omega
  | [_] => rw [hs] at hl; simp at hl; omega
  | x :: y :: r =>
    obtain ⟨a, ha⟩ := hexS_mem w n x (by rw [hs]; simp)
    obtain ⟨b, hb⟩ := hexS_mem w n y (by rw [hs]; simp)
    exact ⟨a, b, r, by rw [ha, hb]⟩

theorem scanX8_hex08 {n : Nat} (h : n < 2 ^ 32) (t : Str) : scanX8 (hex08 n ++ t) = some n := by
  rw [hex08_eq h]
  obtain ⟨a, b, r, e⟩ := hexS_cons 8 n (by decide)
  obtain ⟨a1, a2, a3, a4, a5, a6, a7⟩ := hexDigit_facts a
  obtain ⟨b1, b2, b3, b4, b5, b6, b7⟩ := hexDigit_facts b
  have hd : (hexS 8 n ++ t).dropWhile isSpace = hexS 8 n ++ t := by rw [e]; simp [a3]
  have hp : scanPrefix 8 (hexS 8 n ++ t) = (8, hexS 8 n ++ t) := by
    rw [e]
    cases r <;> cases t <;> simp only [List.cons_append, List.nil_append, scanPrefix, b6, b7, or_self, false_and, and_false, if_false]
  have hs : scanDigits 8 (hexS 8 n ++ t) none = some n := by
    have := scan_hexS 8 n 0 t none (by simpa using h) (by decide)
    simpa [scanDigits] using this
  unfold scanX8
  rw [hd]
  rw [e] at hp hs ⊢
  simp only [List.cons_append, a4, a5, if_false] at hp hs ⊢
  rw [hp]
  simp only [hs, Option.map_some]
  rfl

theorem cstr_hex08 {n : Nat} (h : n < 2 ^ 32) (t : Str) : cstr (hex08 n ++ t) = hex08 n ++ cstr t := by
  rw [hex08_eq h]
  have : ∀ c ∈ hexS 8 n, decide (c ≠ 0) = true := by
    intro c hc
    obtain ⟨k, rfl⟩ := hexS_mem _ _ c hc
    simpa using (hexDigit_facts k).2.1
  unfold cstr
  rw [List.takeWhile_append_of_pos this]

theorem cstr_noNul {s : Str} (h : NoNul s) : cstr s = s := by
  unfold cstr
  induction s with
  | nil => rfl
  | cons c s ih =>
    unfold NoNul at h
    simp at h
    rw [List.takeWhile_cons_of_pos (by simp; exact fun e => h.1 e.symm)]
    rw [ih]
    unfold NoNul; exact h.2

/-- A text with its length before it is read back. -/
theorem nextStr_enc (s r : Str) (h : s.length < 2 ^ 32) : nextStr (hex08 s.length ++ s ++ r) = some (s, r) := by
  unfold nextStr
  have hl := hex08_length h
  rw [if_neg (by simp [hl]), List.append_assoc, cstr_hex08 h, scanX8_hex08 h]
  have hd : (hex08 s.length ++ (s ++ r)).drop 8 = s ++ r := by rw [List.drop_append_of_le_length (by omega), List.drop_eq_nil_of_le (by omega)]; rfl
  simp only [hd]
  rw [if_neg (by simp)]
  simp

/-- Extended attributes as they are written. -/
def encX (xs : List (Str × Str)) : Str :=
  xs.flatMap fun x => hex08 x.1.length ++ x.1 ++ hex08 x.2.length ++ x.2

theorem encX_cons (x : Str × Str) (xs : List (Str × Str)) :
    encX (x :: xs) = hex08 x.1.length ++ x.1 ++ (hex08 x.2.length ++ x.2 ++ encX xs) := by
  simp [encX]

/-- Setting extended attributes: one after the other, until one fails. -/
theorem setXattr_enc (ok : Act → Bool) (xs : List (Str × Str))
    (h : ∀ x ∈ xs, NoNul x.1 ∧ x.1.length < 2 ^ 32 ∧ x.2.length < 2 ^ 32) :
    ∀ n, (encX xs).length ≤ n → setXattr ok n (encX xs) =
      ((xs.map fun x => Act.xattr x.1 x.2).takeWhile ok, xs.all fun x => ok (.xattr x.1 x.2)) := by
  induction xs with
  | nil => intro n _; cases n <;> simp [setXattr, encX]
  | cons x xs ih =>
    intro n hn
    obtain ⟨h1, h2, h3⟩ := h x (by simp)
    have hl : (encX (x :: xs)).length = 16 + x.1.length + x.2.length + (encX xs).length := by
      rw [encX_cons]; simp [hex08_length h2, hex08_length h3]; omega
    obtain ⟨n, rfl⟩ : ∃ k, n = k + 1 := ⟨n - 1, by omega⟩
    rw [setXattr, if_neg (by intro he; rw [List.isEmpty_iff] at he; rw [he] at hl; simp at hl; omega)]
    rw [encX_cons, nextStr_enc _ _ h2]
    simp only [nextStr_enc _ _ h3, cstr_noNul h1]
    have := ih (fun y hy => h y (by simp [hy])) n (by omega)
    rw [this]
    by_cases ho : ok (.xattr x.1 x.2) = true
    · simp [ho]
    · simp [ho]

/-- Records, and what is done for them. -/
theorem setExtra_records (b : Build) (ok : Act → Bool) (rs : List (Byte × Str))
    (h : ∀ r ∈ rs, r.1 ≠ 0 ∧ r.2.length < 2 ^ 32) :
    ∀ n, (rs.flatMap fun r => record r.1 r.2).length ≤ n →
      setExtraN b ok n (rs.flatMap fun r => record r.1 r.2) =
        (rs.flatMap fun r => (setOne b ok r.1 r.2).1,
          some ((rs.filter fun r => !(setOne b ok r.1 r.2).2).length)) := by
  induction rs with
  | nil => intro n _; cases n <;> simp [setExtraN]
  | cons r rs ih =>
    intro n hn
    obtain ⟨hc, hl⟩ := h r (by simp)
    have hlen := hex08_length hl
    have hlr : ((r :: rs).flatMap fun r => record r.1 r.2).length =
        9 + r.2.length + (rs.flatMap fun r => record r.1 r.2).length := by
      simp [record, hlen]; omega
    obtain ⟨n, rfl⟩ : ∃ k, n = k + 1 := ⟨n - 1, by omega⟩
    rw [setExtraN, if_neg (by intro he; rw [List.isEmpty_iff] at he; rw [he] at hlr; simp at hlr; omega),
      if_neg (by omega)]
    have hf : (r :: rs).flatMap (fun r => record r.1 r.2) =
        r.1 :: (hex08 r.2.length ++ (r.2 ++ rs.flatMap fun r => record r.1 r.2)) := by
      simp [record]
    have hcs : cstr ((r :: rs).flatMap (fun r => record r.1 r.2)) =
        r.1 :: (hex08 r.2.length ++ cstr (r.2 ++ rs.flatMap fun r => record r.1 r.2)) := by
      rw [hf, ← cstr_hex08 hl]
      unfold cstr
      rw [List.takeWhile_cons_of_pos (by simpa using hc)]
    rw [hcs]
    simp only [scanX8_hex08 hl]
    have hd : ((r :: rs).flatMap (fun r => record r.1 r.2)).drop 9 = r.2 ++ rs.flatMap fun r => record r.1 r.2 := by
      rw [hf, List.drop_succ_cons, List.drop_append_of_le_length (by omega), List.drop_eq_nil_of_le (by omega)]; rfl
    rw [hd, if_neg (by simp)]
    rw [List.take_left, List.drop_left, ih (fun y hy => h y (by simp [hy])) n (by omega)]
    by_cases ho : (setOne b ok r.1 r.2).2 = true
    · simp [ho]
    · simp [ho]

/-- A piece of the records that is cut off anywhere: what is done is the beginning of what would have been
done. -/
theorem setExtra_cut (b : Build) (ok : Act → Bool) (rs : List (Byte × Str))
    (h : ∀ r ∈ rs, r.1 ≠ 0 ∧ r.2.length < 2 ^ 32) :
    ∀ k n, k ≤ n →
      (setExtraN b ok n ((rs.flatMap fun r => record r.1 r.2).take k)).1 <+:
        rs.flatMap fun r => (setOne b ok r.1 r.2).1 := by
  induction rs with
  | nil => intro k n _; cases n <;> simp [setExtraN]
  | cons r rs ih =>
    intro k n hn
    obtain ⟨hc, hl⟩ := h r (by simp)
    have hlen := hex08_length hl
    have hf : (r :: rs).flatMap (fun r => record r.1 r.2) =
        (r.1 :: hex08 r.2.length) ++ (r.2 ++ rs.flatMap fun r => record r.1 r.2) := by
      simp [record]
    have hl9 : (r.1 :: hex08 r.2.length).length = 9 := by simp [hlen]
    cases n with
    | zero => simp [setExtraN]
    | succ n =>
      rw [setExtraN]
      by_cases h0 : k = 0
      · subst h0; simp
      by_cases hk : k < 9
      · rw [if_neg (by rw [hf]; simp [h0])]
        rw [if_pos (by rw [List.length_take]; omega)]
        exact List.nil_prefix
      · obtain ⟨j, rfl⟩ : ∃ j, k = 9 + j := ⟨k - 9, by omega⟩
        have ht : ((r :: rs).flatMap fun r => record r.1 r.2).take (9 + j) =
            (r.1 :: hex08 r.2.length) ++ (r.2 ++ rs.flatMap fun r => record r.1 r.2).take j := by
          rw [hf, ← hl9, List.take_length_add_append]
        rw [ht, if_neg (by simp), if_neg (by simp [hlen])]
        have hcs : cstr ((r.1 :: hex08 r.2.length) ++ (r.2 ++ rs.flatMap fun r => record r.1 r.2).take j) =
            r.1 :: (hex08 r.2.length ++ cstr ((r.2 ++ rs.flatMap fun r => record r.1 r.2).take j)) := by
          rw [← cstr_hex08 hl]
          unfold cstr
          rw [List.cons_append, List.takeWhile_cons_of_pos (by simpa using hc)]
        rw [hcs]
        simp only [scanX8_hex08 hl]
        have hd : ((r.1 :: hex08 r.2.length) ++ (r.2 ++ rs.flatMap fun r => record r.1 r.2).take j).drop 9 =
            (r.2 ++ rs.flatMap fun r => record r.1 r.2).take j := by
          rw [← hl9, List.drop_left]
        rw [hd]
        by_cases hj : r.2.length > ((r.2 ++ rs.flatMap fun r => record r.1 r.2).take j).length
        · rw [if_pos hj]; exact List.nil_prefix
        · rw [if_neg hj]
          have hj' : r.2.length ≤ j := by
            rw [List.length_take] at hj; omega
          obtain ⟨i, rfl⟩ : ∃ i, j = r.2.length + i := ⟨j - r.2.length, by omega⟩
          rw [List.take_length_add_append]
          rw [List.take_left, List.drop_left]
          simp only [List.flatMap_cons]
          exact (List.prefix_append_right_inj _).2 (ih (fun y hy => h y (by simp [hy])) i n (by omega))

end Verif.ExtraMeta
