import Verif.Lemmas.Human

/-!
# C123: the sizes and durations that are printed are the real ones
-/

namespace Verif
open BackupNumber Human

/-- **C123, in part.** A duration that is printed, read as days, hours, minutes and seconds, is the duration, to the
second. For less than a million days. -/
theorem C123_time_partial (d : Nat) (h : d < 86400 * 10 ^ 6) : readClock (timeTaken d) = some d := by
  rw [timeTaken_eq h]
  unfold readClock
  have c1 := pad2_colon (d / 86400)
  have c2 := pad2_colon (d / 3600 % 24)
  have c3 := pad2_colon (d / 60 % 60)
  have c4 := pad2_colon (d % 60)
  by_cases hz : d / 86400 = 0
  · by_cases hy : d / 3600 % 24 = 0
    · rw [if_neg (by simp [hz]), if_neg (by simp [hz, hy]), List.nil_append, List.nil_append, fields_colon _ c3, fields_one c4]
      simp only [List.map_cons, List.map_nil, pad2_value, clock]
      congr 1; omega
    · rw [if_neg (by simp [hz]), if_pos (by simp [hy]), List.nil_append, fields_colon _ c2, fields_colon _ c3, fields_one c4]
      simp only [List.map_cons, List.map_nil, pad2_value, clock]
      congr 1; omega
  · rw [if_pos hz, if_pos (.inl hz), fields_colon _ c1, fields_colon _ c2, fields_colon _ c3, fields_one c4]
    simp only [List.map_cons, List.map_nil, pad2_value, clock]
    congr 1; omega

/-- **C123.** So different durations look different. -/
theorem C123_time_distinct (a b : Nat) (ha : a < 86400 * 10 ^ 6) (hb : b < 86400 * 10 ^ 6) (h : timeTaken a = timeTaken b) :
    a = b := by
  have h1 := C123_time_partial a ha
  rw [h, C123_time_partial b hb] at h1
  exact (Option.some.inj h1).symm

/-- **C123.** A size has a unit exactly if it is at least 1024 bytes. -/
theorem C123_unit (n : Nat) : human n = none ↔ n < 1024 := by
  constructor
  · intro h
    by_cases hn : n < 1024
    · exact hn
    · have := flt_ge (Nat.le_of_not_lt hn)
      unfold human at h
      rw [if_neg (by omega)] at h
      repeat (split at h; · cases h)
      cases h
  · intro h
    unfold human
    rw [flt_small (by omega), if_pos h]

/-- **C123.** What is divided by the unit is the size, up to one part in 2^24. -/
theorem C123_near (n : Nat) : (flt n - n) * 2 ^ 24 ≤ n ∧ (n - flt n) * 2 ^ 24 ≤ n := flt_near n

/-- **C123, in part.** Below 1024 TB the unit that is printed is the one that was divided by, and what is printed
before it is at least 1 and less than 1024. -/
theorem C123_size_partial (n k : Nat) (u : Str) (h : human n = some (k, u)) (hn : flt n < 2 ^ 50) :
    (u, 1024 ^ k) ∈ unitSize ∧ 1024 ^ k ≤ flt n ∧ flt n < 1024 * 1024 ^ k := by
  unfold human at h
  split at h
  · cases h
  split at h
  · simp only [Option.some.injEq, Prod.mk.injEq] at h
    obtain ⟨rfl, rfl⟩ := h
    exact ⟨by decide, by omega, by omega⟩
  split at h
  · simp only [Option.some.injEq, Prod.mk.injEq] at h
    obtain ⟨rfl, rfl⟩ := h
    exact ⟨by decide, by omega, by omega⟩
  split at h
  · simp only [Option.some.injEq, Prod.mk.injEq] at h
    obtain ⟨rfl, rfl⟩ := h
    exact ⟨by decide, by omega, by omega⟩
  simp only [Option.some.injEq, Prod.mk.injEq] at h
  obtain ⟨rfl, rfl⟩ := h
  exact ⟨by decide, by omega, by omega⟩

/-- C123 fails from 1024 TB: "EB" is printed for 2^50 bytes, which are a PB, and "PB" for 2^60 bytes, which are an EB. So
a size looks 1024 times as large as it is, or 1024 times as small. -/
theorem C123_size_violated (n : Nat) (h : 2 ^ 50 ≤ flt n) :
    (flt n < 2 ^ 60 → human n = some (5, bytes "EB")) ∧ (2 ^ 60 ≤ flt n → human n = some (6, bytes "PB"))
    ∧ (bytes "EB", 1024 * 1024 ^ 5) ∈ unitSize ∧ (bytes "PB", 1024 ^ 6 / 1024) ∈ unitSize := by
  refine ⟨fun h2 => ?_, fun h2 => ?_, by decide, by decide⟩
  · unfold human
    rw [if_neg (by omega), if_neg (by omega), if_neg (by omega), if_neg (by omega), if_neg (by omega), if_pos (by omega)]
  · unfold human
    rw [if_neg (by omega), if_neg (by omega), if_neg (by omega), if_neg (by omega), if_neg (by omega), if_neg (by omega)]

/-! ### The hypotheses are met -/

example : timeTaken 59 = bytes "00:59" ∧ timeTaken 3600 = bytes "01:00:00" ∧ timeTaken 86400 = bytes "01:00:00:00"
    ∧ timeTaken 90061 = bytes "01:01:01:01" := by
  have d0 : decimal 0 = [48] := by rw [decimal]; rfl
  have d1 : decimal 1 = [49] := by rw [decimal]; rfl
  have d59 : decimal 59 = [53, 57] := by
    rw [decimal, if_neg (by decide), decimal]; rfl
  refine ⟨?_, ?_, ?_, ?_⟩ <;> simp [timeTaken, pad2, buf8, d0, d1, d59] <;> decide

example : human 5000000 = some (2, bytes "MB") ∧ flt 5000000 < 2 ^ 50 := by decide

example : 2 ^ 50 ≤ flt (2 ^ 50) ∧ flt (2 ^ 50) < 2 ^ 60 := by
  have := flt_near (2 ^ 50)
  have h : flt (2 ^ 50) = 2 ^ 50 := by
    have hl : (2 ^ 50 : Nat).log2 = 50 := Nat.log2_two_pow
    unfold flt
    rw [if_neg (by decide)]
    simp only [hl]
    decide
  rw [h]; decide

end Verif
