import Verif.Model.FilesEqual

/-!
# Lemmas about the comparison of two files
-/

namespace Verif.FilesEqual

theorem sameBytes_iff : ∀ {a b : Str}, a.length = b.length → (sameBytes a b = true ↔ a = b)
  | [], [], _ => by simp [sameBytes]
  | [], _ :: _, h => by simp at h
  | _ :: _, [], h => by simp at h
  | x :: xs, y :: ys, h => by
    have ih := sameBytes_iff (a := xs) (b := ys) (by simpa using h)
    unfold sameBytes
    by_cases hx : x = y
    · rw [if_neg (by simp [hx]), ih]; simp [hx]
    · rw [if_pos hx]; simp [hx]

theorem chunks_iff (n : Nat) (a b : Str) : chunks n a b = true ↔ a = b := by
  induction h : a.length using Nat.strongRecOn generalizing a b with
  | _ k ih =>
    rw [chunks]
    by_cases h1 : (a.take (n + 1)).length = (b.take (n + 1)).length
    · rw [if_neg (by simp [h1])]
      by_cases h2 : a.take (n + 1) = b.take (n + 1)
      · rw [if_neg (by rw [(sameBytes_iff h1).mpr h2]; simp)]
        by_cases h3 : (a.take (n + 1)).length < n + 1
        · rw [dif_pos h3]
          have ha : a.length < n + 1 := by rw [List.length_take] at h3; omega
          have hb : b.length < n + 1 := by rw [h1, List.length_take] at h3; omega
          rw [List.take_of_length_le (by omega), List.take_of_length_le (by omega)] at h2
          simp [h2]
        · rw [dif_neg h3]
          have hl : (a.drop (n + 1)).length < k := by
            rw [List.length_take] at h3
            rw [List.length_drop]; omega
          rw [ih _ hl _ _ rfl]
          constructor
          · intro hd
            rw [← List.take_append_drop (n + 1) a, ← List.take_append_drop (n + 1) b, h2, hd]
          · intro e; rw [e]
      · have : sameBytes (a.take (n + 1)) (b.take (n + 1)) = false := by
          cases hs : sameBytes (a.take (n + 1)) (b.take (n + 1)) with
          | false => rfl
          | true => exact absurd ((sameBytes_iff h1).mp hs) h2
        rw [if_pos this]
        constructor
        · intro e; cases e
        · intro e; exact absurd (by rw [e]) h2
    · rw [if_pos h1]
      constructor
      · intro e; cases e
      · intro e; exact absurd (by rw [e]) h1

end Verif.FilesEqual
