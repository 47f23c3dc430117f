import Verif.Lemmas.YajlInput

/-!
# Lines, however they arrive; and the answers of a server as values
-/

namespace Verif.Yajl
open Verif.JsonInput

/-! ### Lines -/

theorem cut_none : ∀ {t : Str}, newline ∉ t → cut t = ([], t)
  | [], _ => rfl
  | c :: t, h => by
    simp only [List.mem_cons, not_or] at h
    rw [cut, cut_none h.2]
    simp only
    rw [if_neg (fun e => h.1 e.symm)]

theorem cut_line : ∀ {a : Str} (b : Str), newline ∉ a → cut (a ++ newline :: b) = (a :: (cut b).1, (cut b).2)
  | [], b, _ => by rw [List.nil_append, cut, if_pos rfl]
  | c :: a, b, h => by
    simp only [List.mem_cons, not_or] at h
    rw [List.cons_append, cut, cut_line b h.2]
    simp only
    rw [if_neg (fun e => h.1 e.symm)]

theorem getLines_cut : ∀ (n : Nat) (t : Str), t.length ≤ n → Short t →
    getLines t = some ((cut t).1.map Yajl.strip, (cut t).2)
  | n, t, hn, hs => by
    rcases newline_split t with h | ⟨a, b, rfl, ha⟩
    · rw [getLines_none (getLine_none h), cut_none h]
      rfl
    · cases n with
      | zero => simp at hn
      | succ n =>
        have hl : a.length + 1 < bufMax := hs [] a (newline :: b) rfl ha
        rw [getLines_line (getLine_line ha hl), cut_line b ha, getLines_cut n b
          (by simp only [List.length_append, List.length_cons] at hn; omega)
          (short_tail (a := a ++ [newline]) (by simpa using hs))]
        rfl

theorem cut_append : ∀ (n : Nat) (t u : Str), t.length ≤ n →
    cut (t ++ u) = ((cut t).1 ++ (cut ((cut t).2 ++ u)).1, (cut ((cut t).2 ++ u)).2)
  | n, t, u, hn => by
    rcases newline_split t with h | ⟨a, b, rfl, ha⟩
    · rw [cut_none h]
      rfl
    · cases n with
      | zero => simp at hn
      | succ n =>
        rw [List.append_assoc, List.cons_append, cut_line _ ha, cut_line _ ha,
          cut_append n b u (by simp only [List.length_append, List.length_cons] at hn; omega)]
        rfl

theorem cut_rest : ∀ (n : Nat) (t : Str), t.length ≤ n → newline ∉ (cut t).2 ∧ ∃ a, t = a ++ (cut t).2
  | n, t, hn => by
    rcases newline_split t with h | ⟨a, b, rfl, ha⟩
    · rw [cut_none h]
      exact ⟨h, [], rfl⟩
    · cases n with
      | zero => simp at hn
      | succ n =>
        obtain ⟨h1, x, h2⟩ := cut_rest n b (by simp only [List.length_append, List.length_cons] at hn; omega)
        rw [cut_line _ ha]
        refine ⟨h1, a ++ newline :: x, ?_⟩
        simp only
        rw [List.append_assoc, List.cons_append, ← h2]

theorem readLines_cut : ∀ (reads : List Str) (done buf : Str), (cut done).2 = buf → Short (done ++ reads.flatten) →
    Arrive done reads → readLines buf reads =
      some ((cut (buf ++ reads.flatten)).1.map Yajl.strip, (cut (buf ++ reads.flatten)).2)
  | [], done, buf, hb, _, _ => by
    rw [readLines, List.flatten_nil, List.append_nil]
    have := (cut_rest done.length done (Nat.le_refl _)).1
    rw [hb] at this
    rw [cut_none this]
    rfl
  | r :: rs, done, buf, hb, hs, ha => by
    rw [Arrive] at ha
    obtain ⟨h1, h2, h3⟩ := ha
    rw [hb] at h2
    have h4 : r.length ≠ 0 := fun e => h1 (List.length_eq_zero_iff.mp e)
    have hd := cut_append done.length done r (Nat.le_refl _)
    rw [hb] at hd
    have hsh : Short (buf ++ r) := by
      obtain ⟨_, a, h5⟩ := cut_rest done.length done (Nat.le_refl _)
      rw [hb] at h5
      intro x l y hxy hl
      refine hs (a ++ x) l (y ++ rs.flatten) ?_ hl
      rw [List.flatten_cons]
      calc done ++ (r ++ rs.flatten) = a ++ (buf ++ r) ++ rs.flatten := by rw [h5]; simp
        _ = _ := by rw [hxy]; simp
    rw [readLines, if_neg (by have : bufMax = 32032 := rfl; omega), getLines_cut _ _ (Nat.le_refl _) hsh]
    simp only
    rw [readLines_cut rs (done ++ r) (cut (buf ++ r)).2 (by rw [hd]) (by rw [List.append_assoc]; exact hs) h3]
    have h6 := cut_append (buf ++ r).length (buf ++ r) rs.flatten (Nat.le_refl _)
    rw [List.flatten_cons, ← List.append_assoc, h6]
    simp

end Verif.Yajl
