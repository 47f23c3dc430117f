/-! # General list lemmas -/

namespace Verif

theorem nodup_reverse' {α : Type _} {l : List α} (h : l.Nodup) : l.reverse.Nodup := by
  rw [List.nodup_iff_pairwise_ne] at *
  rw [List.pairwise_reverse]
  exact h.imp (fun hab => Ne.symm hab)

theorem mem_takeWhile {α : Type _} {p : α → Bool} {l : List α} {a : α}
    (h : a ∈ l.takeWhile p) : p a = true ∧ a ∈ l := by
  induction l with
  | nil => simp at h
  | cons x xs ih =>
    rw [List.takeWhile_cons] at h
    split at h
    · rename_i hx
      simp only [List.mem_cons] at h
      rcases h with rfl | h
      · exact ⟨hx, by simp⟩
      · exact ⟨(ih h).1, by simp [(ih h).2]⟩
    · simp at h

theorem takeWhile_all {α : Type _} {p : α → Bool} {l : List α} (h : ∀ a ∈ l, p a = true) :
    l.takeWhile p = l := by
  have := List.takeWhile_append_of_pos (p := p) (l₁ := l) (l₂ := []) h
  simpa using this

theorem nodup_subset_length {α : Type _} [DecidableEq α] {a b : List α} (ha : a.Nodup)
    (h : ∀ x ∈ a, x ∈ b) : a.length ≤ b.length := by
  induction a generalizing b with
  | nil => simp
  | cons x xs ih =>
    have hx : x ∈ b := h x (by simp)
    have hn := List.nodup_cons.1 ha
    have h2 : ∀ y ∈ xs, y ∈ b.erase x := by
      intro y hy
      have hyb := h y (by simp [hy])
      have hne : y ≠ x := by rintro rfl; exact hn.1 hy
      exact (List.mem_erase_of_ne hne).2 hyb
    have := ih hn.2 h2
    rw [List.length_erase_of_mem hx] at this
    have hp : 0 < b.length := List.length_pos_of_mem hx
    simp only [List.length_cons]
    omega

end Verif
