import Verif.Model.Strlist
import Verif.Lemmas.PathCmp

/-!
# C38: sorted option lists
-/

namespace Verif
open Verif.Strlist Verif.PathCmp

/-- The order of elements: by path, in the order of paths (C03), then by flag. -/
def ElemLt (a b : Elem) : Prop := pathcmp a.path b.path < 0 ∨ (a.path = b.path ∧ a.flag < b.flag)

instance (a b : Elem) : Decidable (ElemLt a b) := by unfold ElemLt; infer_instance

theorem ElemLt.trans {a b c : Elem} (h1 : ElemLt a b) (h2 : ElemLt b c) : ElemLt a c := by
  unfold ElemLt at *
  rcases h1 with h1 | ⟨e1, h1⟩
  · rcases h2 with h2 | ⟨e2, h2⟩
    · exact Or.inl (pathcmp_lt_trans h1 h2)
    · exact Or.inl (e2 ▸ h1)
  · rcases h2 with h2 | ⟨e2, h2⟩
    · exact Or.inl (e1 ▸ h2)
    · exact Or.inr ⟨e1.trans e2, Int.lt_trans h1 h2⟩

theorem elem_cases (a b : Elem) :
    (a = b ∧ pathcmp a.path b.path = 0) ∨
    (ElemLt a b ∧ a ≠ b ∧
      (pathcmp a.path b.path < 0 ∨ pathcmp a.path b.path = 0 ∧ a.flag < b.flag)) ∨
    (ElemLt b a ∧ a ≠ b ∧ ¬ pathcmp a.path b.path < 0 ∧
      ¬ (pathcmp a.path b.path = 0 ∧ a.flag ≤ b.flag)) := by
  unfold ElemLt
  obtain ⟨p, f⟩ := a
  obtain ⟨q, g⟩ := b
  simp only [Elem.mk.injEq]
  have anti := pathcmp_antisymm p q
  have ez := @pathcmp_eq_zero p q
  have ez' := @pathcmp_eq_zero q p
  by_cases h0 : pathcmp p q = 0
  · have e := ez.1 h0
    subst e
    have : pathcmp p p = 0 := h0
    rcases Int.lt_trichotomy f g with h | h | h
    · right; left; refine ⟨by simp [h], by simp; omega, by simp [h0, h]⟩
    · left; simp [h, h0]
    · right; right; refine ⟨by simp [h], by simp; omega, by omega, by omega⟩
  · have hne : p ≠ q := fun e => h0 (ez.2 e)
    by_cases hl : pathcmp p q < 0
    · right; left; simp [hl, hne]
    · right; right; refine ⟨Or.inl (by omega), by simp [hne], by omega, by omega⟩

theorem doAdd_uniq (x : Elem) : ∀ l : List Elem, l.Pairwise ElemLt →
    (doAdd true true x l).Pairwise ElemLt ∧ ∀ y, y ∈ doAdd true true x l ↔ y = x ∨ y ∈ l
  | [], _ => by simp [doAdd]
  | s :: ss, h => by
    rw [List.pairwise_cons] at h
    obtain ⟨ih1, ih2⟩ := doAdd_uniq x ss h.2
    rw [doAdd]
    rcases elem_cases x s with ⟨e, h0⟩ | ⟨hlt, hne, hc⟩ | ⟨hlt, hne, h1, h2⟩
    · rw [if_pos (by simp [e, pathcmp_self])]
      refine ⟨List.pairwise_cons.2 h, ?_⟩
      intro y; simp [e]
    · have hnf : ¬ (true && decide (pathcmp x.path s.path = 0) && decide (x.flag = s.flag)) = true := by
        rcases hc with hc | hc
        · simp; omega
        · simp; omega
      have res : (x :: s :: ss).Pairwise ElemLt := by
        refine List.pairwise_cons.2 ⟨?_, List.pairwise_cons.2 h⟩
        intro y hy
        rcases List.mem_cons.1 hy with rfl | hy
        · exact hlt
        · exact hlt.trans (h.1 y hy)
      rw [if_neg hnf]
      by_cases hp : pathcmp x.path s.path < 0
      · rw [if_pos (by simp [hp])]
        exact ⟨res, fun y => List.mem_cons⟩
      · rw [if_neg (by simp [hp]), if_pos (by rcases hc with hc | hc <;> simp_all)]
        exact ⟨res, fun y => List.mem_cons⟩
    · rw [if_neg (by simp; omega), if_neg (by simp [h1]), if_neg (by simp; omega)]
      refine ⟨List.pairwise_cons.2 ⟨?_, ih1⟩, ?_⟩
      · intro y hy
        rcases (ih2 y).1 hy with rfl | hy
        · exact hlt
        · exact h.1 y hy
      · intro y
        simp only [List.mem_cons, ih2]
        grind

/-- C38: adding to a sorted list without duplicates gives one, with exactly the new element added, if it
was not there. -/
theorem C38_add_uniq (l : List Elem) (x : Elem) (h : l.Pairwise ElemLt) :
    (addSortedUniq l x).Pairwise ElemLt ∧ ∀ y, y ∈ addSortedUniq l x ↔ y = x ∨ y ∈ l :=
  doAdd_uniq x l h

/-- C38: after any number of additions to the empty list, it is sorted, has no duplicates and has exactly
what has been added. -/
theorem C38_history_uniq (xs : List Elem) :
    (xs.foldl addSortedUniq []).Pairwise ElemLt ∧ (xs.foldl addSortedUniq []).Nodup ∧
    ∀ y, y ∈ xs.foldl addSortedUniq [] ↔ y ∈ xs := by
  have key : ∀ (xs l : List Elem), l.Pairwise ElemLt → (xs.foldl addSortedUniq l).Pairwise ElemLt ∧
      ∀ y, y ∈ xs.foldl addSortedUniq l ↔ y ∈ xs ∨ y ∈ l := by
    intro xs
    induction xs with
    | nil => intro l h; simp [h]
    | cons x xs ih =>
      intro l h
      obtain ⟨h1, h2⟩ := C38_add_uniq l x h
      obtain ⟨h3, h4⟩ := ih _ h1
      refine ⟨h3, ?_⟩
      intro y
      rw [List.foldl_cons, h4, h2]
      simp only [List.mem_cons]
      grind
  obtain ⟨h1, h2⟩ := key xs [] List.Pairwise.nil
  refine ⟨h1, ?_, fun y => by simpa using h2 y⟩
  refine h1.imp ?_
  intro a b hab e
  subst e
  unfold ElemLt at hab
  rw [pathcmp_self] at hab
  omega

/-- C38: adding to a sorted list that may have duplicates keeps it sorted, keeps the rest of the list in
its order, and puts the new element behind all that are equal to it. -/
theorem C38_add_sorted (l : List Elem) (x : Elem) (h : l.Pairwise (fun a b => ¬ ElemLt b a)) :
    ∃ a b, l = a ++ b ∧ addSorted l x = a ++ x :: b ∧ (∀ y ∈ a, ¬ ElemLt x y) ∧ (∀ y ∈ b, ElemLt x y) := by
  induction l with
  | nil => exact ⟨[], [], rfl, rfl, by simp, by simp⟩
  | cons s ss ih =>
    rw [List.pairwise_cons] at h
    obtain ⟨a, b, e, e2, h1, h2⟩ := ih h.2
    unfold addSorted at *
    rw [doAdd]
    simp only [Bool.false_and, Bool.false_eq_true, if_false, Bool.true_and]
    rcases elem_cases x s with ⟨e0, h0⟩ | ⟨hlt, hne, hc⟩ | ⟨hlt, hne, h3, h4⟩
    · subst e0
      rw [if_neg (by simp; omega), if_neg (by simp)]
      refine ⟨x :: a, b, by rw [e]; rfl, by rw [e2]; rfl, ?_, h2⟩
      intro y hy
      rcases List.mem_cons.1 hy with rfl | hy
      · unfold ElemLt; omega
      · exact h1 y hy
    · have all : ∀ y ∈ s :: ss, ElemLt x y := by
        intro y hy
        rcases List.mem_cons.1 hy with rfl | hy
        · exact hlt
        · have h5 := h.1 y hy
          rcases elem_cases s y with ⟨e, _⟩ | ⟨h6, _⟩ | ⟨h6, _⟩
          · exact e ▸ hlt
          · exact hlt.trans h6
          · exact absurd h6 h5
      refine ⟨[], s :: ss, rfl, ?_, by simp, all⟩
      by_cases hp : pathcmp x.path s.path < 0
      · rw [if_pos (by simp [hp])]; rfl
      · rw [if_neg (by simp [hp]), if_pos (by rcases hc with hc | hc <;> simp_all)]; rfl
    · rw [if_neg (by simp; omega), if_neg (by simp; omega)]
      refine ⟨s :: a, b, by rw [e]; rfl, by rw [e2]; rfl, ?_, h2⟩
      intro y hy
      rcases List.mem_cons.1 hy with rfl | hy
      · intro h5
        have := h5.trans hlt
        unfold ElemLt at this
        rw [pathcmp_self] at this
        omega
      · exact h1 y hy

/-- C38: without sorting, new elements go to the end. -/
theorem C38_add_unsorted (l : List Elem) (x : Elem) : add l x = l ++ [x] := by
  unfold add
  induction l with
  | nil => rfl
  | cons s ss ih => simp [doAdd, ih]

/-- C38: finding is exact. -/
theorem C38_find (l : List Elem) (path : Str) (flag : Int) : find l path flag = true ↔ ⟨path, flag⟩ ∈ l := by
  unfold find
  rw [List.any_eq_true]
  constructor
  · rintro ⟨⟨p, f⟩, hs, h⟩
    simp at h
    rw [h.2, ← h.1]
    exact hs
  · intro h
    exact ⟨_, h, by simp⟩

example : [⟨bytes "/b", 1⟩, ⟨bytes "/a", 1⟩, ⟨bytes "/a", 0⟩, ⟨bytes "/a", 1⟩].foldl addSortedUniq [] =
    [⟨bytes "/a", 0⟩, ⟨bytes "/a", 1⟩, ⟨bytes "/b", 1⟩] := by decide +kernel

example : [(⟨bytes "/a", 0⟩ : Elem), ⟨bytes "/a", 0⟩, ⟨bytes "/b", 1⟩].Pairwise (fun a b => ¬ ElemLt b a) := by
  decide +kernel

end Verif
