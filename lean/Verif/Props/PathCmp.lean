import Verif.Lemmas.PathCmp

/-!
# C03, C04, C06, C07: the path order, directory containment and dot components
-/

namespace Verif
open Verif.PathCmp

/-- C03: `pathcmp` is a total order on paths: zero exactly for equal paths, swapping the arguments
flips the sign, and "at most" is transitive (also strictly). The NULL pointer sorts first. -/
theorem C03_pathcmp_total_order :
    (∀ a b : Option Str, pathcmpP a b = 0 ↔ a = b) ∧
    (∀ a b : Option Str, pathcmpP a b = -pathcmpP b a) ∧
    (∀ a b c : Option Str, pathcmpP a b ≤ 0 → pathcmpP b c ≤ 0 → pathcmpP a c ≤ 0) ∧
    (∀ a b c : Option Str, pathcmpP a b < 0 → pathcmpP b c < 0 → pathcmpP a c < 0) ∧
    (∀ a b : Option Str, pathcmpP a b ∈ [-1, 0, 1]) := by
  refine ⟨?_, ?_, ?_, ?_, ?_⟩
  · intro a b; cases a <;> cases b <;> simp [pathcmpP, pathcmp_eq_zero]
  · intro a b; cases a <;> cases b <;> simp [pathcmpP]; exact pathcmp_antisymm _ _
  · intro a b c
    cases a <;> cases b <;> cases c <;> simp [pathcmpP]; exact pathcmp_le_trans
  · intro a b c
    cases a <;> cases b <;> cases c <;> simp [pathcmpP]; exact pathcmp_lt_trans
  · intro a b
    cases a <;> cases b <;> simp [pathcmpP]
    exact pathcmp_range _ _

/-- C03: the order is lexicographic, with the separator below every other byte and the others in
signed order. -/
theorem C03_pathcmp_lexicographic (a b : Str) :
    pathcmp a b < 0 ↔ a.map rank < b.map rank := pathcmp_lt_iff_lex a b

-- Non-trivial: the separator sorts before `!` (33) and before bytes over 127, which are negative.
example : pathcmp (bytes "/a/b") (bytes "/a!b") = -1 := by decide
example : pathcmp (bytes "/a" ++ [200]) (bytes "/ab") = -1 := by decide
example : pathcmp (bytes "/b") (bytes "/a/c") = 1 := by decide

/-- C04: in a list sorted by `pathcmp` everything at or beneath a directory is contiguous: whatever
sorts between two entries of a directory tree belongs to that tree. -/
theorem C04_directory_contiguous (d p q r : Str) (hp : Under d p) (hr : Under d r)
    (h1 : pathcmp p q ≤ 0) (h2 : pathcmp q r ≤ 0) : Under d q := by
  have h1' : pathcmp d q ≤ 0 := by
    refine pathcmp_le_trans (b := p) ?_ h1
    rcases hp with h | ⟨y, h⟩
    · subst h; rw [pathcmp_self]; decide
    · subst h; exact Int.le_of_lt (dir_lt_under d y)
  rcases hr with h | ⟨y, h⟩
  · subst h
    left
    have := pathcmp_antisymm r q
    exact pathcmp_eq_zero.1 (by omega)
  · subst h; exact between_dir h1' h2

/-- C04: the same fact about positions in a sorted list. -/
theorem C04_sorted_contiguous (l : List Str) (hs : l.Pairwise (fun a b => pathcmp a b ≤ 0))
    (d : Str) (i j k : Nat) (hij : i < j) (hjk : j < k) (hk : k < l.length)
    (hi : Under d (l[i]'(by omega))) (hk' : Under d l[k]) : Under d (l[j]'(by omega)) := by
  rw [List.pairwise_iff_getElem] at hs
  exact C04_directory_contiguous d _ _ _ hi hk' (hs i j (by omega) (by omega) hij)
    (hs j k (by omega) hk hjk)

/-- C04: a directory sorts strictly before everything beneath it. -/
theorem C04_directory_first (d y : Str) : pathcmp d (d ++ slash :: y) < 0 := dir_lt_under d y

example : Under (bytes "/a") (bytes "/a") ∧ Under (bytes "/a") (bytes "/a/c/d") ∧
    pathcmp (bytes "/a") (bytes "/a/b") ≤ 0 ∧ pathcmp (bytes "/a/b") (bytes "/a/c/d") ≤ 0 :=
  ⟨Or.inl rfl, Or.inr ⟨bytes "c/d", by decide⟩, by decide, by decide⟩

/-- C06: `is_subdir` holds exactly when the path is the directory, lies beneath it at a separator,
or the directory is written with a trailing separator and the path continues it. -/
theorem C06_is_subdir_exact (dir sub : Str) (hd : NoNul dir) (hs : NoNul sub) :
    isSubdir dir sub ≠ 0 ↔
      Under dir sub ∨ (dir.getLast? = some slash ∧ ∃ y, y ≠ [] ∧ sub = dir ++ y) := by
  rw [isSubdir_eq dir sub hd hs]
  unfold Under
  split
  · rename_i h
    simp only [ne_eq, Nat.add_eq_zero_iff, Nat.succ_ne_self, and_false, not_false_eq_true, true_iff]
    rcases h with h | h | h
    · exact Or.inl (Or.inl h)
    · exact Or.inl (Or.inr h)
    · exact Or.inr h
  · rename_i h
    simp only [ne_eq, not_true_eq_false, false_iff]
    rintro ((h1 | h1) | h1)
    · exact h (Or.inl h1)
    · exact h (Or.inr (Or.inl h1))
    · exact h (Or.inr (Or.inr h1))

/-- C06: the value returned for a match is one more than the number of separators in the directory,
so a more deeply nested directory gives a larger value. -/
theorem C06_is_subdir_value (dir sub : Str) (hd : NoNul dir) (hs : NoNul sub)
    (h : isSubdir dir sub ≠ 0) : isSubdir dir sub = dir.count slash + 1 := by
  rw [isSubdir_eq dir sub hd hs] at h ⊢
  split at h
  · rename_i h'; rw [if_pos h']
  · exact absurd rfl h

/-- C06: a NULL argument is never a match. -/
theorem C06_is_subdir_null (dir sub : Option Str) (h : dir = none ∨ sub = none) :
    isSubdirP dir sub = 0 := by
  rcases h with h | h <;> subst h
  · rfl
  · cases dir <;> rfl

example : isSubdir (bytes "/bin") (bytes "/bin/bash") = 2 := by decide
example : isSubdir (bytes "/bin") (bytes "/bing") = 0 := by decide
example : isSubdir (bytes "/bin/") (bytes "/bin") = 0 := by decide
example : isSubdir (bytes "/") (bytes "/bin") = 2 := by decide

theorem component_dot_aux (c : Str) (h : c = [dot] ∨ c = [dot, dot]) : slash ∉ c := by
  rcases h with h | h <;> subst h <;> decide

/-- C07: a path is reported as having a dot component exactly when one of its components is `.` or
`..`. -/
theorem C07_has_dot_component (path : Str) :
    hasDotComponent path = true ↔ Component [dot] path ∨ Component [dot, dot] path := by
  unfold hasDotComponent
  rw [dotLoop_spec]
  constructor
  · rintro ⟨pre, c, post, h, hc, hpre, hpost⟩
    have hpre' : pre = [] ∨ pre.getLast? = some slash := by
      rcases hpre with h | h
      · exact Or.inl h.1
      · exact Or.inr h
    rcases hc with hc | hc <;> subst hc
    · exact Or.inl ⟨by decide, pre, post, h, hpre', hpost⟩
    · exact Or.inr ⟨by decide, pre, post, h, hpre', hpost⟩
  · rintro (⟨_, pre, post, h, hpre, hpost⟩ | ⟨_, pre, post, h, hpre, hpost⟩)
    · refine ⟨pre, _, post, h, Or.inl rfl, ?_, hpost⟩
      rcases hpre with h | h
      · exact Or.inl ⟨h, Or.inl rfl⟩
      · exact Or.inr h
    · refine ⟨pre, _, post, h, Or.inr rfl, ?_, hpost⟩
      rcases hpre with h | h
      · exact Or.inl ⟨h, Or.inl rfl⟩
      · exact Or.inr h

/-- C07: a path counts as absolute exactly when it has no dot component and starts with a separator
or a drive letter and a colon. -/
theorem C07_is_absolute (path : Str) :
    isAbsolute path = true ↔
      ¬ Component [dot] path ∧ ¬ Component [dot, dot] path ∧
      ((∃ r, path = slash :: r) ∨
        ∃ c r, path = c :: 58 :: r ∧ (65 ≤ c ∧ c ≤ 90 ∨ 97 ≤ c ∧ c ≤ 122)) := by
  have hd := C07_has_dot_component path
  unfold isAbsolute
  by_cases h : hasDotComponent path = true
  · rw [if_pos h]
    have := hd.1 h
    simp only [Bool.false_eq_true, false_iff]
    rintro ⟨h1, h2, _⟩
    rcases this with h | h
    · exact h1 h
    · exact h2 h
  · rw [if_neg h]
    have hnot : ¬ (Component [dot] path ∨ Component [dot, dot] path) := fun e => h (hd.2 e)
    have hn1 : ¬ Component [dot] path := fun e => hnot (Or.inl e)
    have hn2 : ¬ Component [dot, dot] path := fun e => hnot (Or.inr e)
    simp only [hn1, hn2, not_false_eq_true, true_and]
    cases path with
    | nil => simp [deref]; decide
    | cons c r =>
      cases r with
      | nil => simp [deref]
      | cons c2 r =>
        simp only [deref, List.headD_cons, List.drop_succ_cons, List.drop_zero, Bool.or_eq_true,
          Bool.and_eq_true, beq_iff_eq, isAlpha, List.cons.injEq]
        constructor
        · rintro (⟨h1, h2⟩ | h1)
          · exact Or.inr ⟨c, r, ⟨rfl, h2, rfl⟩, h1.imp (And.imp of_decide_eq_true of_decide_eq_true) (And.imp of_decide_eq_true of_decide_eq_true)⟩
          · exact Or.inl ⟨c2 :: r, h1, rfl⟩
        · rintro (⟨_, h1, _⟩ | ⟨c', r', ⟨h1, h2, _⟩, h4⟩)
          · exact Or.inr h1
          · subst h1; exact Or.inl ⟨h4.imp (And.imp decide_eq_true decide_eq_true) (And.imp decide_eq_true decide_eq_true), h2⟩

example : hasDotComponent (bytes "/a/../b") = true := by decide
example : hasDotComponent (bytes "/a/..b/.c/d.") = false := by decide
example : isAbsolute (bytes "C:/x") = true := by decide
example : isAbsolute (bytes "/x/./y") = false := by decide

end Verif
