import Verif.Model.PathCmp
import Verif.Spec.Path

namespace Verif.PathCmp
open Verif

theorem rank_inj {x y : Byte} (h : rank x = rank y) : x = y := by
  unfold rank at h
  have hx := x.toNat_lt
  have hy := y.toNat_lt
  apply UInt8.toNat_inj.1
  split at h <;> split at h
  · simp_all
  all_goals (try split at h) <;> (try split at h) <;> omega

theorem rank_slash_lt {y : Byte} (h : y ≠ slash) : rank slash < rank y := by
  unfold rank
  simp only [if_true, h, if_false]
  split <;> omega

/-- One step of `pathcmp` in terms of `rank`. -/
theorem pathcmp_cons (x y : Byte) (xs ys : Str) :
    pathcmp (x :: xs) (y :: ys) =
      if rank x = rank y then pathcmp xs ys else if rank x < rank y then -1 else 1 := by
  by_cases hxy : x = y
  · subst hxy; simp [pathcmp]
  · have hr : rank x ≠ rank y := fun h => hxy (rank_inj h)
    rw [pathcmp]
    simp only [hxy, if_false, hr]
    by_cases hx : x = slash
    · have hy : y ≠ slash := fun h => hxy (hx.trans h.symm)
      subst hx
      simp [hy, rank_slash_lt hy]
    · by_cases hy : y = slash
      · subst hy
        have := rank_slash_lt hx
        have h2 : ¬ rank x < rank slash := by omega
        simp [hx, h2]
      · have e1 : rank x = int8 x := by unfold rank int8; simp [hx]
        have e2 : rank y = int8 y := by unfold rank int8; simp [hy]
        rw [e1, e2] at hr ⊢
        simp only [hx, hy, false_and, and_false, if_false]
        by_cases hlt : int8 x < int8 y
        · simp [hlt]
        · have : int8 x > int8 y := by omega
          simp [hlt, this]

theorem pathcmp_range (a b : Str) : pathcmp a b = -1 ∨ pathcmp a b = 0 ∨ pathcmp a b = 1 := by
  induction a generalizing b with
  | nil => cases b <;> simp [pathcmp]
  | cons x xs ih =>
    cases b with
    | nil => simp [pathcmp]
    | cons y ys =>
      rw [pathcmp_cons]
      split
      · exact ih ys
      · split <;> simp

theorem pathcmp_self (a : Str) : pathcmp a a = 0 := by
  induction a with
  | nil => rfl
  | cons x xs ih => simp [pathcmp, ih]

theorem pathcmp_eq_zero {a b : Str} : pathcmp a b = 0 ↔ a = b := by
  constructor
  · induction a generalizing b with
    | nil => cases b <;> simp [pathcmp]
    | cons x xs ih =>
      cases b with
      | nil => simp [pathcmp]
      | cons y ys =>
        rw [pathcmp_cons]
        split
        · rename_i h; intro h2; rw [rank_inj h, ih h2]
        · split <;> simp
  · intro h; subst h; exact pathcmp_self a

theorem pathcmp_antisymm (a b : Str) : pathcmp a b = -pathcmp b a := by
  induction a generalizing b with
  | nil => cases b <;> simp [pathcmp]
  | cons x xs ih =>
    cases b with
    | nil => simp [pathcmp]
    | cons y ys =>
      rw [pathcmp_cons, pathcmp_cons]
      by_cases h : rank x = rank y
      · simp [h, ih ys]
      · have h' : rank y ≠ rank x := fun e => h e.symm
        simp only [h, h', if_false]
        by_cases hlt : rank x < rank y
        · have : ¬ rank y < rank x := by omega
          simp [hlt, this]
        · have : rank y < rank x := by omega
          simp [hlt, this]

theorem pathcmp_lt_trans {a b c : Str} (h1 : pathcmp a b < 0) (h2 : pathcmp b c < 0) :
    pathcmp a c < 0 := by
  induction a generalizing b c with
  | nil =>
    cases c with
    | nil => cases b <;> simp [pathcmp] at h1 h2
    | cons => simp [pathcmp]
  | cons x xs ih =>
    cases b with
    | nil => simp [pathcmp] at h1
    | cons y ys =>
      cases c with
      | nil => simp [pathcmp] at h2
      | cons z zs =>
        rw [pathcmp_cons] at h1 h2 ⊢
        by_cases e1 : rank x = rank y
        · by_cases e2 : rank y = rank z
          · simp only [e1, e2, if_true] at h1 h2 ⊢
            exact ih h1 h2
          · simp only [e2, if_false] at h2
            have hlt : rank y < rank z := by
              by_cases h : rank y < rank z
              · exact h
              · simp [h] at h2
            have : rank x ≠ rank z := by omega
            simp [this]; omega
        · simp only [e1, if_false] at h1
          have hlt : rank x < rank y := by
            by_cases h : rank x < rank y
            · exact h
            · simp [h] at h1
          by_cases e2 : rank y = rank z
          · have : rank x ≠ rank z := by omega
            simp [this]; omega
          · simp only [e2, if_false] at h2
            have hlt2 : rank y < rank z := by
              by_cases h : rank y < rank z
              · exact h
              · simp [h] at h2
            have : rank x ≠ rank z := by omega
            simp [this]; omega

theorem pathcmp_le_trans {a b c : Str} (h1 : pathcmp a b ≤ 0) (h2 : pathcmp b c ≤ 0) :
    pathcmp a c ≤ 0 := by
  by_cases e1 : pathcmp a b = 0
  · rw [pathcmp_eq_zero] at e1; subst e1; exact h2
  · by_cases e2 : pathcmp b c = 0
    · rw [pathcmp_eq_zero] at e2; subst e2; exact h1
    · exact Int.le_of_lt (pathcmp_lt_trans (b := b) (by omega) (by omega))

theorem pathcmp_append_left (p a b : Str) : pathcmp (p ++ a) (p ++ b) = pathcmp a b := by
  induction p with
  | nil => rfl
  | cons x xs ih => simp [pathcmp, ih]

theorem pathcmp_lt_iff_lex (a b : Str) :
    pathcmp a b < 0 ↔ a.map rank < b.map rank := by
  induction a generalizing b with
  | nil => cases b <;> simp [pathcmp]
  | cons x xs ih =>
    cases b with
    | nil => simp [pathcmp]
    | cons y ys =>
      rw [pathcmp_cons]
      simp only [List.map_cons, List.cons_lt_cons_iff]
      by_cases e : rank x = rank y
      · simp [e, ih]
      · by_cases hlt : rank x < rank y
        · simp [e, hlt]
        · simp [e, hlt]

/-- Between a directory and something beneath it there is only the directory and what is beneath. -/
theorem between_dir {d q x : Str} (h1 : pathcmp d q ≤ 0) (h2 : pathcmp q (d ++ slash :: x) ≤ 0) :
    Under d q := by
  induction d generalizing q with
  | nil =>
    cases q with
    | nil => exact Or.inl rfl
    | cons c q =>
      rw [List.nil_append, pathcmp_cons] at h2
      by_cases e : c = slash
      · subst e; exact Or.inr ⟨q, rfl⟩
      · have hr := rank_slash_lt e
        have h3 : rank c ≠ rank slash := by omega
        have h4 : ¬ rank c < rank slash := by omega
        simp only [h3, h4, if_false] at h2
        omega
  | cons a d ih =>
    cases q with
    | nil => simp [pathcmp] at h1
    | cons c q =>
      rw [List.cons_append, pathcmp_cons] at h2
      rw [pathcmp_cons] at h1
      by_cases e : rank a = rank c
      · have hac := rank_inj e
        subst hac
        simp only [if_true] at h1 h2
        rcases ih h1 h2 with h | ⟨y, h⟩
        · exact Or.inl (by rw [h])
        · exact Or.inr ⟨y, by rw [h]; rfl⟩
      · have e' : rank c ≠ rank a := fun h => e h.symm
        simp only [e, e', if_false] at h1 h2
        exfalso
        split at h1
        · split at h2 <;> omega
        · omega

theorem dir_lt_under (d x : Str) : pathcmp d (d ++ slash :: x) < 0 := by
  have := pathcmp_append_left d [] (slash :: x)
  rw [List.append_nil] at this
  rw [this]; simp [pathcmp]

/-! ### is_subdir -/

/-- What the loop of `is_subdir` leaves: the common prefix has been walked over. `p` is the part
matched so far, of which `sl` and `dl` point at the last character (or at the start). -/
theorem subdirLoop_spec : ∀ (s d sl dl : Str) (n : Nat), ∃ p s' d',
    s = p ++ s' ∧ d = p ++ d' ∧
    (s' = [] ∨ d' = [] ∨ s'.head? ≠ d'.head?) ∧
    subdirLoop s d sl dl n =
      (s', d', (match p.getLast? with | none => sl | some c => c :: s'),
               (match p.getLast? with | none => dl | some c => c :: d'), n + p.count slash) := by
  intro s
  induction s with
  | nil => intro d sl dl n; exact ⟨[], [], d, rfl, rfl, Or.inl rfl, by cases d <;> simp [subdirLoop]⟩
  | cons x s ih =>
    intro d sl dl n
    cases d with
    | nil => exact ⟨[], x :: s, [], rfl, rfl, Or.inr (Or.inl rfl), by simp [subdirLoop]⟩
    | cons y d =>
      by_cases hxy : x = y
      · subst hxy
        obtain ⟨p, s', d', h1, h2, h3, h4⟩ := ih d (x :: s) (x :: d)
          (if x = slash then n + 1 else n)
        refine ⟨x :: p, s', d', by rw [h1]; rfl, by rw [h2]; rfl, h3, ?_⟩
        rw [subdirLoop]
        simp only [ne_eq, not_true_eq_false, if_false, h4]
        have hc : (if x = slash then n + 1 else n) + p.count slash
            = n + (x :: p).count slash := by
          rw [List.count_cons]
          by_cases hx : x = slash
          · simp [hx]; omega
          · simp [hx]
        rw [hc]
        cases p with
        | nil => simp [List.nil_append] at h1 h2; subst h1 h2; simp
        | cons a p => simp [List.getLast?_cons]
      · exact ⟨[], x :: s, y :: d, rfl, rfl, Or.inr (Or.inr (by simpa using hxy)),
          by simp [subdirLoop, hxy]⟩

open Classical in
theorem isSubdir_eq (dir sub : Str) (hd : NoNul dir) (hs : NoNul sub) :
    isSubdir dir sub =
      if (sub = dir ∨ (∃ y, sub = dir ++ slash :: y) ∨
          (dir.getLast? = some slash ∧ ∃ y, y ≠ [] ∧ sub = dir ++ y))
      then dir.count slash + 1 else 0 := by
  obtain ⟨p, s', d', h1, h2, h3, h4⟩ := subdirLoop_spec sub dir sub dir 1
  unfold isSubdir
  rw [h4]
  dsimp only
  by_cases hd' : d' = []
  · subst hd'
    rw [List.append_nil] at h2
    subst h2
    by_cases hs' : s' = []
    · subst hs'
      rw [List.append_nil] at h1
      subst h1
      simp; omega
    · by_cases hsl : deref s' = slash
      · cases s' with
        | nil => exact absurd rfl hs'
        | cons c y =>
          simp [deref] at hsl
          subst hsl h1
          simp [deref]; omega
      · have hcond : (sub = dir ∨ (∃ y, sub = dir ++ slash :: y) ∨
            (dir.getLast? = some slash ∧ ∃ y, y ≠ [] ∧ sub = dir ++ y)) ↔
            dir.getLast? = some slash := by
          constructor
          · rintro (h | ⟨y, h⟩ | ⟨h, _⟩)
            · rw [h1] at h; simp at h; exact absurd h hs'
            · rw [h1] at h
              have := List.append_cancel_left h
              rw [this] at hsl; simp [deref] at hsl
            · exact h
          · intro h; exact Or.inr (Or.inr ⟨h, s', hs', h1⟩)
        simp only [hs', hsl, and_false, if_false]
        simp only [hcond]
        cases hl : dir.getLast? with
        | none =>
          have : dir = [] := by simpa using hl
          subst this
          simp at h1
          subst h1
          simp [deref]
          intro h; exact absurd h (by decide)
        | some c =>
          by_cases hc : c = slash
          · subst hc
            simp [deref, hs']; omega
          · simp [deref, hc]
  · have hne : ¬ (sub = dir ∨ (∃ y, sub = dir ++ slash :: y) ∨
        (dir.getLast? = some slash ∧ ∃ y, y ≠ [] ∧ sub = dir ++ y)) := by
      have key : ∀ y, sub ≠ dir ++ y := by
        intro y h
        rw [h1, h2, List.append_assoc] at h
        have h5 := List.append_cancel_left h
        rcases h3 with h3 | h3 | h3
        · rw [h3] at h5; cases d' with
          | nil => exact hd' rfl
          | cons => simp at h5
        · exact hd' h3
        · cases d' with
          | nil => exact hd' rfl
          | cons c d' => rw [h5] at h3; simp at h3
      rintro (h | ⟨y, h⟩ | ⟨_, y, _, h⟩)
      · exact key [] (by simpa using h)
      · exact key _ h
      · exact key y h
    simp only [hd', false_and, if_false, hne]
    cases hl : p.getLast? with
    | none =>
      have hp : p = [] := by simpa using hl
      subst hp
      simp at h1 h2
      subst h1 h2
      simp only
      rw [if_neg]
      rintro ⟨e1, e2, e3, e4⟩
      rcases h3 with h3 | h3 | h3
      · rw [h3] at e2; exact absurd e2 (by decide)
      · exact hd' h3
      · cases sub with
        | nil => exact absurd e2 (by decide)
        | cons a s =>
          cases dir with
          | nil => exact hd' rfl
          | cons b d => simp [deref] at e1 e2; simp [e1, e2] at h3
    | some c =>
      simp [deref, hd']

/-! ### has_dot_component -/

/-- `c` starts at the current position: preceded by the start or a separator, and followed by the
end or a separator. -/
theorem dotLoop_spec (prev : Option Byte) (p : Str) :
    dotLoop prev p = true ↔
      ∃ pre c post, p = pre ++ c ++ post ∧ (c = [dot] ∨ c = [dot, dot]) ∧
        (pre = [] ∧ (prev = none ∨ prev = some slash) ∨ pre.getLast? = some slash) ∧
        (post = [] ∨ post.head? = some slash) := by
  induction p generalizing prev with
  | nil =>
    simp only [dotLoop, Bool.false_eq_true, false_iff]
    rintro ⟨pre, c, post, h, hc, _⟩
    rcases hc with hc | hc <;> subst hc <;> simp at h
  | cons a p ih =>
    have step : (∃ pre c post, p = pre ++ c ++ post ∧ (c = [dot] ∨ c = [dot, dot]) ∧
        (pre = [] ∧ (some a = none ∨ some a = some slash) ∨ pre.getLast? = some slash) ∧
        (post = [] ∨ post.head? = some slash)) →
        (∃ pre c post, a :: p = pre ++ c ++ post ∧ (c = [dot] ∨ c = [dot, dot]) ∧
        (pre = [] ∧ (prev = none ∨ prev = some slash) ∨ pre.getLast? = some slash) ∧
        (post = [] ∨ post.head? = some slash)) := by
      rintro ⟨pre, c, post, h, hc, hpre, hpost⟩
      refine ⟨a :: pre, c, post, by rw [h]; rfl, hc, Or.inr ?_, hpost⟩
      rcases hpre with ⟨h1, h2⟩ | h1
      · subst h1; simpa using h2
      · rw [List.getLast?_cons, h1]; rfl
    -- the converse, when no dot component starts here
    have back : (∃ pre c post, a :: p = pre ++ c ++ post ∧ (c = [dot] ∨ c = [dot, dot]) ∧
        (pre = [] ∧ (prev = none ∨ prev = some slash) ∨ pre.getLast? = some slash) ∧
        (post = [] ∨ post.head? = some slash)) →
        (∃ c post, a :: p = c ++ post ∧ (c = [dot] ∨ c = [dot, dot]) ∧
          (prev = none ∨ prev = some slash) ∧ (post = [] ∨ post.head? = some slash)) ∨
        (∃ pre c post, p = pre ++ c ++ post ∧ (c = [dot] ∨ c = [dot, dot]) ∧
        (pre = [] ∧ (some a = none ∨ some a = some slash) ∨ pre.getLast? = some slash) ∧
        (post = [] ∨ post.head? = some slash)) := by
      rintro ⟨pre, c, post, h, hc, hpre, hpost⟩
      cases pre with
      | nil =>
        left
        refine ⟨c, post, by simpa using h, hc, ?_, hpost⟩
        rcases hpre with ⟨_, h2⟩ | h1
        · exact h2
        · simp at h1
      | cons b pre =>
        right
        simp only [List.cons_append, List.cons.injEq] at h
        refine ⟨pre, c, post, h.2, hc, ?_, hpost⟩
        rcases hpre with ⟨h1, _⟩ | h1
        · simp at h1
        · cases pre with
          | nil => left; refine ⟨rfl, Or.inr ?_⟩; simp at h1; rw [h.1, h1]
          | cons b' pre => right; rw [List.getLast?_cons_cons] at h1; exact h1
    unfold dotLoop
    by_cases ha : a = dot
    · subst ha
      simp only [ne_eq, not_true_eq_false, if_false]
      by_cases h1 : (prev = none ∨ prev = some slash) ∧ (deref p = slash ∨ p = [])
      · rw [if_pos h1]
        simp only [true_iff]
        refine ⟨[], [dot], p, rfl, Or.inl rfl, Or.inl ⟨rfl, h1.1⟩, ?_⟩
        rcases h1.2 with h | h
        · cases p with
          | nil => exact Or.inl rfl
          | cons b p => right; simpa [deref] using h
        · exact Or.inl h
      · simp only [h1, if_false]
        by_cases h2 : deref p = dot ∧ (prev = none ∨ prev = some slash) ∧
            (deref (p.drop 1) = slash ∨ p.drop 1 = [])
        · rw [if_pos h2]
          simp only [true_iff]
          cases p with
          | nil => exact absurd h2.1 (by decide)
          | cons b p =>
            have hb : b = dot := by simpa [deref] using h2.1
            subst hb
            refine ⟨[], [dot, dot], p, rfl, Or.inr rfl, Or.inl ⟨rfl, h2.2.1⟩, ?_⟩
            rcases h2.2.2 with h | h
            · cases p with
              | nil => exact Or.inl rfl
              | cons b p => right; simpa [deref] using h
            · exact Or.inl (by simpa using h)
        · rw [if_neg h2, ih]
          constructor
          · exact step
          · intro h
            rcases back h with ⟨c, post, e, hc, hprev, hpost⟩ | h
            · exfalso
              rcases hc with hc | hc
              · subst hc
                simp at e
                subst e
                apply h1
                refine ⟨hprev, ?_⟩
                rcases hpost with h | h
                · exact Or.inr h
                · left; cases p with
                  | nil => simp at h
                  | cons b p => simpa [deref] using h
              · subst hc
                simp at e
                subst e
                apply h2
                refine ⟨rfl, hprev, ?_⟩
                rcases hpost with h | h
                · right; simpa using h
                · left; cases post with
                  | nil => simp at h
                  | cons b p => simpa [deref] using h
            · exact h
    · simp only [ne_eq, ha, not_false_eq_true, if_true, ih]
      constructor
      · exact step
      · intro h
        rcases back h with ⟨c, post, e, hc, _⟩ | h
        · exfalso
          rcases hc with hc | hc <;> subst hc <;> simp at e <;> exact ha e.1
        · exact h

end Verif.PathCmp
