import Verif.Model.FindLogic
import Verif.Spec.FindLogic

/-!
# Lemmas for the splitting of logic expressions into words
-/

namespace Verif.Logic
open Verif Verif.FindLogic

/-- The byte before, after a text has been passed. -/
def lastPrev (p : Option Byte) : Str → Option Byte
  | [] => p
  | c :: cs => lastPrev (some c) cs

theorem lastPrev_eq (p : Option Byte) (w : Str) (h : w ≠ []) : lastPrev p w = w.getLast? := by
  induction w generalizing p with
  | nil => exact absurd rfl h
  | cons c cs ih =>
    cases cs with
    | nil => rfl
    | cons d ds => rw [lastPrev, ih (some c) (by simp)]; simp

/-- What a step through a solid word leaves. -/
theorem solid_step {q p : Option Byte} {c : Byte} {cs : Str} (h : solidFrom q p (c :: cs) = true)
    (h1 : ¬ (q = none ∧ (c = 39 ∨ c = 34))) (h2 : ¬ q = some c) :
    solidFrom q (some c) cs = true ∧ (q = none ∧ (c = space ∨ c = 40 ∨ c = 41) → p = some 92) := by
  rw [solidFrom, if_neg h1, if_neg h2] at h
  by_cases h3 : q = none ∧ (c = space ∨ c = 40 ∨ c = 41)
  · rw [if_pos h3] at h
    simp only [Bool.decide_and, Bool.and_eq_true, decide_eq_true_eq] at h
    exact ⟨by simpa using h.2, fun _ => h.1⟩
  · rw [if_neg h3] at h
    exact ⟨h, fun h' => absurd h' h3⟩

theorem solid_nil {q p : Option Byte} (h : solidFrom q p [] = true) :
    q = none ∧ p ≠ some 92 ∧ p ≠ some space := by simpa [solidFrom] using h

theorem solid_last (w : Str) : ∀ q p, solidFrom q p w = true →
    lastPrev p w ≠ some 92 ∧ lastPrev p w ≠ some space := by
  induction w with
  | nil => intro q p h; exact (solid_nil h).2
  | cons c cs ih =>
    intro q p h
    rw [lastPrev]
    by_cases h1 : q = none ∧ (c = 39 ∨ c = 34)
    · rw [solidFrom, if_pos h1] at h; exact ih _ _ h
    · by_cases h2 : q = some c
      · rw [solidFrom, if_neg h1, if_pos h2] at h
        split at h <;> exact ih _ _ h
      · exact ih _ _ (solid_step h h1 h2).1

theorem solid_prev {p : Option Byte} {w : Str} (hw : w ≠ []) (_hp : p ≠ some 92)
    (h : solidFrom none none w = true) : solidFrom none p w = true := by
  cases w with
  | nil => exact absurd rfl hw
  | cons c cs =>
    by_cases h1 : (none : Option Byte) = none ∧ (c = 39 ∨ c = 34)
    · rw [solidFrom, if_pos h1] at h ⊢; exact h
    · obtain ⟨h3, h4⟩ := solid_step h h1 (by simp)
      rw [solidFrom, if_neg h1, if_neg (by simp), if_neg]
      · exact h3
      · intro h5; have := h4 h5; cases this

theorem solid_head {w : Str} (h : Solid w) : w.head? ≠ some space := by
  obtain ⟨hne, h⟩ := h
  cases w with
  | nil => exact absurd rfl hne
  | cons c cs =>
    intro hc
    simp only [List.head?_cons, Option.some.injEq] at hc
    subst hc
    obtain ⟨_, h4⟩ := solid_step h (by decide) (by simp)
    have := h4 ⟨rfl, Or.inl rfl⟩
    cases this

/-! ### Passing over a word -/

theorem replace_solid (s : Byte) (hs : s = 40 ∨ s = 41) (r t w : Str) : ∀ q p, solidFrom q p w = true →
    replaceLoop s r q p (w ++ t) = w ++ replaceLoop s r none (lastPrev p w) t := by
  induction w with
  | nil => intro q p h; obtain ⟨h1, _⟩ := solid_nil h; subst h1; rfl
  | cons c cs ih =>
    intro q p h
    rw [List.cons_append, replaceLoop, lastPrev]
    by_cases h1 : q = none ∧ (c = 39 ∨ c = 34)
    · rw [solidFrom, if_pos h1] at h
      rw [if_pos h1, ih _ _ h, List.cons_append]
    · rw [if_neg h1]
      by_cases h2 : q = some c
      · rw [solidFrom, if_neg h1, if_pos h2] at h
        rw [if_pos h2]
        by_cases h3 : p = some 92
        · rw [if_pos h3] at h; rw [if_pos h3, ih _ _ h, List.cons_append]
        · rw [if_neg h3] at h; rw [if_neg h3, ih _ _ h, List.cons_append]
      · obtain ⟨h3, h4⟩ := solid_step h h1 h2
        rw [if_neg h2]
        by_cases h5 : q = none ∧ c = s
        · have : p = some 92 := h4 ⟨h5.1, Or.inr (by rcases hs with e | e <;> simp [h5.2, e])⟩
          rw [if_pos h5, if_pos this, ih _ _ h3, List.cons_append]
        · rw [if_neg h5, ih _ _ h3, List.cons_append]

theorem count_solid (s : Byte) (hs : s = 40 ∨ s = 41 ∨ s = space) (rep : Bool) (t w : Str) :
    ∀ q p, solidFrom q p w = true →
    charcount s rep q p (w ++ t) = charcount s rep none (lastPrev p w) t := by
  induction w with
  | nil => intro q p h; obtain ⟨h1, _⟩ := solid_nil h; subst h1; rfl
  | cons c cs ih =>
    intro q p h
    rw [List.cons_append, charcount, lastPrev]
    by_cases h1 : q = none ∧ (c = 39 ∨ c = 34)
    · rw [solidFrom, if_pos h1] at h
      rw [if_pos h1, ih _ _ h]
    · rw [if_neg h1]
      by_cases h2 : q = some c
      · rw [solidFrom, if_neg h1, if_pos h2] at h
        rw [if_pos h2]
        by_cases h3 : p = some 92
        · rw [if_pos h3] at h; rw [if_pos h3, ih _ _ h]
        · rw [if_neg h3] at h; rw [if_neg h3, ih _ _ h]
      · obtain ⟨h3, h4⟩ := solid_step h h1 h2
        rw [if_neg h2]
        by_cases h5 : q = none ∧ c = s
        · have : p = some 92 := h4 ⟨h5.1, by rcases hs with e | e | e <;> simp [h5.2, e]⟩
          rw [if_pos h5, if_pos this, ih _ _ h3]
        · rw [if_neg h5, ih _ _ h3]

theorem split_solid (ptr t w : Str) : ∀ q p s, solidFrom q p w = true →
    splitLoop space ptr q p s (w ++ t) =
      splitLoop space ptr none (lastPrev p w) { s with j := s.j + w.length } t := by
  induction w with
  | nil => intro q p s h; obtain ⟨h1, _⟩ := solid_nil h; subst h1; rfl
  | cons c cs ih =>
    intro q p s h
    have hj : ∀ s : Split, ({ s with j := s.j + (c :: cs).length } : Split) =
        { ({ s with j := s.j + 1 } : Split) with j := s.j + 1 + cs.length } := by
      intro s; simp only [List.length_cons]; congr 1; omega
    rw [List.cons_append, splitLoop, lastPrev, hj]
    by_cases h1 : q = none ∧ (c = 39 ∨ c = 34)
    · rw [solidFrom, if_pos h1] at h
      rw [if_pos h1, ih _ _ _ h]
    · rw [if_neg h1]
      by_cases h2 : q = some c
      · rw [solidFrom, if_neg h1, if_pos h2] at h
        rw [if_pos h2]
        by_cases h3 : p = some 92
        · rw [if_pos h3] at h; rw [if_pos h3, ih _ _ _ h]
        · rw [if_neg h3] at h; rw [if_neg h3, ih _ _ _ h]
      · obtain ⟨h3, h4⟩ := solid_step h h1 h2
        rw [if_neg h2]
        by_cases h5 : q = none ∧ c = space
        · have : p = some 92 := h4 ⟨h5.1, Or.inl h5.2⟩
          rw [if_pos h5, if_pos this, ih _ _ _ h3]
        · rw [if_neg h5, ih _ _ _ h3]

/-- A word or a parenthesis. -/
def Word (w : Str) : Prop := Solid w ∨ IsParen w

theorem Word.ne {w : Str} (h : Word w) : w ≠ [] := by
  rcases h with h | h | h
  · exact h.1
  · rw [h]; decide
  · rw [h]; decide

theorem Word.head {w : Str} (h : Word w) : w.head? ≠ some space := by
  rcases h with h | h | h
  · exact solid_head h
  · rw [h]; decide
  · rw [h]; decide

theorem Word.last {w : Str} (h : Word w) : w.getLast? ≠ some 92 ∧ w.getLast? ≠ some space := by
  rcases h with h | h | h
  · have := solid_last w none none h.2
    rwa [lastPrev_eq none w h.1] at this
  · rw [h]; decide
  · rw [h]; decide

/-- A parenthesis that is not looked for is passed over. -/
theorem replace_word {s : Byte} (hs : s = 40 ∨ s = 41) {w : Str} (h : Word w) (hne : w ≠ [s]) (r t : Str)
    {p : Option Byte} (hp : p ≠ some 92) :
    replaceLoop s r none p (w ++ t) = w ++ replaceLoop s r none w.getLast? t := by
  rcases h with h | h
  · rw [replace_solid s hs r t w _ _ (solid_prev h.1 hp h.2), lastPrev_eq _ _ h.1]
  · rcases hs with e | e
    · subst e
      have : w = [41] := by
        rcases h with h | h
        · exact absurd (h.trans (by decide)) hne
        · rw [h]; decide
      subst this
      simp [replaceLoop, squote, dquote]
    · subst e
      have : w = [40] := by
        rcases h with h | h
        · rw [h]; decide
        · exact absurd (h.trans (by decide)) hne
      subst this
      simp [replaceLoop, squote, dquote]

theorem count_word {s : Byte} (hs : s = 40 ∨ s = 41 ∨ s = space) {w : Str} (h : Word w) (hne : w ≠ [s])
    (rep : Bool) (t : Str) {p : Option Byte} (hp : p ≠ some 92) :
    charcount s rep none p (w ++ t) = charcount s rep none w.getLast? t := by
  rcases h with h | h
  · rw [count_solid s hs rep t w _ _ (solid_prev h.1 hp h.2), lastPrev_eq _ _ h.1]
  · obtain ⟨c, hc, rfl⟩ : ∃ c, (c = 40 ∨ c = 41) ∧ w = [c] := by
      rcases h with h | h
      · exact ⟨40, Or.inl rfl, by rw [h]; decide⟩
      · exact ⟨41, Or.inr rfl, by rw [h]; decide⟩
    have hcs : c ≠ s := fun e => hne (by rw [e])
    have hq : ¬ (c = squote ∨ c = dquote) := by rcases hc with e | e <;> subst e <;> decide
    simp only [List.singleton_append, charcount, true_and, hq, if_false, reduceCtorEq, hcs,
      List.getLast?_singleton]

theorem split_word {w : Str} (h : Word w) (ptr t : Str) (s : Split) {p : Option Byte} (hp : p ≠ some 92) :
    splitLoop space ptr none p s (w ++ t) =
      splitLoop space ptr none w.getLast? { s with j := s.j + w.length } t := by
  rcases h with h | h
  · rw [split_solid ptr t w _ _ _ (solid_prev h.1 hp h.2), lastPrev_eq _ _ h.1]
  · obtain ⟨c, hc, rfl⟩ : ∃ c, (c = 40 ∨ c = 41) ∧ w = [c] := by
      rcases h with h | h
      · exact ⟨40, Or.inl rfl, by rw [h]; decide⟩
      · exact ⟨41, Or.inr rfl, by rw [h]; decide⟩
    have hcs : c ≠ space := by rcases hc with e | e <;> subst e <;> decide
    have hq : ¬ (c = squote ∨ c = dquote) := by rcases hc with e | e <;> subst e <;> decide
    simp only [List.singleton_append, splitLoop, true_and, hq, if_false, reduceCtorEq, hcs,
      List.getLast?_singleton, List.length_singleton]

/-! ### Blanks -/

theorem replace_blanks {s : Byte} (hs : s = 40 ∨ s = 41) (r t : Str) (n : Nat) {p : Option Byte}
    (hp : p ≠ some 92) : ∃ p', p' ≠ some 92 ∧
    replaceLoop s r none p (List.replicate n space ++ t) =
      List.replicate n space ++ replaceLoop s r none p' t := by
  induction n generalizing p with
  | zero => exact ⟨p, hp, by simp⟩
  | succ n ih =>
    obtain ⟨p', h1, h2⟩ := ih (p := some space) (by decide)
    refine ⟨p', h1, ?_⟩
    have hs' : ¬ space = s := by rcases hs with e | e <;> subst e <;> decide
    have hq : ¬ (space = squote ∨ space = dquote) := by decide
    rw [List.replicate_succ, List.cons_append, replaceLoop, if_neg (fun h => hq h.2), if_neg (by simp),
      if_neg (fun h => hs' h.2), h2, List.cons_append]

theorem count_blanks {s : Byte} (hs : s = 40 ∨ s = 41) (rep : Bool) (t : Str) (n : Nat) {p : Option Byte}
    (hp : p ≠ some 92) : ∃ p', p' ≠ some 92 ∧
    charcount s rep none p (List.replicate n space ++ t) = charcount s rep none p' t := by
  induction n generalizing p with
  | zero => exact ⟨p, hp, by simp⟩
  | succ n ih =>
    obtain ⟨p', h1, h2⟩ := ih (p := some space) (by decide)
    refine ⟨p', h1, ?_⟩
    have hs' : ¬ space = s := by rcases hs with e | e <;> subst e <;> decide
    have hq : ¬ (space = squote ∨ space = dquote) := by decide
    rw [List.replicate_succ, List.cons_append, charcount, if_neg (fun h => hq h.2), if_neg (by simp),
      if_neg (fun h => hs' h.2), h2]

/-! ### Replacing parentheses -/

theorem layout_cons (n : Nat) (w : Str) (l : List (Nat × Str)) (m : Nat) :
    layout ((n, w) :: l) m = List.replicate n space ++ (w ++ layout l m) := by
  simp [layout]

/-- Blanks around the word `s`; `extra` are those from the word before. -/
def widen (s : Byte) (extra : Nat) : List (Nat × Str) → Nat → List (Nat × Str) × Nat
  | [], m => ([], m + extra)
  | (n, w) :: l, m =>
    if w = [s] then ((n + extra + 1, w) :: (widen s 1 l m).1, (widen s 1 l m).2)
    else ((n + extra, w) :: (widen s 0 l m).1, (widen s 0 l m).2)

theorem replace_layout {s : Byte} (hs : s = 40 ∨ s = 41) (l : List (Nat × Str)) (m : Nat)
    (hw : ∀ p ∈ l, Word p.2) : ∀ (extra : Nat) (p : Option Byte), p ≠ some 92 →
    List.replicate extra space ++ replaceLoop s [space, s, space] none p (layout l m) =
      layout (widen s extra l m).1 (widen s extra l m).2 := by
  induction l with
  | nil =>
    intro extra p hp
    obtain ⟨p', _, h2⟩ := replace_blanks hs [space, s, space] [] m hp
    simp only [List.append_nil, replaceLoop] at h2
    simp only [layout, List.flatMap_nil, List.nil_append, widen, h2]
    rw [List.replicate_append_replicate, Nat.add_comm]
  | cons q l ih =>
    obtain ⟨n, w⟩ := q
    intro extra p hp
    obtain ⟨p', h1, h2⟩ := replace_blanks hs [space, s, space] (w ++ layout l m) n hp
    rw [layout_cons, h2, widen]
    have hw' : ∀ p ∈ l, Word p.2 := fun x hx => hw x (List.mem_cons_of_mem _ hx)
    by_cases hws : w = [s]
    · rw [if_pos hws]
      simp only [layout_cons]
      rw [← ih hw' 1 (some s) (by rcases hs with e | e <;> subst e <;> decide)]
      have hq : ¬ (s = squote ∨ s = dquote) := by rcases hs with e | e <;> subst e <;> decide
      have hstep : replaceLoop s [space, s, space] none p' ([s] ++ layout l m) =
          [space, s, space] ++ replaceLoop s [space, s, space] none (some s) (layout l m) := by
        rw [List.singleton_append, replaceLoop, if_neg (fun h => hq h.2), if_neg (by simp), if_pos ⟨rfl, rfl⟩,
          if_neg h1]
      rw [hws, hstep, show n + extra + 1 = extra + (n + 1) by omega, ← List.replicate_append_replicate,
        List.replicate_succ' (n := n)]
      simp [List.replicate_one]
    · rw [if_neg hws]
      simp only [layout_cons]
      have hword := hw (n, w) (by simp)
      rw [replace_word hs hword hws _ _ h1]
      have := ih hw' 0 w.getLast? hword.last.1
      simp only [List.replicate_zero, List.nil_append] at this
      rw [this, Nat.add_comm n extra, ← List.replicate_append_replicate, List.append_assoc]

theorem count_layout {s : Byte} (hs : s = 40 ∨ s = 41) (l : List (Nat × Str)) (m : Nat)
    (hw : ∀ p ∈ l, Word p.2) : ∀ p : Option Byte, p ≠ some 92 →
    charcount s true none p (layout l m) = (l.filter (fun q => q.2 = [s])).length := by
  induction l with
  | nil =>
    intro p hp
    obtain ⟨p', _, h2⟩ := count_blanks hs true [] m hp
    simp only [List.append_nil, charcount] at h2
    simp [layout, h2]
  | cons q l ih =>
    obtain ⟨n, w⟩ := q
    intro p hp
    obtain ⟨p', h1, h2⟩ := count_blanks hs true (w ++ layout l m) n hp
    rw [layout_cons, h2]
    have hw' : ∀ p ∈ l, Word p.2 := fun x hx => hw x (List.mem_cons_of_mem _ hx)
    by_cases hws : w = [s]
    · have hq : ¬ (s = squote ∨ s = dquote) := by rcases hs with e | e <;> subst e <;> decide
      rw [hws, List.singleton_append, charcount, if_neg (fun h => hq h.2), if_neg (by simp), if_pos ⟨rfl, rfl⟩,
        if_neg h1, if_pos (Or.inl rfl), ih hw' (some s) (by rcases hs with e | e <;> subst e <;> decide)]
      simp
    · have hword := hw (n, w) (by simp)
      have hs3 : s = 40 ∨ s = 41 ∨ s = space := by rcases hs with e | e <;> simp [e]
      rw [count_word hs3 hword hws true _ h1, ih hw' _ hword.last.1]
      simp [hws]

theorem replace_zero (s : Byte) (r t : Str) : ∀ q p, charcount s true q p t = 0 → replaceLoop s r q p t = t := by
  induction t with
  | nil => intro q p _; rfl
  | cons c cs ih =>
    intro q p h
    rw [charcount] at h
    rw [replaceLoop]
    by_cases h1 : q = none ∧ (c = squote ∨ c = dquote)
    · rw [if_pos h1] at h ⊢; rw [ih _ _ h]
    · rw [if_neg h1] at h ⊢
      by_cases h2 : q = some c
      · rw [if_pos h2] at h ⊢
        by_cases h3 : p = some backslash
        · rw [if_pos h3] at h ⊢; rw [ih _ _ h]
        · rw [if_neg h3] at h ⊢; rw [ih _ _ h]
      · rw [if_neg h2] at h ⊢
        by_cases h3 : q = none ∧ c = s
        · rw [if_pos h3] at h ⊢
          by_cases h4 : p = some backslash
          · rw [if_pos h4] at h ⊢; rw [ih _ _ h]
          · rw [if_neg h4, if_pos (Or.inl rfl)] at h; omega
        · rw [if_neg h3] at h ⊢; rw [ih _ _ h]

theorem charreplace_eq (t : Str) (s : Byte) (r : Str) :
    charreplace t s r = (replaceLoop s r none none t, charcount s true none none t) := by
  unfold charreplace
  simp only []
  split
  · rename_i h; rw [replace_zero s r t _ _ h]
  · rfl

theorem widen_words (s : Byte) (l : List (Nat × Str)) (m : Nat) : ∀ e,
    (widen s e l m).1.map Prod.snd = l.map Prod.snd := by
  induction l with
  | nil => intro e; rfl
  | cons q l ih =>
    obtain ⟨n, w⟩ := q
    intro e
    rw [widen]
    split
    · simp only [List.map_cons, ih]
    · simp only [List.map_cons, ih]

/-- There are blanks between words, except next to those in `S`. -/
def SpacedBy (S : List Str) : List (Nat × Str) → Prop
  | [] => True
  | [_] => True
  | p :: q :: l => (q.1 ≥ 1 ∨ p.2 ∈ S ∨ q.2 ∈ S) ∧ SpacedBy S (q :: l)

theorem widen_spaced (s : Byte) (S : List Str) (m : Nat) (l : List (Nat × Str)) : ∀ e,
    SpacedBy ([s] :: S) l → SpacedBy S (widen s e l m).1 := by
  induction l with
  | nil => intro e _; trivial
  | cons p l ih =>
    intro e h
    obtain ⟨n, w⟩ := p
    cases l with
    | nil => rw [widen]; split <;> simp [widen, SpacedBy]
    | cons q l =>
      obtain ⟨n', w'⟩ := q
      obtain ⟨h1, h2⟩ := h
      have key : ∀ e', (1 ≤ e' ∨ ¬ w = [s]) → SpacedBy S (widen s e' ((n', w') :: l) m).1 →
          ∀ k, SpacedBy S ((k, w) :: (widen s e' ((n', w') :: l) m).1) := by
        intro e' he' hs k
        rw [widen] at hs ⊢
        by_cases hw' : w' = [s]
        · rw [if_pos hw'] at hs ⊢
          exact ⟨Or.inl (by simp), hs⟩
        · rw [if_neg hw'] at hs ⊢
          refine ⟨?_, hs⟩
          simp only [List.mem_cons] at h1
          rcases h1 with h | (h | h) | (h | h)
          · exact Or.inl (by simp only; omega)
          · rcases he' with he' | he'
            · exact Or.inl (by simp only; omega)
            · exact absurd h he'
          · exact Or.inr (Or.inl h)
          · exact absurd h hw'
          · exact Or.inr (Or.inr h)
      rw [widen]
      split
      · exact key 1 (Or.inl (Nat.le_refl 1)) (ih 1 h2) _
      · rename_i hw
        exact key 0 (Or.inr hw) (ih 0 h2) _

theorem spacedBy_of (l : List (Nat × Str)) (h : Spaced l) : SpacedBy [[40], [41]] l := by
  induction l with
  | nil => trivial
  | cons p l ih =>
    cases l with
    | nil => trivial
    | cons q l =>
      have e1 : bytes "(" = [40] := by decide
      have e2 : bytes ")" = [41] := by decide
      refine ⟨?_, ih h.2⟩
      rcases h.1 with h | h | h
      · exact Or.inl h
      · refine Or.inr (Or.inl ?_)
        rcases h with h | h <;> simp [h, e1, e2]
      · refine Or.inr (Or.inr ?_)
        rcases h with h | h <;> simp [h, e1, e2]

theorem spacedBy_nil (p : Nat × Str) (l : List (Nat × Str)) (h : SpacedBy [] (p :: l)) : ∀ q ∈ l, 1 ≤ q.1 := by
  induction l generalizing p with
  | nil => intro q hq; cases hq
  | cons q l ih =>
    intro r hr
    obtain ⟨h1, h2⟩ := h
    rcases List.mem_cons.1 hr with e | hr
    · subst e
      rcases h1 with h | h | h
      · exact h
      · cases h
      · cases h
    · exact ih q h2 r hr

/-! ### Stripping and splitting -/

theorem layout_last (w : Str) (l : List (Nat × Str)) (hw : Word w) (hl : ∀ p ∈ l, Word p.2) :
    (w ++ layout l 0).getLast? ≠ some space := by
  induction l generalizing w with
  | nil => simpa [layout] using hw.last.2
  | cons q l ih =>
    obtain ⟨n, v⟩ := q
    have hv := hl (n, v) (by simp)
    have := ih v hv (fun p hp => hl p (List.mem_cons_of_mem _ hp))
    rw [layout_cons, ← List.append_assoc, List.getLast?_append]
    have hne : (v ++ layout l 0).getLast? ≠ none := by
      intro h
      rw [List.getLast?_eq_none_iff] at h
      exact hv.ne (List.append_eq_nil_iff.1 h).1
    cases h : (v ++ layout l 0).getLast? with
    | none => exact absurd h hne
    | some x => rw [h] at this; simpa using this

theorem dropWhile_blanks (n : Nat) (t : Str) (h : t.head? ≠ some space) :
    (List.replicate n space ++ t).dropWhile (· = space) = t := by
  induction n with
  | zero =>
    cases t with
    | nil => rfl
    | cons c cs =>
      have : c ≠ space := fun e => h (by rw [e]; rfl)
      simp [this]
  | succ n ih => rw [List.replicate_succ, List.cons_append, List.dropWhile_cons]; simpa using ih

theorem strip_layout (n : Nat) (w : Str) (l : List (Nat × Str)) (m : Nat) (hw : Word w)
    (hl : ∀ p ∈ l, Word p.2) : stripWhitespace (layout ((n, w) :: l) m) = some (w ++ layout l 0) := by
  obtain ⟨body, hb⟩ : ∃ body, body = w ++ layout l 0 := ⟨_, rfl⟩
  have h1 : body.head? ≠ some space := by
    rw [hb]
    have := hw.head
    cases w with
    | nil => exact absurd rfl hw.ne
    | cons c cs => simpa using this
  have h2 : body.getLast? ≠ some space := hb ▸ layout_last w l hw hl
  have hne : body ≠ [] := by
    rw [hb]; intro h; exact hw.ne (List.append_eq_nil_iff.1 h).1
  have hlay : layout ((n, w) :: l) m = List.replicate n space ++ (body ++ List.replicate m space) := by
    rw [layout_cons, hb]; simp [layout]
  rw [hlay, ← hb]
  have hall : (List.replicate n space ++ (body ++ List.replicate m space)).all (· = space) = false := by
    cases body with
    | nil => exact absurd rfl hne
    | cons c cs =>
      have : c ≠ space := fun e => h1 (by rw [e]; rfl)
      simp [this]
  unfold stripWhitespace
  rw [hall]
  simp only [Bool.false_eq_true, if_false]
  have hd : (List.replicate n space ++ (body ++ List.replicate m space)).dropWhile (· = space) =
      body ++ List.replicate m space := dropWhile_blanks n _ (by
        cases body with
        | nil => exact absurd rfl hne
        | cons c cs => simpa using h1)
  have hr : ((body ++ List.replicate m space).reverse.dropWhile (· = space)).reverse = body := by
    rw [List.reverse_append, List.reverse_replicate, dropWhile_blanks m _ (by rw [List.head?_reverse]; exact h2),
      List.reverse_reverse]
  split
  · rename_i hc
    have hn : n = 0 := by
      cases n with
      | zero => rfl
      | succ n => exact absurd rfl hc.1
    have hm : m = 0 := by
      cases m with
      | zero => rfl
      | succ m =>
        exfalso; apply hc.2
        rw [List.replicate_succ']; simp
    subst hn; subst hm; simp
  · rw [hd, hr]

theorem count_gaps (l : List (Nat × Str)) (hl : ∀ p ∈ l, Word p.2) (hg : ∀ q ∈ l, 1 ≤ q.1) :
    ∀ p : Option Byte, p ≠ some 92 → p ≠ some space → charcount space false none p (layout l 0) = l.length := by
  induction l with
  | nil => intro p _ _; simp [layout, charcount]
  | cons q l ih =>
    obtain ⟨n, w⟩ := q
    intro p hp hp'
    have hw := hl (n, w) (by simp)
    have hn := hg (n, w) (by simp)
    obtain ⟨k, hk⟩ : ∃ k, n = k + 1 := ⟨n - 1, by simp only at hn; omega⟩
    have hq : ¬ (space = squote ∨ space = dquote) := by decide
    have blanks : ∀ k, charcount space false none (some space) (List.replicate k space ++ (w ++ layout l 0)) =
        charcount space false none (some space) (w ++ layout l 0) := by
      intro k
      induction k with
      | zero => simp
      | succ k ih2 =>
        rw [List.replicate_succ, List.cons_append, charcount, if_neg (fun h => hq h.2), if_neg (by simp),
          if_pos ⟨rfl, rfl⟩, if_neg (by decide), if_neg (by simp), ih2]
    rw [layout_cons, hk, List.replicate_succ, List.cons_append, charcount, if_neg (fun h => hq h.2),
      if_neg (by simp), if_pos ⟨rfl, rfl⟩, if_neg hp, if_pos (Or.inr hp'), blanks,
      count_word (Or.inr (Or.inr rfl)) hw (fun e => hw.last.2 (by rw [e]; rfl)) false _ (by decide),
      ih (fun p hp => hl p (List.mem_cons_of_mem _ hp)) (fun p hp => hg p (List.mem_cons_of_mem _ hp))
        _ hw.last.1 hw.last.2]
    simp

theorem split_blanks (ptr t : Str) (n : Nat) (s : Split) {p : Option Byte} (hp : p ≠ some 92)
    (hp' : p ≠ some space) (hn : 1 ≤ n) :
    splitLoop space ptr none p s (List.replicate n space ++ t) =
      splitLoop space ptr none (some space) { s.cut ptr false with buf := (s.cut ptr false).buf + (n - 1) } t := by
  obtain ⟨k, hk⟩ : ∃ k, n = k + 1 := ⟨n - 1, by omega⟩
  have hq : ¬ (space = squote ∨ space = dquote) := by decide
  have blanks : ∀ k s, splitLoop space ptr none (some space) s (List.replicate k space ++ t) =
      splitLoop space ptr none (some space) { s with buf := s.buf + k } t := by
    intro k
    induction k with
    | zero => intro s; rfl
    | succ k ih2 =>
      intro s
      rw [List.replicate_succ, List.cons_append, splitLoop, if_neg (fun h => hq h.2), if_neg (by simp),
        if_pos ⟨rfl, rfl⟩, if_neg (by decide), ih2]
      simp only [beq_self_eq_true, Split.cut, if_true]
      congr 2
      omega
  have hb : (p == some space) = false := by simpa using hp'
  subst hk
  rw [List.replicate_succ, List.cons_append, splitLoop, if_neg (fun h => hq h.2), if_neg (by simp),
    if_pos ⟨rfl, rfl⟩, if_neg hp, hb, blanks]
  rfl

/-- The last part of `charsplit`. -/
def splitEnd (ptr : Str) (s : Split) : List Str :=
  let prev := if s.buf = 0 then none else (ptr.drop (s.buf - 1)).head?
  s.toks ++ [(skipDelimiters space prev (ptr.drop s.buf)).take s.j]

theorem skip_word {w : Str} (hw : Word w) (p : Option Byte) (t : Str) :
    skipDelimiters space p (w ++ t) = w ++ t := by
  cases w with
  | nil => exact absurd rfl hw.ne
  | cons c cs =>
    have : c ≠ space := fun e => hw.head (by rw [e]; rfl)
    rw [List.cons_append, skipDelimiters, if_neg (fun h => this h.1)]

/-- From within the text: `T` are the words so far, `A` is what is before the word `w`, which has just been
passed. -/
theorem split_rest (l : List (Nat × Str)) (hl : ∀ p ∈ l, Word p.2) (hg : ∀ q ∈ l, 1 ≤ q.1) :
    ∀ (ptr A w : Str) (T : List Str), Word w → ptr = A ++ (w ++ layout l 0) →
      (T = [] → A = []) → (T ≠ [] → ∃ B, A = B ++ [space] ∧ B ≠ [] ∧ B.getLast? ≠ some 92) →
      splitEnd ptr (splitLoop space ptr none w.getLast?
        ⟨if T.length > 0 then A.length - 1 else A.length, w.length, T⟩ (layout l 0)) = T ++ w :: l.map Prod.snd := by
  induction l with
  | nil =>
    intro ptr A w T hw hptr hT1 hT2
    have h0 : layout [] 0 = [] := rfl
    rw [h0] at hptr ⊢
    rw [splitLoop]
    unfold splitEnd
    simp only [List.map_nil]
    by_cases hT : T = []
    · have hA := hT1 hT
      subst hT; subst hA
      simp only [List.length_nil, Nat.lt_irrefl, if_false, if_true, List.drop_zero, List.nil_append] at hptr ⊢
      rw [hptr, skip_word hw]; simp
    · obtain ⟨B, hA, hB1, hB2⟩ := hT2 hT
      have hTl : T.length > 0 := List.length_pos_iff.2 hT
      have hBl : B.length > 0 := List.length_pos_iff.2 hB1
      simp only [hTl, if_true]
      have hbuf : A.length - 1 = B.length := by rw [hA]; simp
      rw [hbuf, if_neg (by omega)]
      have hd : ptr.drop B.length = space :: (w ++ []) := by rw [hptr, hA]; simp
      have hpv : (ptr.drop (B.length - 1)).head? = B.getLast? := by
        rw [hptr, hA, List.head?_drop, List.append_assoc, List.getElem?_append_left (by omega),
          List.getLast?_eq_getElem?]
      rw [hd, hpv, skipDelimiters, if_pos ⟨rfl, hB2⟩, skip_word hw]
      simp
  | cons q l ih =>
    obtain ⟨n, v⟩ := q
    intro ptr A w T hw hptr hT1 hT2
    have hv := hl (n, v) (by simp)
    have hn : 1 ≤ n := hg (n, v) (by simp)
    rw [layout_cons, split_blanks _ _ _ _ hw.last.1 hw.last.2 hn, split_word hv _ _ _ (by decide)]
    have hdrop : (ptr.drop A.length).take w.length = w := by rw [hptr]; simp
    have hstart : (if T.length > 0 then (if T.length > 0 then A.length - 1 else A.length) + 1
        else (if T.length > 0 then A.length - 1 else A.length)) = A.length := by
      by_cases hT : T = []
      · simp [hT]
      · obtain ⟨B, hA, _⟩ := hT2 hT
        have hTl : T.length > 0 := List.length_pos_iff.2 hT
        simp only [hTl, if_true, hA, List.length_append, List.length_singleton]; omega
    have hcut : (Split.cut ⟨if T.length > 0 then A.length - 1 else A.length, w.length, T⟩ ptr false) =
        ⟨A.length + w.length, 0, T ++ [w]⟩ := by
      simp only [Split.cut, Bool.false_eq_true, if_false, hstart, hdrop]
    rw [hcut]
    obtain ⟨k, hk⟩ : ∃ k, n = k + 1 := ⟨n - 1, by omega⟩
    have := ih (fun p hp => hl p (List.mem_cons_of_mem _ hp)) (fun p hp => hg p (List.mem_cons_of_mem _ hp))
      ptr (A ++ w ++ List.replicate n space) v (T ++ [w]) hv
      (by rw [hptr, layout_cons]; simp) (by simp) (fun _ => ⟨A ++ w ++ List.replicate k space,
        by rw [hk, List.replicate_succ']; simp, by
          intro h
          rw [List.append_eq_nil_iff, List.append_eq_nil_iff] at h
          exact hw.ne h.1.2, by
          cases k with
          | zero =>
            simp only [List.replicate_zero, List.append_nil, List.getLast?_append]
            have hl1 := hw.last.1
            cases h : w.getLast? with
            | none => exact absurd (List.getLast?_eq_none_iff.1 h) hw.ne
            | some x => rw [h] at hl1; simpa using hl1
          | succ k => rw [List.replicate_succ']; simp [space]⟩)
    simp only [List.length_append, List.length_singleton, List.length_replicate, gt_iff_lt,
      Nat.zero_lt_succ, if_true] at this
    simp only [Nat.zero_add]
    rw [show A.length + w.length + (n - 1) = A.length + w.length + n - 1 by omega]
    rw [this]
    simp

/-- Splitting gives the words. -/
theorem charsplit_layout (n : Nat) (w : Str) (l : List (Nat × Str)) (m : Nat) (hw : Word w)
    (hl : ∀ p ∈ l, Word p.2) (hg : ∀ q ∈ l, 1 ≤ q.1) :
    charsplit (layout ((n, w) :: l) m) space = if l = [] then .null else .list (w :: l.map Prod.snd) := by
  unfold charsplit
  rw [strip_layout n w l m hw hl]
  simp only []
  have hc : charcount space false none none (w ++ layout l 0) = l.length := by
    rw [count_word (Or.inr (Or.inr rfl)) hw (fun e => hw.last.2 (by rw [e]; rfl)) false _ (by simp),
      count_gaps l hl hg _ hw.last.1 hw.last.2]
  rw [hc]
  by_cases h : l = []
  · subst h; simp
  · have hpos : ¬ l.length = 0 := fun e => h (List.length_eq_zero_iff.1 e)
    rw [if_neg hpos, if_neg h]
    have := split_rest l hl hg (w ++ layout l 0) [] w [] hw rfl (fun _ => rfl) (fun h => absurd rfl h)
    simp only [List.length_nil, gt_iff_lt, Nat.lt_irrefl, if_false, List.nil_append] at this
    rw [split_word hw _ _ _ (by simp)]
    simp only [Nat.zero_add]
    unfold splitEnd at this
    rw [this]

/-- The words of a text, however it is laid out. -/
theorem createTokenList_layout (l : List (Nat × Str)) (m : Nat) (hw : ∀ p ∈ l, Word p.2) (hs : Spaced l)
    (h2 : 2 ≤ l.length) : createTokenList (layout l m) =
      (.list (l.map Prod.snd), (l.filter (fun q => q.2 = [lparen])).length == (l.filter (fun q => q.2 = [rparen])).length) := by
  have e1 := replace_layout (s := 40) (Or.inl rfl) l m hw 0 none (by simp)
  simp only [List.replicate_zero, List.nil_append] at e1
  obtain ⟨l1, hl1⟩ : ∃ l1, l1 = (widen 40 0 l m).1 := ⟨_, rfl⟩
  obtain ⟨m1, hm1⟩ : ∃ m1, m1 = (widen 40 0 l m).2 := ⟨_, rfl⟩
  rw [← hl1, ← hm1] at e1
  have w1 : l1.map Prod.snd = l.map Prod.snd := hl1 ▸ widen_words 40 l m 0
  have hw1 : ∀ p ∈ l1, Word p.2 := by
    intro p hp
    have : p.2 ∈ l.map Prod.snd := w1 ▸ List.mem_map_of_mem hp
    obtain ⟨q, hq, e⟩ := List.mem_map.1 this
    rw [← e]; exact hw q hq
  have s1 : SpacedBy [[41]] l1 := hl1 ▸ widen_spaced 40 [[41]] m l 0 (spacedBy_of l hs)
  have e2 := replace_layout (s := 41) (Or.inr rfl) l1 m1 hw1 0 none (by simp)
  simp only [List.replicate_zero, List.nil_append] at e2
  obtain ⟨l2, hl2⟩ : ∃ l2, l2 = (widen 41 0 l1 m1).1 := ⟨_, rfl⟩
  obtain ⟨m2, hm2⟩ : ∃ m2, m2 = (widen 41 0 l1 m1).2 := ⟨_, rfl⟩
  rw [← hl2, ← hm2] at e2
  have w2 : l2.map Prod.snd = l.map Prod.snd := (hl2 ▸ widen_words 41 l1 m1 0).trans w1
  have hw2 : ∀ p ∈ l2, Word p.2 := by
    intro p hp
    have : p.2 ∈ l.map Prod.snd := w2 ▸ List.mem_map_of_mem hp
    obtain ⟨q, hq, e⟩ := List.mem_map.1 this
    rw [← e]; exact hw q hq
  have s2 : SpacedBy [] l2 := hl2 ▸ widen_spaced 41 [] m1 l1 0 s1
  have c2 : charcount 41 true none none (layout l1 m1) = (l.filter (fun q => q.2 = [41])).length := by
    rw [count_layout (Or.inr rfl) l1 m1 hw1 none (by simp)]
    have : ∀ a b : List (Nat × Str), a.map Prod.snd = b.map Prod.snd →
        (a.filter (fun q => q.2 = [41])).length = (b.filter (fun q => q.2 = [41])).length := by
      intro a b h
      have key : ∀ c : List (Nat × Str), (c.filter (fun q => q.2 = [41])).length =
          ((c.map Prod.snd).filter (fun q => q = [41])).length := by
        intro c; rw [List.filter_map]; simp [Function.comp_def]
      rw [key, key, h]
    exact this _ _ w1
  have c1 := count_layout (s := 40) (Or.inl rfl) l m hw none (by simp)
  unfold createTokenList
  rw [charreplace_eq]
  simp only []
  rw [show ([space, lparen, space] : Str) = [space, 40, space] from rfl, e1, charreplace_eq]
  simp only []
  rw [show ([space, rparen, space] : Str) = [space, 41, space] from rfl, e2, c1, c2]
  match l2, w2, hw2, s2 with
  | [], w2, _, _ =>
    have := congrArg List.length w2
    simp only [List.map_nil, List.length_nil, List.length_map] at this
    omega
  | (n, w) :: l', w2, hw2, s2 =>
    have hne : l' ≠ [] := by
      intro e; subst e
      have := congrArg List.length w2
      simp only [List.map_cons, List.map_nil, List.length_singleton, List.length_map] at this
      omega
    rw [charsplit_layout n w l' m2 (hw2 (n, w) (by simp)) (fun p hp => hw2 p (List.mem_cons_of_mem _ hp))
      (spacedBy_nil _ l' s2), if_neg hne]
    rw [← w2]; rfl

/-- A single word gives no list. -/
theorem createTokenList_single (n : Nat) (w : Str) (m : Nat) (hw : Solid w) :
    (createTokenList (layout [(n, w)] m)).1 = .null := by
  have hw' : ∀ p ∈ [(n, w)], Word p.2 := by simp; exact Or.inl hw
  have hnp : ∀ s : Byte, s = 40 ∨ s = 41 → w ≠ [s] := by
    intro s hs e
    subst e
    have := hw.2
    rcases hs with e | e <;> subst e <;> simp [solidFrom] at this
  have e1 := replace_layout (s := 40) (Or.inl rfl) [(n, w)] m hw' 0 none (by simp)
  have e2 := replace_layout (s := 41) (Or.inr rfl) [(n, w)] m hw' 0 none (by simp)
  simp only [List.replicate_zero, List.nil_append, widen, hnp 40 (Or.inl rfl), hnp 41 (Or.inr rfl), if_false,
    Nat.add_zero] at e1 e2
  unfold createTokenList
  rw [charreplace_eq]
  simp only []
  rw [show ([space, lparen, space] : Str) = [space, 40, space] from rfl, e1, charreplace_eq]
  simp only []
  rw [show ([space, rparen, space] : Str) = [space, 41, space] from rfl, e2,
    charsplit_layout n w [] m (Or.inl hw) (by simp) (by simp)]
  rfl

end Verif.Logic
