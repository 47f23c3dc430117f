import Verif.Lemmas.ConfineSteps

/-!
# C67: stripping leading components from the paths of a restore
-/

namespace Verif
open Confine

namespace Confine

theorem parts_ne_nil (s : Str) : parts s ≠ [] := by
  cases s with
  | nil => simp [parts]
  | cons c cs =>
    unfold parts
    split
    · simp
    · split <;> simp

theorem afterSlash_parts {s r : Str} (h : afterSlash s = some r) : parts r = (parts s).drop 1 := by
  induction s with
  | nil => simp [afterSlash] at h
  | cons c cs ih =>
    unfold afterSlash at h
    split at h
    · rename_i hc
      injection h with h
      rw [parts, if_pos hc, h]; rfl
    · rename_i hc
      rw [parts, if_neg hc, ih h]
      cases hp : parts cs with
      | nil => exact absurd hp (parts_ne_nil cs)
      | cons a t => rfl

theorem afterSlash_none {s : Str} : afterSlash s = none ↔ (parts s).length = 1 := by
  induction s with
  | nil => simp [afterSlash, parts]
  | cons c cs ih =>
    unfold afterSlash parts
    split
    · have := List.length_pos_iff.mpr (parts_ne_nil cs)
      simp only [reduceCtorEq, List.length_cons, false_iff]
      omega
    · rw [ih]
      cases hp : parts cs with
      | nil => exact absurd hp (parts_ne_nil cs)
      | cons a t => simp

theorem parts_nil {s : Str} (h : parts s = [[]]) : s = [] := by
  cases s with
  | nil => rfl
  | cons c cs =>
    exfalso
    unfold parts at h
    split at h
    · have := congrArg List.length h
      have h2 := List.length_pos_iff.mpr (parts_ne_nil cs)
      simp only [List.length_cons, List.length_nil] at this
      omega
    · split at h <;> simp at h

end Confine

/-- Stripping fewer components than a path has takes exactly that many parts off the front, and leaves the
others as they are. -/
theorem C67_strip (n : Nat) (p : Str) (h : n < (parts p).length) :
    ∃ q, stripComponents n p = some q ∧ parts q = (parts p).drop n := by
  induction n generalizing p with
  | zero => exact ⟨p, rfl, rfl⟩
  | succ n ih =>
    cases p with
    | nil => simp [parts] at h
    | cons c cs =>
      cases ha : afterSlash (c :: cs) with
      | none => rw [afterSlash_none.mp ha] at h; omega
      | some r =>
        have hr := afterSlash_parts ha
        obtain ⟨q, h1, h2⟩ := ih r (by rw [hr, List.length_drop]; omega)
        refine ⟨q, ?_, ?_⟩
        · unfold stripComponents
          rw [ha]; exact h1
        · rw [h2, hr, List.drop_drop]
          congr 1
          omega

example : stripComponents 2 (bytes "/home/me/x") = some (bytes "me/x") ∧
    2 < (parts (bytes "/home/me/x")).length := by decide

/-- An entry with no more components than are to be stripped is left out, unless its path is empty or ends
with a slash. -/
theorem C67_left_out (n : Nat) (p : Str) (h : (parts p).length ≤ n) (hl : (parts p).getLast? ≠ some []) :
    stripComponents n p = none := by
  induction n generalizing p with
  | zero => exact absurd (List.length_eq_zero_iff.mp (Nat.le_zero.mp h)) (parts_ne_nil p)
  | succ n ih =>
    cases p with
    | nil => simp [parts] at hl
    | cons c cs =>
      unfold stripComponents
      cases ha : afterSlash (c :: cs) with
      | none => rfl
      | some r =>
        have hr := afterSlash_parts ha
        have hlen : 1 < (parts (c :: cs)).length := by
          have h1 := List.length_pos_iff.mpr (parts_ne_nil (c :: cs))
          have h2 : (parts (c :: cs)).length ≠ 1 := fun e => by rw [afterSlash_none.mpr e] at ha; simp at ha
          omega
        refine ih r (by rw [hr, List.length_drop]; omega) ?_
        rw [hr, List.getLast?_drop, if_neg (by omega)]
        exact hl

example : (parts (bytes "a/b")).length ≤ 2 ∧ (parts (bytes "a/b")).getLast? ≠ some [] := by decide

/-- A path that starts with a slash loses one name less than asked for: the slash counts as one. The place
of an entry in the restore directory is then where it would have been with one component less stripped. -/
theorem C67_absolute_partial (n : Nat) (r : Str) (hn : n < (parts r).length) (hr : r ≠ [])
    (hh : ∀ q, stripComponents n r = some q → q ≠ [] ∧ q.head? ≠ some slash) :
    ∃ q, stripComponents (n + 1) (slash :: r) = some q ∧ sub q = (sub (slash :: r)).drop n := by
  obtain ⟨q, h1, h2⟩ := C67_strip n r hn
  refine ⟨q, ?_, ?_⟩
  · unfold stripComponents
    simpa [afterSlash] using h1
  · obtain ⟨h3, h4⟩ := hh q h1
    have key : ∀ x : Str, x ≠ [] → x.head? ≠ some slash → sub x = parts x := by
      intro x hx hx'
      cases x with
      | nil => exact absurd rfl hx
      | cons c cs =>
        have : c ≠ slash := fun e => hx' (by rw [e]; rfl)
        simp [sub, this]
    have hsub : sub (slash :: r) = parts r := by simp [sub, hr]
    rw [key q h3 h4, hsub, h2]

example : ∃ q, stripComponents 2 (bytes "/home/me/x") = some q ∧ sub q = [bytes "me", bytes "x"] :=
  ⟨bytes "me/x", by decide⟩

/-- So stripping one component from an absolute path, as all paths in a backup of a Unix client are, does
not change where the entry goes. -/
theorem C67_first_violated (o : Options) (D : List Name) (s : State) (e : Entry) (r : Str)
    (he : e.path = slash :: r) (h1 : r ≠ []) (h2 : r.head? ≠ some slash) (ho : o.strip = 1)
    (hf : o.stripFrom = none) :
    entryStep o D s e = entryStep { o with strip := 0 } D s e := by
  have hp : e.path ≠ [] := by rw [he]; simp
  have hst : stripped o e = some { e with path := r } := by
    unfold stripped
    rw [ho, hf, he]
    simp [stripComponents, afterSlash]
  have hst0 : stripped { o with strip := 0 } e = some { e with path := slash :: r } := by
    unfold stripped
    simp [stripComponents, hf, he]
  have hsub : sub (slash :: r) = sub r := by
    cases r with
    | nil => exact absurd rfl h1
    | cons c cs =>
      have : c ≠ slash := fun e => h2 (by rw [e]; rfl)
      simp [sub, this]
  unfold entryStep
  rw [hst, hst0]
  simp only [hsub]
  rfl

example : bytes "/home/x" = slash :: bytes "home/x" ∧ bytes "home/x" ≠ [] ∧
    (bytes "home/x").head? ≠ some slash := by decide

/-- What `stripfrompath` does: the first place where the string is found goes, wherever it is. -/
theorem C67_from (x p : Str) :
    (stripFrom x p = p ∧ (p.length ≤ x.length ∨ ∀ a b, p ≠ a ++ x ++ b)) ∨
    (∃ a b, p = a ++ x ++ b ∧ stripFrom x p = a ++ b ∧ x.length < p.length ∧
      ∀ a' b', p = a' ++ x ++ b' → a.length ≤ a'.length) := by
  have hnone : ∀ s : Str, strstr x s = none → ∀ a b, s ≠ a ++ x ++ b := by
    intro s
    induction s with
    | nil =>
      intro h a b e
      unfold strstr at h
      split at h
      · simp at h
      · rename_i hx
        have := congrArg List.length e
        simp only [List.length_nil, List.length_append] at this
        exact hx (List.length_eq_zero_iff.mp (by omega))
    | cons c cs ih =>
      intro h a b e
      unfold strstr at h
      split at h
      · simp at h
      · rename_i hx
        cases a with
        | nil =>
          rw [List.nil_append] at e
          exact hx (List.isPrefixOf_iff_prefix.mpr ⟨b, e.symm⟩)
        | cons a0 a =>
          rw [List.cons_append, List.cons_append] at e
          injection e with _ e
          exact ih (Option.map_eq_none_iff.mp h) a b e
  have hsome : ∀ (s a b : Str), strstr x s = some (a, b) → s = a ++ x ++ b ∧
      ∀ a' b', s = a' ++ x ++ b' → a.length ≤ a'.length := by
    intro s
    induction s with
    | nil =>
      intro a b h
      unfold strstr at h
      split at h
      · rename_i hx
        injection h with h
        injection h with h1 h2
        subst h1 h2 hx
        exact ⟨rfl, fun _ _ _ => Nat.zero_le _⟩
      · simp at h
    | cons c cs ih =>
      intro a b h
      unfold strstr at h
      split at h
      · rename_i hx
        injection h with h
        injection h with h1 h2
        subst h1 h2
        obtain ⟨t, ht⟩ := List.isPrefixOf_iff_prefix.mp hx
        refine ⟨?_, fun _ _ _ => Nat.zero_le _⟩
        rw [← ht, List.drop_left, List.nil_append]
      · rename_i hx
        obtain ⟨⟨a1, b1⟩, h1, h2⟩ := Option.map_eq_some_iff.mp h
        injection h2 with h2 h3
        subst h2 h3
        obtain ⟨h4, h5⟩ := ih a1 b1 h1
        refine ⟨by rw [List.cons_append, List.cons_append, ← h4], fun a' b' e => ?_⟩
        cases a' with
        | nil =>
          rw [List.nil_append] at e
          exact absurd (List.isPrefixOf_iff_prefix.mpr ⟨b', e.symm⟩) hx
        | cons a0 a' =>
          rw [List.cons_append, List.cons_append] at e
          injection e with _ e
          exact Nat.succ_le_succ (h5 a' b' e)
  unfold stripFrom
  split
  · rename_i hl
    exact .inl ⟨rfl, .inl hl⟩
  · rename_i hl
    rcases h : strstr x p with _ | ⟨a, b⟩
    · exact .inl ⟨rfl, .inr (hnone p h)⟩
    · obtain ⟨h1, h2⟩ := hsome p a b h
      exact .inr ⟨a, b, h1, rfl, by omega, h2⟩

example : stripFrom (bytes "/home") (bytes "/srv/home/x") = bytes "/srv/x" ∧
    stripFrom (bytes "/home") (bytes "/home") = bytes "/home" := by decide

end Verif
