import Verif.Lemmas.Remove

namespace Verif.Remove
open Verif.Confine

/-! ### Putting things aside -/

theorem realDir_only {fs fs' : FS} {d r : List Name} (h : RealDir fs d) (ho : Only r fs fs') (hr : ¬ r <+: d) :
    RealDir fs' d :=
  ⟨fun q hq => by rw [ho q fun hp => hr (hp.trans hq)]; exact h.dirs q hq, h.plain⟩

/-- Making something new in a directory. -/
theorem Fits.make {w : World} {fs : FS} (hf : Fits w fs) {d : List Name} {c : Name} {k : Node}
    (hd : fs d = some .dir) (hdp : ∀ x ∈ d, GoodName x) (hc : isStay c = false ∧ isUp c = false ∧ GoodName c)
    (hx : fs (d ++ [c]) ≠ some .dir) (hw : c ∈ w.names d) : Fits w (put fs (d ++ [c]) (some k)) := by
  have hput : ∀ q, put fs (d ++ [c]) (some k) q = if q = d ++ [c] then some k else fs q := fun q => rfl
  have hsplit : ∀ (p : List Name) (n : Name), p ++ [n] = d ++ [c] → p = d ∧ n = c := by
    intro p n e
    have := List.append_inj' e rfl
    exact ⟨this.1, by simpa using this.2⟩
  refine ⟨⟨?_, fun p n h => ?_, fun p h => ?_⟩, fun q n h => ?_, fun q n h => ?_⟩
  · rw [hput, if_neg (by simp)]; exact hf.good.root
  · rw [hput] at h ⊢
    by_cases e : p = d ++ [c]
    · rw [if_neg (by rw [e]; intro e'; have := congrArg List.length e'; simp at this)] at h
      rw [e] at h
      exact absurd (hf.leaf hx n) h
    · rw [if_neg e]
      by_cases e' : p ++ [n] = d ++ [c]
      · rw [(hsplit p n e').1]; exact hd
      · rw [if_neg e'] at h; exact hf.good.tree p n h
  · rw [hput] at h
    by_cases e : p = d ++ [c]
    · rw [e]
      intro x hx
      rcases List.mem_append.mp hx with hx | hx
      · exact hdp x hx
      · rw [List.mem_singleton.mp hx]; exact hc.2.2
    · rw [if_neg e] at h; exact hf.good.names p h
  · rw [hput] at h
    by_cases e : q ++ [n] = d ++ [c]
    · rw [(hsplit q n e).2]; exact ⟨hc.1, hc.2.1⟩
    · rw [if_neg e] at h; exact hf.plain q n h
  · rw [hput] at h
    by_cases e : q ++ [n] = d ++ [c]
    · rw [(hsplit q n e).1, (hsplit q n e).2]; exact hw
    · rw [if_neg e] at h; exact hf.covers q n h

theorem moved_below (fs : FS) (o n x : List Name) : moved fs o n (n ++ x) = fs (o ++ x) := by
  unfold moved
  rw [if_pos (List.prefix_append n x), List.drop_left]

theorem moved_away (fs : FS) (o n : List Name) {x : List Name} (hn : ¬ n <+: x) (ho : o <+: x) :
    moved fs o n x = none := by
  unfold moved
  rw [if_neg hn, if_pos ho]

theorem moved_other (fs : FS) (o n : List Name) {x : List Name} (hn : ¬ n <+: x) (ho : ¬ o <+: x) :
    moved fs o n x = fs x := by
  unfold moved
  rw [if_neg hn, if_neg ho]

/-- Moving something. -/
theorem Fits.moved {w : World} {fs : FS} (hf : Fits w fs) {o d : List Name} {c : Name} (ho : fs o ≠ none)
    (h1 : ¬ o <+: d ++ [c]) (h2 : ¬ d ++ [c] <+: o) (hd : fs d = some .dir)
    (hc : isStay c = false ∧ isUp c = false ∧ GoodName c) (hw : c ∈ w.names d)
    (hl : fs o = some .dir → ∀ x, ∀ k ∈ w.names (o ++ x), k ∈ w.names (d ++ [c] ++ x)) :
    Fits w (moved fs o (d ++ [c])) := by
  have hod : ¬ o <+: d := fun h => h1 (h.trans (List.prefix_append _ _))
  have hnd : ¬ d ++ [c] <+: d := not_below_child d c
  have hsplit : ∀ (p : List Name) (n : Name), p ++ [n] = d ++ [c] → p = d ∧ n = c := by
    intro p n e
    have := List.append_inj' e rfl
    exact ⟨this.1, by simpa using this.2⟩
  have h0 : o ≠ [] := fun e => h1 (e ▸ List.nil_prefix)
  -- the place of something in a directory
  have cases : ∀ p n, Remove.moved fs o (d ++ [c]) (p ++ [n]) ≠ none →
      (p = d ∧ n = c) ∨ (∃ x, p = d ++ [c] ++ x ∧ fs (o ++ x ++ [n]) ≠ none) ∨
      (¬ d ++ [c] <+: p ∧ ¬ o <+: p ∧ fs (p ++ [n]) ≠ none) := by
    intro p n h
    by_cases hp : d ++ [c] <+: p
    · obtain ⟨x, rfl⟩ := hp
      rw [List.append_assoc (d ++ [c]), moved_below] at h
      exact .inr (.inl ⟨x, rfl, by rw [List.append_assoc]; exact h⟩)
    · by_cases e : p ++ [n] = d ++ [c]
      · exact .inl (hsplit p n e)
      · have hp' : ¬ d ++ [c] <+: p ++ [n] := fun hh => hp (prefix_snoc_ne hh (Ne.symm e))
        by_cases ho' : o <+: p ++ [n]
        · rw [moved_away fs o _ hp' ho'] at h; exact absurd rfl h
        · rw [moved_other fs o _ hp' ho'] at h
          exact .inr (.inr ⟨hp, fun hh => ho' (hh.trans (List.prefix_append _ _)), h⟩)
  refine ⟨⟨?_, fun p n h => ?_, fun p h => ?_⟩, fun q n h => ?_, fun q n h => ?_⟩
  · rw [moved_other fs o _ (by simp) (fun h => h0 (List.prefix_nil.mp h))]
    exact hf.good.root
  · rcases cases p n h with ⟨rfl, rfl⟩ | ⟨x, rfl, h6⟩ | ⟨h3, h4, h5⟩
    · rw [moved_other fs o _ hnd hod]; exact hd
    · rw [moved_below]; exact hf.good.tree _ _ h6
    · rw [moved_other fs o _ h3 h4]; exact hf.good.tree _ _ h5
  · by_cases hp : d ++ [c] <+: p
    · obtain ⟨x, rfl⟩ := hp
      rw [moved_below] at h
      have hn := hf.good.names _ h
      intro y hy
      rcases List.mem_append.mp hy with hy | hy
      · rcases List.mem_append.mp hy with hy | hy
        · exact hf.good.names d (by rw [hd]; simp) y hy
        · rw [List.mem_singleton.mp hy]; exact hc.2.2
      · exact hn y (List.mem_append_right _ hy)
    · by_cases ho' : o <+: p
      · rw [moved_away fs o _ hp ho'] at h; exact absurd rfl h
      · rw [moved_other fs o _ hp ho'] at h; exact hf.good.names p h
  · rcases cases q n h with ⟨rfl, rfl⟩ | ⟨x, rfl, h6⟩ | ⟨h3, h4, h5⟩
    · exact ⟨hc.1, hc.2.1⟩
    · exact hf.plain _ _ h6
    · exact hf.plain _ _ h5
  · rcases cases q n h with ⟨rfl, rfl⟩ | ⟨x, rfl, h6⟩ | ⟨h3, h4, h5⟩
    · exact hw
    · by_cases hdo : fs o = some .dir
      · exact hl hdo x n (hf.covers _ _ h6)
      · exfalso
        apply h6
        rw [List.append_assoc]
        rcases hxn : x ++ [n] with _ | ⟨a, t⟩
        · simp at hxn
        · exact hf.gone (hf.leaf hdo a) _ ⟨t, by simp⟩
    · exact hf.covers _ _ h5

/-- What `rename` has done when it says that it worked. -/
theorem rename_spec {w : World} {s : State} {old new d c d' c'} (hf : Fits w s.fs)
    (h1 : locate s.fs old = .entry d c) (h2 : locate s.fs new = .entry d' c') (hne : d ++ [c] ≠ d' ++ [c'])
    (h : (rename w s old new).1 = true) :
    (rename w s old new).2 = { s with fs := moved s.fs (d ++ [c]) (d' ++ [c']),
                                      effs := .name (d' ++ [c']) :: .name (d ++ [c]) :: s.effs } ∧
      s.fs (d ++ [c]) ≠ none ∧ ¬ d ++ [c] <+: d' ++ [c'] ∧ ¬ d' ++ [c'] <+: d ++ [c] ∧
      (s.fs (d ++ [c]) = some .dir → ∀ x, x ≠ [] → s.fs (d' ++ [c'] ++ x) = none) ∧
      (s.fs (d ++ [c]) = some .dir → s.fs (d' ++ [c']) = none ∨ s.fs (d' ++ [c']) = some .dir) := by
  unfold rename at h ⊢
  split at h
  · exact absurd h (by simp)
  · rename_i hfl
    rw [if_neg hfl, h1, h2]
    rw [h1, h2] at h
    dsimp only at h ⊢
    split at h
    · exact absurd h (by simp)
    · rename_i hx
      rw [if_neg hx, if_neg hne]
      · split at h
        · exact absurd h (by simp)
        · rename_i hpre
          rw [if_neg hpre]
          have below : ∀ hd : s.fs (d' ++ [c']) = none ∨
              (s.fs (d' ++ [c']) = some .dir ∧ isEmpty w s.fs (d' ++ [c']) = true),
              ∀ x, x ≠ [] → s.fs (d' ++ [c'] ++ x) = none := by
            intro hd x hx
            rcases x with _ | ⟨a, t⟩
            · exact absurd rfl hx
            · rcases hd with hd | ⟨-, hd⟩
              · exact hf.gone hd _ (List.prefix_append _ _)
              · exact hf.gone ((isEmpty_iff hf _).mp hd a) _ ⟨t, by simp⟩
          split at h
          · rename_i hdo
            rw [if_pos hdo]
            split at h
            · rename_i hok
              rw [if_pos hok]
              exact ⟨rfl, hx, fun hh => hpre (.inl hh), fun hh => hpre (.inr hh), fun _ => below hok,
                fun _ => hok.imp id And.left⟩
            · exact absurd h (by simp)
          · rename_i hdo
            rw [if_neg hdo]
            split at h
            · exact absurd h (by simp)
            · rename_i hdn
              rw [if_neg hdn]
              exact ⟨rfl, hx, fun hh => hpre (.inl hh), fun hh => hpre (.inr hh), fun hh => absurd hh hdo,
                fun hh => absurd hh hdo⟩

/-- `mkpath` for what goes into `deleteme`. -/
theorem mkpath_aside {s : State} {o : List Name} {n t : Name} (ho : RealDir s.fs o)
    (hn : isStay n = false ∧ isUp n = false) (hd : s.fs (o ++ [n]) = none ∨ s.fs (o ++ [n]) = some .dir) :
    mkpath s (o ++ [n] ++ [t]) =
      (true, if s.fs (o ++ [n]) = none then s.entry (o ++ [n]) (some .dir) else s) := by
  have hl : Confine.lstat s.fs (o ++ [n]) = s.fs (o ++ [n]) :=
    lstat_entry (names_real ho hn).now
  have hlo : Confine.lstat s.fs o = some .dir := by
    rw [lstat_canon ho.canon]; exact ho.dirs o (List.prefix_refl o)
  unfold mkpath
  rw [show (o ++ [n] ++ [t]).reverse = t :: n :: o.reverse by simp]
  rw [mkpathR, if_neg (by simp), show (n :: o.reverse).reverse = o ++ [n] by simp, hl]
  rcases hd with hd | hd
  · have : mkpathR s (n :: o.reverse) = (true, s) := by
      rw [mkpathR]
      split
      · rfl
      · rw [List.reverse_reverse, if_neg (by rw [hlo]; simp)]
    rw [if_pos hd, if_pos hd, this]
    show make s (o ++ [n]) .dir = _
    unfold make
    rw [(names_real ho hn).now]
    dsimp only
    rw [if_pos hd]
  · rw [hd]
    rfl

end Verif.Remove
