import Verif.Model.Incexc
import Verif.Props.Find
import Verif.Props.Strlist

/-!
# C41 and C42, from the lines of the configuration
-/

namespace Verif
open Verif.Incexc Verif.Strlist Verif.PathCmp

theorem munge_eq (l : List Elem) : ∀ acc out, munge acc l = some out →
    out = l.foldl addSortedUniq acc ∧ ∀ e ∈ l, isAbsolute e.path = true := by
  induction l with
  | nil => intro acc out h; simp [munge] at h; exact ⟨h.symm, by simp⟩
  | cons s ss ih =>
    intro acc out h
    rw [munge] at h
    split at h
    · exact absurd h (by simp)
    · rename_i ha
      obtain ⟨h1, h2⟩ := ih _ _ h
      refine ⟨h1, ?_⟩
      intro e he
      rcases List.mem_cons.1 he with rfl | he
      · simpa using ha
      · exact h2 e he

theorem hasDupes_none (l : List Elem) (hs : l.Pairwise (fun a b => ¬ ElemLt b a)) :
    (∀ p, (∀ e ∈ l, pathcmp p e.path ≤ 0) → hasDupes (some p) l = false →
      l.Pairwise (fun a b => pathcmp a.path b.path < 0) ∧ ∀ e ∈ l, pathcmp p e.path < 0) ∧
    (hasDupes none l = false → l.Pairwise (fun a b => pathcmp a.path b.path < 0)) := by
  induction l with
  | nil => simp
  | cons s ss ih =>
    rw [List.pairwise_cons] at hs
    obtain ⟨ih1, ih2⟩ := ih hs.2
    have hle : ∀ e ∈ ss, pathcmp s.path e.path ≤ 0 := by
      intro e he
      have := hs.1 e he
      unfold ElemLt at this
      have h2 := pathcmp_antisymm s.path e.path
      omega
    constructor
    · intro p hp h
      rw [hasDupes] at h
      split at h
      · exact absurd h (by simp)
      · rename_i hne
        obtain ⟨h1, h2⟩ := ih1 s.path hle h
        have hps : pathcmp p s.path < 0 := by
          have h3 := hp s (by simp)
          have h4 : pathcmp p s.path ≠ 0 := fun h5 => hne (pathcmp_eq_zero.1 h5).symm
          omega
        refine ⟨List.pairwise_cons.2 ⟨h2, h1⟩, ?_⟩
        intro e he
        rcases List.mem_cons.1 he with rfl | he
        · exact hps
        · exact pathcmp_lt_trans hps (h2 e he)
    · intro h
      rw [hasDupes] at h
      obtain ⟨h1, h2⟩ := ih1 s.path hle h
      exact List.pairwise_cons.2 ⟨h2, h1⟩

theorem elemLt_le {a b : Elem} (h : ElemLt a b) : ¬ ElemLt b a := by
  intro h2
  have := h.trans h2
  unfold ElemLt at this
  rw [pathcmp_self] at this
  omega

theorem optionList_spec (flag : Int) (lines : List Str) :
    (optionList flag lines).Pairwise (fun a b => ¬ ElemLt b a) ∧
    ∀ e, e ∈ optionList flag lines ↔ e.flag = flag ∧ e.path ∈ lines := by
  have key : ∀ (lines : List Str) (l : List Elem), l.Pairwise (fun a b => ¬ ElemLt b a) →
      (lines.foldl (fun l p => addSorted l ⟨p, flag⟩) l).Pairwise (fun a b => ¬ ElemLt b a) ∧
      ∀ e, e ∈ lines.foldl (fun l p => addSorted l ⟨p, flag⟩) l ↔ e ∈ l ∨ (e.flag = flag ∧ e.path ∈ lines) := by
    intro lines
    induction lines with
    | nil => intro l h; simpa using h
    | cons p lines ih =>
      intro l h
      obtain ⟨a, b, h1, h2, h3, h4⟩ := C38_add_sorted l ⟨p, flag⟩ h
      have hp : (addSorted l ⟨p, flag⟩).Pairwise (fun a b => ¬ ElemLt b a) := by
        rw [h2]
        rw [h1, List.pairwise_append] at h
        refine List.pairwise_append.2 ⟨h.1, List.pairwise_cons.2 ⟨fun y hy => elemLt_le (h4 y hy), h.2.1⟩, ?_⟩
        intro x hx y hy
        rcases List.mem_cons.1 hy with rfl | hy
        · exact h3 x hx
        · exact h.2.2 x hx y hy
      obtain ⟨g1, g2⟩ := ih _ hp
      refine ⟨g1, ?_⟩
      intro e
      rw [List.foldl_cons, g2, h2, h1]
      obtain ⟨ep, ef⟩ := e
      simp only [List.mem_append, List.mem_cons, Elem.mk.injEq]
      grind
  obtain ⟨h1, h2⟩ := key lines [] List.Pairwise.nil
  exact ⟨h1, fun e => by simpa [optionList] using h2 e⟩

theorem incexcDirs_spec {includes excludes : List Str} {dirs start : List Elem}
    (h : configure includes excludes = some (dirs, start)) :
    dirs.Pairwise (fun a b => pathcmp a.path b.path < 0) ∧
    (∀ e, e ∈ dirs ↔ (e.flag = 1 ∧ e.path ∈ includes) ∨ (e.flag = 0 ∧ e.path ∈ excludes)) ∧
    startDirs (optionList 1 includes) = some start := by
  unfold configure at h
  split at h
  · exact absurd h (by simp)
  rename_i d hd
  split at h
  · exact absurd h (by simp)
  rename_i s hs
  obtain ⟨rfl, rfl⟩ : d = dirs ∧ s = start := by simpa using h
  refine ⟨?_, ?_, hs⟩
  all_goals
    unfold incexcDirs at hd
    split at hd
    · exact absurd hd (by simp)
    rename_i l hl
    split at hd
    · exact absurd hd (by simp)
    rename_i hdup
    have hl' : l = d := by simpa using hd
    subst hl'
    obtain ⟨h1, h2⟩ := munge_eq _ _ _ hl
    obtain ⟨g1, _, g3⟩ := C38_history_uniq (optionList 1 includes ++ optionList 0 excludes)
    rw [← h1] at g1 g3
  · exact (hasDupes_none l (g1.imp (fun hab => elemLt_le hab))).2 (by simpa using hdup)
  · intro e
    rw [g3, List.mem_append, (optionList_spec 1 includes).2, (optionList_spec 0 excludes).2]

/-- C41, from the lines of the configuration: a file is included exactly when the longest of the configured
directories that contain it is an `include`, unless an extension or a regular expression excludes it. -/
theorem C41_configured_partial (includes excludes : List Str) (dirs start : List Elem)
    (hcfg : configure includes excludes = some (dirs, start))
    (c : Find.Conf) (hcd : c.incexcdir = dirs) (fname d : Str)
    (hn : ∀ p ∈ includes ++ excludes, NoNul p) (hf : NoNul fname)
    (hd : d ∈ includes ++ excludes) (hc : Contains d fname)
    (hl : ∀ p ∈ includes ++ excludes, Contains p fname → p.length ≤ d.length) :
    Find.isIncludedNoIncext c fname = true ↔ NotFiltered c fname ∧ d ∈ includes := by
  obtain ⟨h1, h2, _⟩ := incexcDirs_spec hcfg
  have hmem : ∀ e ∈ dirs, e.path ∈ includes ++ excludes := by
    intro e he
    rcases (h2 e).1 he with h | h <;> simp [h.2]
  have main : ∀ f : Int, (⟨d, f⟩ : Elem) ∈ dirs →
      (Find.isIncludedNoIncext c fname = true ↔ NotFiltered c fname ∧ f ≠ 0) := by
    intro f hfm
    exact C41_longest_partial c fname ⟨d, f⟩ (hcd ▸ h1) (fun e he => hn _ (hmem e (hcd ▸ he))) hf (hcd ▸ hfm) hc
      (fun e he hce => hl _ (hmem e (hcd ▸ he)) hce)
  by_cases hi : d ∈ includes
  · rw [main 1 ((h2 _).2 (Or.inl ⟨rfl, hi⟩))]
    simp [hi]
  · have he : d ∈ excludes := by
      rcases List.mem_append.1 hd with h | h
      · exact absurd h hi
      · exact h
    rw [main 0 ((h2 _).2 (Or.inr ⟨rfl, he⟩))]
    simp [hi]

/-- The lists made of some lines. -/
theorem exConfigure : configure [bytes "/var/lib", bytes "/"] [bytes "/var"] =
    some ([⟨bytes "/", 1⟩, ⟨bytes "/var", 0⟩, ⟨bytes "/var/lib", 1⟩], [⟨bytes "/", 1⟩]) := by decide +kernel

/-! ### Starting directories -/

theorem contains_trans_prefix {d a : Str} (h : Contains d a) : a = d ∨ ∃ y, y ≠ [] ∧ a = d ++ y := by
  rcases h with (rfl | ⟨y, rfl⟩) | ⟨_, y, hy, rfl⟩
  · exact Or.inl rfl
  · exact Or.inr ⟨_, by simp, rfl⟩
  · exact Or.inr ⟨y, hy, rfl⟩

theorem pathcmp_between_prefix (d y q : Str) (h1 : pathcmp d q ≤ 0) (h2 : pathcmp q (d ++ y) ≤ 0) : d <+: q := by
  induction d generalizing q with
  | nil => exact List.nil_prefix
  | cons c d ih =>
    cases q with
    | nil => simp [pathcmp] at h1
    | cons x q =>
      rw [pathcmp_cons] at h1
      rw [List.cons_append, pathcmp_cons] at h2
      have hcx : c = x := by
        apply rank_inj
        by_cases e1 : rank c = rank x
        · exact e1
        · exfalso
          grind
      subst hcx
      simp at h1 h2
      rw [List.prefix_cons_inj]
      exact ih q h1 h2

/-- What lies in the order between a directory and something that it contains is contained, too. -/
theorem contains_between {d q r : Str} (hr : Contains d r) (h1 : pathcmp d q ≤ 0) (h2 : pathcmp q r ≤ 0) :
    Contains d q := by
  rcases hr with hr | ⟨hd, y, _, rfl⟩
  · exact Or.inl (C04_directory_contiguous d d q r (Or.inl rfl) hr h1 h2)
  · obtain ⟨z, rfl⟩ := pathcmp_between_prefix d y q h1 h2
    cases z with
    | nil => rw [List.append_nil]; exact Or.inl (Or.inl rfl)
    | cons c z => exact Or.inr ⟨hd, _, by simp, rfl⟩

theorem isSubdir_contains {d p : Str} (hd : NoNul d) (hp : NoNul p) : isSubdir d p ≠ 0 ↔ Contains d p :=
  C06_is_subdir_exact d p hd hp

theorem startLoop_spec (inc : List Elem) : ∀ (start : List Elem) (last : Option Elem) (out : List Elem),
    startLoop start last inc = some out →
    inc.Pairwise (fun a b => ¬ ElemLt b a) →
    (∀ e ∈ inc, NoNul e.path) → (∀ e ∈ start, NoNul e.path) →
    (∀ s ∈ start, ∀ e ∈ inc, pathcmp s.path e.path ≤ 0) →
    start.Pairwise (fun a b => pathcmp a.path b.path < 0 ∧ ¬ Contains a.path b.path) →
    (last = none → start = []) →
    (∀ l, last = some l → ∃ pre, start = pre ++ [l]) →
    (∀ s ∈ out, s ∈ start ∨ s ∈ inc) ∧ (∀ s ∈ start, s ∈ out) ∧
    out.Pairwise (fun a b => pathcmp a.path b.path < 0 ∧ ¬ Contains a.path b.path) ∧
    ∀ e ∈ inc, ∃ s ∈ out, Contains s.path e.path := by
  induction inc with
  | nil =>
    intro start last out h _ _ _ _ hp _ _
    rw [startLoop] at h
    obtain rfl := Option.some.inj h
    exact ⟨fun s hs => Or.inl hs, fun s hs => hs, hp, by simp⟩
  | cons s ss ih =>
    intro start last out h hsort hni hns hle hp hl0 hl1
    rw [List.pairwise_cons] at hsort
    have hs_le : ∀ e ∈ ss, pathcmp s.path e.path ≤ 0 := by
      intro e he
      have := hsort.1 e he
      unfold ElemLt at this
      have h2 := pathcmp_antisymm s.path e.path
      omega
    rw [startLoop.eq_def] at h
    dsimp only at h
    split at h
    · exact absurd h (by simp)
    have addCase : ∀ out, startLoop (start ++ [s]) (some s) ss = some out →
        (∀ a ∈ start, pathcmp a.path s.path < 0 ∧ ¬ Contains a.path s.path) →
        (∀ x ∈ out, x ∈ start ∨ x ∈ s :: ss) ∧ (∀ x ∈ start, x ∈ out) ∧
        out.Pairwise (fun a b => pathcmp a.path b.path < 0 ∧ ¬ Contains a.path b.path) ∧
        ∀ e ∈ s :: ss, ∃ x ∈ out, Contains x.path e.path := by
      intro out h hnew
      obtain ⟨g1, g2, g3, g4⟩ := ih (start ++ [s]) (some s) out h hsort.2 (fun e he => hni e (by simp [he]))
        (by
          intro e he
          rcases List.mem_append.1 he with he | he
          · exact hns e he
          · rw [List.mem_singleton.1 he]; exact hni s (by simp))
        (by
          intro x hx e he
          rcases List.mem_append.1 hx with hx | hx
          · exact hle x hx e (by simp [he])
          · rw [List.mem_singleton.1 hx]; exact hs_le e he)
        (by
          refine List.pairwise_append.2 ⟨hp, by simp, ?_⟩
          intro a ha b hb
          rw [List.mem_singleton.1 hb]
          exact hnew a ha)
        (by simp) (by intro l hl; exact ⟨start, by rw [Option.some.inj hl]⟩)
      refine ⟨?_, fun x hx => g2 x (by simp [hx]), g3, ?_⟩
      · intro x hx
        rcases g1 x hx with hx | hx
        · rcases List.mem_append.1 hx with hx | hx
          · exact Or.inl hx
          · exact Or.inr (by simp [List.mem_singleton.1 hx])
        · exact Or.inr (by simp [hx])
      · intro e he
        rcases List.mem_cons.1 he with rfl | he
        · exact ⟨e, g2 e (by simp), Or.inl (Or.inl rfl)⟩
        · exact g4 e he
    cases last with
    | none =>
      have := hl0 rfl
      subst this
      exact addCase out h (by simp)
    | some l =>
      obtain ⟨pre, hpre⟩ := hl1 l rfl
      have hlm : l ∈ start := by rw [hpre]; simp
      have hsub := isSubdir_contains (hns l hlm) (hni s (by simp))
      by_cases hz : isSubdir l.path s.path = 0
      · simp only [if_pos hz] at h
        apply addCase out h
        have hnl : ¬ Contains l.path s.path := fun hc => (hsub.2 hc) hz
        have strict : ∀ a ∈ start, ¬ Contains a.path s.path := by
          intro a ha hc
          rw [hpre] at ha
          rcases List.mem_append.1 ha with ha | ha
          · rw [hpre] at hp
            have h3 := (List.pairwise_append.1 hp).2.2 a ha l (by simp)
            exact h3.2 (contains_between hc (Int.le_of_lt h3.1) (hle l hlm s (by simp)))
          · rw [List.mem_singleton.1 ha] at hc; exact hnl hc
        intro a ha
        refine ⟨?_, strict a ha⟩
        have h1 := hle a ha s (by simp)
        have h2 : pathcmp a.path s.path ≠ 0 := by
          intro h0
          apply strict a ha
          rw [pathcmp_eq_zero.1 h0]
          exact Or.inl (Or.inl rfl)
        omega
      · simp only [if_neg hz] at h
        obtain ⟨g1, g2, g3, g4⟩ := ih start (some l) out h hsort.2 (fun e he => hni e (by simp [he])) hns
          (fun x hx e he => hle x hx e (by simp [he])) hp (by simp) hl1
        refine ⟨?_, g2, g3, ?_⟩
        · intro x hx
          rcases g1 x hx with hx | hx
          · exact Or.inl hx
          · exact Or.inr (by simp [hx])
        · intro e he
          rcases List.mem_cons.1 he with rfl | he
          · exact ⟨l, g2 l hlm, hsub.1 hz⟩
          · exact g4 e he

/-- C42: with any `include` lines, in any order, the starting directories are among them, every included
directory is one of them or is contained in one of them, and none is contained in another. -/
theorem C42_start_dirs (includes excludes : List Str) (dirs start : List Elem)
    (hcfg : configure includes excludes = some (dirs, start)) (hn : ∀ p ∈ includes, NoNul p) :
    (∀ s ∈ start, s.path ∈ includes) ∧ (∀ p ∈ includes, ∃ s ∈ start, Contains s.path p) ∧
    start.Pairwise (fun a b => ¬ Contains a.path b.path ∧ ¬ Contains b.path a.path) := by
  obtain ⟨_, _, h3⟩ := incexcDirs_spec hcfg
  obtain ⟨o1, o2⟩ := optionList_spec 1 includes
  unfold startDirs at h3
  split at h3
  · exact absurd h3 (by simp)
  rename_i l hl
  split at h3
  · exact absurd h3 (by simp)
  obtain rfl : l = start := by simpa using h3
  obtain ⟨g1, _, g3, g4⟩ := startLoop_spec _ _ _ _ hl o1 (fun e he => hn _ ((o2 e).1 he).2) (by simp) (by simp)
    List.Pairwise.nil (by simp) (by simp)
  refine ⟨?_, ?_, ?_⟩
  · intro s hs
    rcases g1 s hs with h | h
    · simp at h
    · exact ((o2 s).1 h).2
  · intro p hp
    exact g4 ⟨p, 1⟩ ((o2 _).2 ⟨rfl, hp⟩)
  · refine g3.imp ?_
    intro a b hab
    refine ⟨hab.2, ?_⟩
    intro hc
    rcases contains_trans_prefix hc with h | ⟨y, hy, h⟩
    · have := hab.1
      rw [h, pathcmp_self] at this
      omega
    · have h1 := hab.1
      rw [h] at h1
      cases y with
      | nil => exact hy rfl
      | cons x y =>
        have h2 := pathcmp_prefix b.path x y
        have h3 := pathcmp_antisymm b.path (b.path ++ x :: y)
        omega

example : configure [bytes "/home/b", bytes "/etc", bytes "/home", bytes "/home-old"] [] =
    some ([⟨bytes "/etc", 1⟩, ⟨bytes "/home", 1⟩, ⟨bytes "/home/b", 1⟩, ⟨bytes "/home-old", 1⟩],
      [⟨bytes "/etc", 1⟩, ⟨bytes "/home", 1⟩, ⟨bytes "/home-old", 1⟩]) := by decide +kernel

end Verif
