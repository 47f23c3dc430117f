import Verif.Lemmas.Scan

/-!
# C62: the scan finds each file that is wanted once, in order
-/

namespace Verif
open Verif.Scan Verif.PathCmp Verif.Strlist Verif.Incexc

/-! ### The file system -/

theorem snoc_induction {α : Type} {motive : List α → Prop} (l : List α) (nil : motive [])
    (append_singleton : ∀ l a, motive l → motive (l ++ [a])) : motive l := by
  have : ∀ r : List α, motive r.reverse := by
    intro r
    induction r with
    | nil => exact nil
    | cons a r ih => rw [List.reverse_cons]; exact append_singleton _ _ ih
  simpa using this l.reverse

theorem tree_parent {t : Tree} {d : Nat} (h : GoodTree t d) {p q : List Str} (hpq : p <+: q)
    (hq : t q ≠ .missing) : t p ≠ .missing := by
  obtain ⟨r, rfl⟩ := hpq
  induction r using snoc_induction with
  | nil => simpa using hq
  | append_singleton r c ih =>
    rw [← List.append_assoc] at hq
    obtain ⟨ns, h1, _⟩ := (h.there _ _).1 hq
    exact ih (by rw [h1]; simp)

theorem tree_good {t : Tree} {d : Nat} (h : GoodTree t d) {q : List Str} (hq : t q ≠ .missing) :
    ∀ c ∈ q, GoodName c := by
  induction q using snoc_induction with
  | nil => simp
  | append_singleton r c ih =>
    obtain ⟨ns, h1, h2⟩ := (h.there _ _).1 hq
    intro x hx
    rcases List.mem_append.1 hx with hx | hx
    · exact ih (by rw [h1]; simp) x hx
    · obtain rfl := List.mem_singleton.1 hx
      exact (h.names _ _ h1).2 _ h2

theorem tree_child {t : Tree} {d : Nat} (h : GoodTree t d) {p q : List Str} (hpq : p <+: q) (hne : q ≠ p)
    (hq : t q ≠ .missing) : ∃ ns c, t p = .dir ns ∧ c ∈ ns ∧ p ++ [c] <+: q := by
  obtain ⟨r, rfl⟩ := hpq
  cases r with
  | nil => simp at hne
  | cons c r =>
    have e : p ++ c :: r = (p ++ [c]) ++ r := by simp
    have h1 : t (p ++ [c]) ≠ .missing := tree_parent h (q := p ++ c :: r) (by rw [e]; exact List.prefix_append _ _) hq
    obtain ⟨ns, h2, h3⟩ := (h.there _ _).1 h1
    exact ⟨ns, c, h2, h3, by rw [e]; exact List.prefix_append _ _⟩

theorem insertName_spec (x : Str) (l : List Str) (hl : l.Pairwise (fun a b => pathcmp a b < 0)) (hx : x ∉ l) :
    (insertName x l).Pairwise (fun a b => pathcmp a b < 0) ∧ ∀ y, y ∈ insertName x l ↔ y = x ∨ y ∈ l := by
  induction l with
  | nil => simp [insertName]
  | cons z l ih =>
    rw [List.pairwise_cons] at hl
    simp only [List.mem_cons, not_or] at hx
    obtain ⟨h1, h2⟩ := ih hl.2 hx.2
    rw [insertName]
    split
    · rename_i h
      have hlt : pathcmp x z < 0 := by
        have : pathcmp x z ≠ 0 := fun h0 => hx.1 (pathcmp_eq_zero.1 h0)
        omega
      refine ⟨?_, by simp⟩
      rw [List.pairwise_cons, List.pairwise_cons]
      refine ⟨?_, hl⟩
      intro a ha
      rcases List.mem_cons.1 ha with rfl | ha
      · exact hlt
      · exact pathcmp_lt_trans hlt (hl.1 a ha)
    · rename_i h
      have hlt : pathcmp z x < 0 := by rw [pathcmp_antisymm]; omega
      refine ⟨?_, fun y => by simp only [List.mem_cons, h2]; grind⟩
      rw [List.pairwise_cons]
      refine ⟨?_, h1⟩
      intro a ha
      rcases (h2 a).1 ha with rfl | ha
      · exact hlt
      · exact hl.1 a ha

theorem alphasort_spec (l : List Str) (hl : l.Nodup) :
    (alphasort l).Pairwise (fun a b => pathcmp a b < 0) ∧ ∀ y, y ∈ alphasort l ↔ y ∈ l := by
  induction l with
  | nil => simp [alphasort]
  | cons x l ih =>
    rw [List.nodup_cons] at hl
    obtain ⟨h1, h2⟩ := ih hl.2
    rw [alphasort]
    obtain ⟨g1, g2⟩ := insertName_spec x (alphasort l) h1 (by rw [h2]; exact hl.1)
    exact ⟨g1, fun y => by rw [g2, h2, List.mem_cons]⟩

/-! ### The configuration -/

theorem startDirs_sorted {includes excludes : List Str} {dirs start : List Elem}
    (hcfg : configure includes excludes = some (dirs, start)) (hn : ∀ p ∈ includes, NoNul p) :
    (∀ s ∈ start, s.flag = 1 ∧ s.path ∈ includes) ∧ (∀ p ∈ includes, ∃ s ∈ start, Contains s.path p) ∧
    start.Pairwise (fun a b => pathcmp a.path b.path < 0 ∧ ¬ Contains a.path b.path) := by
  obtain ⟨_, _, h3⟩ := incexcDirs_spec hcfg
  obtain ⟨o1, o2⟩ := optionList_spec 1 includes
  unfold startDirs at h3
  split at h3
  · exact absurd h3 (by simp)
  rename_i l hl
  split at h3
  · exact absurd h3 (by simp)
  obtain rfl : l = start := by simpa using h3
  obtain ⟨g1, _, g3, g4⟩ := startLoop_spec _ _ _ _ hl o1 (fun e he => hn _ ((o2 e).1 he).2) (by simp) (by simp)
    List.Pairwise.nil (by simp) (by simp)
  refine ⟨fun s hs => ?_, fun p hp => g4 ⟨p, 1⟩ ((o2 _).2 ⟨rfl, hp⟩), g3⟩
  rcases g1 s hs with h | h
  · simp at h
  · exact (o2 s).1 h

theorem governs_exists {lines : List (List Str)} {q : List Str} (h : ∃ z ∈ lines, z <+: q) :
    ∃ x, Governs lines x q := by
  induction lines with
  | nil => simp at h
  | cons l ls ih =>
    by_cases h1 : ∃ z ∈ ls, z <+: q
    · obtain ⟨x, hx1, hx2, hx3⟩ := ih h1
      by_cases h2 : l <+: q ∧ ¬ l <+: x
      · refine ⟨l, by simp, h2.1, ?_⟩
        intro y hy hyq
        rcases List.mem_cons.1 hy with rfl | hy
        · exact List.prefix_refl _
        · have := hx3 y hy hyq
          rcases List.prefix_or_prefix_of_prefix hyq h2.1 with h | h
          · exact h
          · exact absurd (h.trans this) h2.2
      · refine ⟨x, by simp [hx1], hx2, ?_⟩
        intro y hy hyq
        rcases List.mem_cons.1 hy with rfl | hy
        · apply Classical.byContradiction
          intro h3
          exact h2 ⟨hyq, h3⟩
        · exact hx3 y hy hyq
    · obtain ⟨z, hz, hzq⟩ := h
      rcases List.mem_cons.1 hz with rfl | hz
      · refine ⟨z, by simp, hzq, ?_⟩
        intro y hy hyq
        rcases List.mem_cons.1 hy with rfl | hy
        · exact List.prefix_refl _
        · exact absurd ⟨y, hy, hyq⟩ h1
      · exact absurd ⟨z, hz, hzq⟩ h1

theorem governs_unique {lines : List (List Str)} {x y q : List Str} (hx : Governs lines x q)
    (hy : Governs lines y q) : x = y :=
  List.IsPrefix.eq_of_length (hy.2.2 x hx.1 hx.2.1)
    (Nat.le_antisymm (hy.2.2 x hx.1 hx.2.1).length_le (hx.2.2 y hy.1 hy.2.1).length_le)

/-- All that the configuration and the file system have to meet. -/
structure Setting (includes excludes : List (List Str)) (dirs start : List Elem) (c : Find.Conf)
    (t : Tree) (depth : Nat) : Prop where
  goodLines : ∀ l ∈ includes ++ excludes, ∀ n ∈ l, GoodName n
  cfg : configure (includes.map renderPath) (excludes.map renderPath) = some (dirs, start)
  conf : c.incexcdir = dirs
  tree : GoodTree t depth
  nested : NoNested includes excludes (NotFiltered c)

variable {includes excludes : List (List Str)} {dirs start : List Elem} {c : Find.Conf} {t : Tree} {depth : Nat}

theorem Setting.included (s : Setting includes excludes dirs start c t depth) {e : List Str}
    (he : ∀ n ∈ e, GoodName n) (hz : ∃ z ∈ includes, z <+: e) :
    Find.isIncludedNoIncext c (renderPath e) = true ↔ LetIn includes excludes (NotFiltered c) e := by
  obtain ⟨z, hz, hze⟩ := hz
  obtain ⟨x, hx⟩ := governs_exists (lines := includes ++ excludes) (q := e) ⟨z, by simp [hz], hze⟩
  have hlines : ∀ p ∈ includes.map renderPath ++ excludes.map renderPath, ∃ l ∈ includes ++ excludes, p = renderPath l := by
    intro p hp
    rw [← List.map_append] at hp
    obtain ⟨l, h1, h2⟩ := List.mem_map.1 hp
    exact ⟨l, h1, h2.symm⟩
  have hxg := s.goodLines x hx.1
  have h := C41_configured_partial _ _ _ _ s.cfg c s.conf (renderPath e) (renderPath x)
    (by
      intro p hp
      obtain ⟨l, h1, rfl⟩ := hlines p hp
      exact render_noNul (s.goodLines l h1))
    (render_noNul he)
    (by rw [← List.map_append]; exact List.mem_map_of_mem hx.1)
    ((contains_render hxg he).2 hx.2.1)
    (by
      intro p hp hc
      obtain ⟨l, h1, rfl⟩ := hlines p hp
      have h2 := (contains_render (s.goodLines l h1) he).1 hc
      exact (contains_prefix ((contains_render (s.goodLines l h1) hxg).2 (hx.2.2 l h1 h2))).length_le)
  rw [h]
  unfold LetIn
  refine and_congr_right (fun _ => ?_)
  constructor
  · intro h1
    obtain ⟨l, h2, h3⟩ := List.mem_map.1 h1
    obtain rfl := render_inj (s.goodLines l (by simp [h2])) hxg h3
    exact ⟨l, h2, hx⟩
  · rintro ⟨y, hy, hg⟩
    obtain rfl := governs_unique hx hg
    exact List.mem_map_of_mem hy

/-- The list is in order and consists of the paths with a property. -/
def Listing (l : List Str) (S : List Str → Prop) : Prop :=
  l.Pairwise (fun a b => pathcmp a b < 0) ∧ ∀ s, s ∈ l ↔ ∃ q, s = renderPath q ∧ S q

theorem Listing.append {l1 l2 : List Str} {S1 S2 : List Str → Prop} (h1 : Listing l1 S1) (h2 : Listing l2 S2)
    (h : ∀ q r, S1 q → S2 r → pathcmp (renderPath q) (renderPath r) < 0) :
    Listing (l1 ++ l2) (fun q => S1 q ∨ S2 q) := by
  refine ⟨?_, ?_⟩
  · rw [List.pairwise_append]
    refine ⟨h1.1, h2.1, ?_⟩
    intro a ha b hb
    obtain ⟨q, rfl, hq⟩ := (h1.2 a).1 ha
    obtain ⟨r, rfl, hr⟩ := (h2.2 b).1 hb
    exact h q r hq hr
  · intro s
    rw [List.mem_append, h1.2, h2.2]
    grind

theorem Listing.congr {l : List Str} {S1 S2 : List Str → Prop} (h1 : Listing l S1) (h : ∀ q, S1 q ↔ S2 q) :
    Listing l S2 := by
  refine ⟨h1.1, fun s => ?_⟩
  rw [h1.2]
  simp [h]

/-- `q` is there, beneath `p`, and is reached from `p`. -/
def ReachedFrom (includes excludes : List (List Str)) (c : Find.Conf) (t : Tree) (p q : List Str) : Prop :=
  p <+: q ∧ t q ≠ .missing ∧ ∃ x ∈ includes, Governs (includes ++ excludes) x q ∧
    ∀ a, x <+: a → a ≠ x → p <+: a → a ≠ p → a <+: q → NotFiltered c (renderPath a)

theorem Setting.findIncluded_spec (s : Setting includes excludes dirs start c t depth)
    {find : Str → Option (List Str)} {e : List Str} (he : ∀ n ∈ e, GoodName n)
    (xs : List Elem) (hxs : ∀ x ∈ xs, x ∈ dirs) (hsort : xs.Pairwise (fun a b => pathcmp a.path b.path < 0))
    (hanti : ∀ x ∈ includes, ∀ y ∈ includes, e <+: x → x <+: y → x = y)
    (hfind : ∀ x ∈ includes, e <+: x →
      ∃ l, find (renderPath x) = some l ∧ Listing l (ReachedFrom includes excludes c t x)) :
    ∃ l, findIncluded find (renderPath e) xs = some l ∧
      Listing l (fun q => ∃ x ∈ includes, (⟨renderPath x, 1⟩ : Elem) ∈ xs ∧ e <+: x ∧
        ReachedFrom includes excludes c t x q) := by
  obtain ⟨_, hd, _⟩ := incexcDirs_spec s.cfg
  induction xs with
  | nil => exact ⟨[], rfl, List.Pairwise.nil, by simp⟩
  | cons x xs ih =>
    rw [List.pairwise_cons] at hsort
    obtain ⟨l2, h1, h2⟩ := ih (fun x hx => hxs x (by simp [hx])) hsort.2
    rw [findIncluded]
    split
    · rename_i hx
      simp only [Bool.and_eq_true, decide_eq_true_eq] at hx
      have hflag : x.flag = 1 ∧ x.path ∈ includes.map renderPath := by
        rcases (hd x).1 (hxs x (by simp)) with h | h
        · exact h
        · exact absurd h.1 hx.1
      obtain ⟨y, hy, hyp⟩ := List.mem_map.1 hflag.2
      have hyg := s.goodLines y (by simp [hy])
      have hey : e <+: y := by
        have := hx.2
        rw [← hyp] at this
        exact (isSubdir_render he hyg).1 this
      obtain ⟨l1, g1, g2⟩ := hfind y hy hey
      rw [← hyp, g1]
      simp only [h1, Option.map_some]
      refine ⟨_, rfl, ?_⟩
      have hxe : x = ⟨renderPath y, 1⟩ := by
        obtain ⟨a, b⟩ := x
        simp only at hflag hyp
        rw [hflag.1, hyp]
      refine (Listing.append g2 h2 ?_).congr ?_
      · rintro q r ⟨hq1, hq2, _⟩ ⟨z, hz, hz1, hz2, hr1, hr2, _⟩
        have hlt := hsort.1 _ hz1
        rw [hxe] at hlt
        have hne : ¬ y <+: z := by
          intro hyz
          have := hanti y hy z hz hey hyz
          subst this
          rw [pathcmp_self] at hlt
          omega
        exact render_lt_apart hyg (s.goodLines z (by simp [hz])) (tree_good s.tree hq2) (tree_good s.tree hr2)
          hlt hne hq1 hr1
      · intro q
        constructor
        · rintro (h | ⟨z, a1, a2, a3, a4⟩)
          · exact ⟨y, hy, by rw [hxe]; simp, hey, h⟩
          · exact ⟨z, a1, by simp [a2], a3, a4⟩
        · rintro ⟨z, a1, a2, a3, a4⟩
          rcases List.mem_cons.1 a2 with a2 | a2
          · left
            rw [hxe] at a2
            have := render_inj (s.goodLines z (by simp [a1])) hyg (by simpa using a2)
            subst this
            exact a4
          · exact Or.inr ⟨z, a1, a2, a3, a4⟩
    · rename_i hx
      refine ⟨l2, h1, h2.congr ?_⟩
      intro q
      constructor
      · rintro ⟨z, a1, a2, a3, a4⟩
        exact ⟨z, a1, by simp [a2], a3, a4⟩
      · rintro ⟨z, a1, a2, a3, a4⟩
        rcases List.mem_cons.1 a2 with a2 | a2
        · exfalso
          apply hx
          rw [← a2]
          simp only [Bool.and_eq_true, decide_eq_true_eq]
          exact ⟨by decide, (isSubdir_render he (s.goodLines z (by simp [a1]))).2 a3⟩
        · exact ⟨z, a1, a2, a3, a4⟩

theorem Setting.name_spec (s : Setting includes excludes dirs start c t depth)
    {find : Str → Option (List Str)} {p : List Str} {n : Str} (he : ∀ x ∈ p ++ [n], GoodName x)
    (hp : ∃ x ∈ includes, Governs (includes ++ excludes) x p)
    (hfind : ∀ x, (∃ y ∈ includes, Governs (includes ++ excludes) y x) → (∀ m ∈ x, GoodName m) → p ++ [n] <+: x →
      ∃ l, find (renderPath x) = some l ∧ Listing l (ReachedFrom includes excludes c t x)) :
    ∃ l, (if Find.isIncludedNoIncext c (renderPath (p ++ [n])) then find (renderPath (p ++ [n]))
        else findIncluded find (renderPath (p ++ [n])) c.incexcdir) = some l ∧
      Listing l (fun q => p ++ [n] <+: q ∧ ReachedFrom includes excludes c t p q) := by
  obtain ⟨z, hz, hzg⟩ := hp
  have hpe : p <+: p ++ [n] := List.prefix_append _ _
  have hze : z <+: p ++ [n] := hzg.2.1.trans hpe
  have hne : ∀ w : List Str, w <+: p → w ≠ p ++ [n] := by
    intro w hw h
    have := hw.length_le
    rw [h] at this
    simp only [List.length_append, List.length_singleton] at this
    omega
  have hinc := s.included he ⟨z, hz, hze⟩
  split
  · rename_i hi
    rw [hinc] at hi
    obtain ⟨l, h1, h2⟩ := hfind (p ++ [n]) hi.2 he (List.prefix_refl _)
    refine ⟨l, h1, h2.congr ?_⟩
    intro q
    unfold ReachedFrom
    constructor
    · rintro ⟨a1, a2, x, a3, a4, a5⟩
      refine ⟨a1, hpe.trans a1, a2, x, a3, a4, ?_⟩
      intro a b1 b2 b3 b4 b5
      by_cases hae : a = p ++ [n]
      · rw [hae]; exact hi.1
      · refine a5 a b1 b2 ?_ hae b5
        rcases List.prefix_or_prefix_of_prefix a1 b5 with h | h
        · exact h
        · exfalso
          have l1 := h.length_le
          have l2 := b3.length_le
          simp at l1
          rcases Nat.lt_or_ge p.length a.length with h3 | h3
          · exact hae (List.IsPrefix.eq_of_length h (by simp; omega))
          · exact b4 (List.IsPrefix.eq_of_length b3 (by omega)).symm
    · rintro ⟨a1, _, a2, x, a3, a4, a5⟩
      refine ⟨a1, a2, x, a3, a4, ?_⟩
      intro a b1 b2 b3 b4 b5
      refine a5 a b1 b2 (hpe.trans b3) ?_ b5
      intro hap
      rw [hap] at b3
      exact hne _ (List.prefix_refl _) (List.IsPrefix.eq_of_length hpe (Nat.le_antisymm hpe.length_le b3.length_le))
  · rename_i hi
    rw [hinc] at hi
    obtain ⟨hsort, hmem, _⟩ := incexcDirs_spec s.cfg
    have hself : ∀ x ∈ includes, Governs (includes ++ excludes) x x :=
      fun x hx => ⟨by simp [hx], List.prefix_refl _, fun y _ h => h⟩
    obtain ⟨l, h1, h2⟩ := s.findIncluded_spec he dirs (fun _ h => h) hsort
      (by
        intro x hx y hy hex hxy
        apply Classical.byContradiction
        intro hxy'
        exact hi (s.nested x hx y hy hxy hxy' z hz _ hze (hne z hzg.2.1) hex))
      (fun x hx hex => hfind x ⟨x, hx, hself x hx⟩ (s.goodLines x (by simp [hx])) hex)
    rw [s.conf]
    refine ⟨l, h1, h2.congr ?_⟩
    intro q
    unfold ReachedFrom
    constructor
    · rintro ⟨x, a1, _, a3, a4, a5, y, a6, a7, a8⟩
      refine ⟨a3.trans a4, (hpe.trans a3).trans a4, a5, y, a6, a7, ?_⟩
      intro a b1 b2 _ _ b5
      have hxy : x <+: y := a7.2.2 x (by simp [a1]) a4
      refine a8 a b1 b2 (hxy.trans b1) ?_ b5
      intro hax
      rw [hax] at b1 b2
      exact b2 (List.IsPrefix.eq_of_length hxy (Nat.le_antisymm hxy.length_le b1.length_le))
    · rintro ⟨a1, _, a2, x, a3, a4, a5⟩
      have hex : p ++ [n] <+: x := by
        rcases List.prefix_or_prefix_of_prefix a1 a4.2.1 with h | h
        · exact h
        · by_cases hxe : x = p ++ [n]
          · rw [hxe]; exact List.prefix_refl _
          · exfalso
            apply hi
            refine ⟨a5 _ h (Ne.symm hxe) hpe (fun hh => hne p (List.prefix_refl _) hh.symm) a1, x, a3, a4.1, h, ?_⟩
            intro y hy hye
            exact a4.2.2 y hy (hye.trans a1)
      refine ⟨x, a3, ?_, hex, a4.2.1, a2, x, a3, a4, fun a b1 b2 _ _ b5 => a5 a b1 b2 ?_ ?_ b5⟩
      · exact (hmem _).2 (Or.inl ⟨rfl, List.mem_map_of_mem a3⟩)
      · exact (hpe.trans hex).trans b1
      · intro hap
        rw [hap] at b1
        have := (hex.trans b1).length_le
        simp only [List.length_append, List.length_singleton] at this
        omega

theorem Setting.entries_spec (s : Setting includes excludes dirs start c t depth)
    {find : Str → Option (List Str)} {p : List Str} (hpg : ∀ x ∈ p, GoodName x)
    (hp : ∃ x ∈ includes, Governs (includes ++ excludes) x p)
    (ns : List Str) (hns : ∀ n ∈ ns, GoodName n) (hsort : ns.Pairwise (fun a b => pathcmp a b < 0))
    (hfind : ∀ n ∈ ns, ∀ x, (∃ y ∈ includes, Governs (includes ++ excludes) y x) → (∀ m ∈ x, GoodName m) →
      p ++ [n] <+: x → ∃ l, find (renderPath x) = some l ∧ Listing l (ReachedFrom includes excludes c t x)) :
    ∃ l, processEntries find c (dirPrefix (renderPath p)) ns = some l ∧
      Listing l (fun q => ∃ n ∈ ns, p ++ [n] <+: q ∧ ReachedFrom includes excludes c t p q) := by
  induction ns with
  | nil => exact ⟨[], rfl, List.Pairwise.nil, by simp⟩
  | cons n ns ih =>
    rw [List.pairwise_cons] at hsort
    have heg : ∀ m ∈ n :: ns, ∀ x ∈ p ++ [m], GoodName x := by
      intro m hm x hx
      rcases List.mem_append.1 hx with h | h
      · exact hpg x h
      · obtain rfl := List.mem_singleton.1 h
        exact hns _ hm
    obtain ⟨l2, h1, h2⟩ := ih (fun m hm => hns m (by simp [hm])) hsort.2 (fun m hm => hfind m (by simp [hm]))
    obtain ⟨l1, g1, g2⟩ := s.name_spec (heg n (by simp)) hp (hfind n (by simp))
    rw [processEntries, dirPrefix_render hpg, g1, h1]
    refine ⟨l1 ++ l2, rfl, (Listing.append g2 h2 ?_).congr ?_⟩
    · rintro q r ⟨a1, _, a2, _⟩ ⟨m, hm, b1, _, b2, _⟩
      refine render_lt_apart (heg n (by simp)) (heg m (by simp [hm])) (tree_good s.tree a2) (tree_good s.tree b2) ?_ ?_ a1 b1
      · rw [← dirPrefix_render hpg, ← dirPrefix_render hpg, pathcmp_append_left]
        exact hsort.1 m hm
      · intro h
        have h3 := List.IsPrefix.eq_of_length h (by simp)
        have h4 : n = m := by simpa using h3
        have := hsort.1 m hm
        rw [h4, pathcmp_self] at this
        omega
    · intro q
      simp only [List.mem_cons]
      grind

theorem Setting.findFiles_spec (s : Setting includes excludes dirs start c t depth) (n : Nat) :
    ∀ p, (∀ x ∈ p, GoodName x) → (∃ x ∈ includes, Governs (includes ++ excludes) x p) →
    1 ≤ n → depth < p.length + n →
    ∃ l, findFiles c t n (renderPath p) = some l ∧ Listing l (ReachedFrom includes excludes c t p) := by
  induction n with
  | zero => intro p _ _ h; omega
  | succ n ih =>
    intro p hpg hp _ hd
    have hself : t p ≠ .missing → ReachedFrom includes excludes c t p p := by
      intro h
      obtain ⟨x, hx, hg⟩ := hp
      refine ⟨List.prefix_refl _, h, x, hx, hg, ?_⟩
      intro a _ _ h1 h2 h3
      exact absurd (List.IsPrefix.eq_of_length h3 (Nat.le_antisymm h3.length_le h1.length_le)) h2
    rw [findFiles, lstat, components_render hpg]
    cases ht : t p with
    | missing =>
      refine ⟨[], rfl, List.Pairwise.nil, ?_⟩
      intro s'
      simp only [List.not_mem_nil, false_iff, not_exists, not_and]
      rintro q - ⟨h1, h2, _⟩
      exact tree_parent s.tree h1 h2 ht
    | file =>
      refine ⟨[renderPath p], rfl, List.pairwise_singleton _ _, ?_⟩
      intro s'
      rw [List.mem_singleton]
      constructor
      · rintro rfl
        exact ⟨p, rfl, hself (by rw [ht]; simp)⟩
      · rintro ⟨q, rfl, h1, h2, _⟩
        by_cases hqp : q = p
        · rw [hqp]
        · obtain ⟨ns, c', h3, _⟩ := tree_child s.tree h1 hqp h2
          rw [ht] at h3
          simp at h3
    | dir ns =>
      obtain ⟨hnd, hgn⟩ := s.tree.names p ns ht
      obtain ⟨as1, as2⟩ := alphasort_spec ns hnd
      obtain ⟨l, h1, h2⟩ := s.entries_spec (find := findFiles c t n) hpg hp (alphasort ns)
        (fun m hm => hgn m ((as2 m).1 hm)) as1
        (by
          intro m hm x hx hxg hpx
          have hex : t (p ++ [m]) ≠ .missing := (s.tree.there _ _).2 ⟨ns, ht, (as2 m).1 hm⟩
          have hl := s.tree.depth _ hex
          have hl2 := hpx.length_le
          simp at hl hl2
          exact ih x hxg hx (by omega) (by omega))
      simp only [h1, Option.map_some]
      refine ⟨_, rfl, ?_, ?_⟩
      · rw [List.pairwise_cons]
        refine ⟨?_, h2.1⟩
        intro a ha
        obtain ⟨q, rfl, m, _, hq1, hq2, hq3, _⟩ := (h2.2 a).1 ha
        refine render_lt_of_prefix hpg (tree_good s.tree hq3) hq2 ?_
        intro h
        have := hq1.length_le
        rw [← h] at this
        simp only [List.length_append, List.length_singleton] at this
        omega
      · intro s'
        rw [List.mem_cons, h2.2]
        constructor
        · rintro (rfl | ⟨q, rfl, m, _, _, hq⟩)
          · exact ⟨p, rfl, hself (by rw [ht]; simp)⟩
          · exact ⟨q, rfl, hq⟩
        · rintro ⟨q, rfl, hq⟩
          by_cases hqp : q = p
          · left; rw [hqp]
          · right
            obtain ⟨ns', m, h3, h4, h5⟩ := tree_child s.tree hq.1 hqp hq.2.1
            rw [ht] at h3
            simp only [Node.dir.injEq] at h3
            subst h3
            exact ⟨q, rfl, m, (as2 m).2 h4, h5, hq⟩

theorem Setting.scan_spec (s : Setting includes excludes dirs start c t depth) (n : Nat) (hn : depth < n)
    (ss : List Elem) (hss : ∀ x ∈ ss, x ∈ start) (hsort : ss.Pairwise (fun a b => pathcmp a.path b.path < 0 ∧
      ¬ Contains a.path b.path)) :
    ∃ l, scan c t n ss = some l ∧
      Listing l (fun q => ∃ x ∈ includes, (⟨renderPath x, 1⟩ : Elem) ∈ ss ∧ ReachedFrom includes excludes c t x q) := by
  obtain ⟨hst, _, _⟩ := startDirs_sorted s.cfg (by
    intro p hp
    obtain ⟨l, h1, rfl⟩ := List.mem_map.1 hp
    exact render_noNul (s.goodLines l (by simp [h1])))
  induction ss with
  | nil => exact ⟨[], rfl, List.Pairwise.nil, by simp⟩
  | cons x xs ih =>
    rw [List.pairwise_cons] at hsort
    obtain ⟨l2, h1, h2⟩ := ih (fun x hx => hss x (by simp [hx])) hsort.2
    obtain ⟨hflag, hpath⟩ := hst x (hss x (by simp))
    obtain ⟨y, hy, hyp⟩ := List.mem_map.1 hpath
    have hyg := s.goodLines y (by simp [hy])
    have hxe : x = ⟨renderPath y, 1⟩ := by
      obtain ⟨a, b⟩ := x
      simp only at hflag hyp
      rw [hflag, hyp]
    obtain ⟨l1, g1, g2⟩ := s.findFiles_spec n y hyg
      ⟨y, hy, by simp [hy], List.prefix_refl _, fun z _ h => h⟩ (by omega) (by omega)
    rw [scan, if_pos (by rw [hflag]; decide), ← hyp, g1, h1]
    refine ⟨l1 ++ l2, rfl, (Listing.append g2 h2 ?_).congr ?_⟩
    · rintro q r ⟨hq1, hq2, _⟩ ⟨z, hz, hz1, hr1, hr2, _⟩
      obtain ⟨hlt, hnc⟩ := hsort.1 _ hz1
      rw [hxe] at hlt hnc
      have hzg := s.goodLines z (by simp [hz])
      exact render_lt_apart hyg hzg (tree_good s.tree hq2) (tree_good s.tree hr2) hlt
        (fun h => hnc ((contains_render hyg hzg).2 h)) hq1 hr1
    · intro q
      constructor
      · rintro (h | ⟨z, a1, a2, a3⟩)
        · exact ⟨y, hy, by rw [hxe]; simp, h⟩
        · exact ⟨z, a1, by simp [a2], a3⟩
      · rintro ⟨z, a1, a2, a3⟩
        rcases List.mem_cons.1 a2 with a2 | a2
        · left
          rw [hxe] at a2
          have := render_inj (s.goodLines z (by simp [a1])) hyg (by simpa using a2)
          subst this
          exact a3
        · exact Or.inr ⟨z, a1, a2, a3⟩

/-- C62: for every configuration and every file system, the scan visits the files that are wanted and no
others, each of them once, and in path order; provided that no included directory that contains another
one lies beneath something that is left out. -/
theorem C62_scan_partial (includes excludes : List (List Str)) (dirs start : List Elem) (c : Find.Conf)
    (t : Tree) (depth fuel : Nat)
    (hgood : ∀ l ∈ includes ++ excludes, ∀ n ∈ l, GoodName n)
    (hcfg : configure (includes.map renderPath) (excludes.map renderPath) = some (dirs, start))
    (hconf : c.incexcdir = dirs) (htree : GoodTree t depth)
    (hnest : NoNested includes excludes (NotFiltered c)) (hfuel : depth < fuel) :
    ∃ l, scan c t fuel start = some l ∧ l.Pairwise (fun a b => pathcmp a b < 0) ∧
      ∀ s, s ∈ l ↔ ∃ q, s = renderPath q ∧ t q ≠ .missing ∧ Wanted includes excludes (NotFiltered c) q := by
  have s : Setting includes excludes dirs start c t depth := ⟨hgood, hcfg, hconf, htree, hnest⟩
  obtain ⟨hst1, hst2, hst3⟩ := startDirs_sorted hcfg (by
    intro p hp
    obtain ⟨l, h1, rfl⟩ := List.mem_map.1 hp
    exact render_noNul (hgood l (by simp [h1])))
  obtain ⟨l, h1, h2⟩ := s.scan_spec fuel hfuel start (fun _ h => h) hst3
  refine ⟨l, h1, h2.1, ?_⟩
  intro p
  rw [h2.2]
  refine exists_congr (fun q => and_congr_right (fun _ => ?_))
  constructor
  · rintro ⟨x, a1, a2, a3, a4, y, a5, a6, a7⟩
    refine ⟨a4, y, a5, a6, ?_⟩
    intro a b1 b2 b3
    have hxy : x <+: y := a6.2.2 x (by simp [a1]) a3
    refine a7 a b1 b2 (hxy.trans b1) ?_ b3
    intro h
    rw [h] at b1 b2
    exact b2 (List.IsPrefix.eq_of_length hxy (Nat.le_antisymm hxy.length_le b1.length_le))
  · rintro ⟨a1, y, a2, a3, a4⟩
    obtain ⟨e, he, hc⟩ := hst2 (renderPath y) (List.mem_map_of_mem a2)
    obtain ⟨hflag, hpath⟩ := hst1 e he
    obtain ⟨x, hx, hxp⟩ := List.mem_map.1 hpath
    have hxg := hgood x (by simp [hx])
    have hxy : x <+: y := (contains_render hxg (hgood y (by simp [a2]))).1 (hxp ▸ hc)
    refine ⟨x, hx, ?_, hxy.trans a3.2.1, a1, y, a2, a3, fun a b1 b2 _ _ b3 => a4 a b1 b2 b3⟩
    obtain ⟨ep, ef⟩ := e
    simp only at hflag hxp
    rw [hxp, ← hflag]
    exact he

/-- An instance: `/a`, `/a/b`, `/a/b/c` and `/z`. -/
def exTree : Tree := fun p =>
  if p = [] then .dir [bytes "z", bytes "a"]
  else if p = [bytes "a"] then .dir [bytes "b"]
  else if p = [bytes "a", bytes "b"] then .dir [bytes "c"]
  else if p = [bytes "a", bytes "b", bytes "c"] ∨ p = [bytes "z"] then .file
  else .missing

theorem exTree_good : GoodTree exTree 3 := by
  have ha : bytes "a" ≠ bytes "b" ∧ bytes "a" ≠ bytes "c" ∧ bytes "a" ≠ bytes "z" ∧ bytes "b" ≠ bytes "c" ∧
    bytes "b" ≠ bytes "z" ∧ bytes "c" ≠ bytes "z" := by decide
  have hg : GoodName (bytes "a") ∧ GoodName (bytes "b") ∧ GoodName (bytes "c") ∧ GoodName (bytes "z") := by
    unfold GoodName NoNul; decide
  have cases4 : ∀ p : List Str, p = [] ∨ (∃ x, p = [x]) ∨ (∃ x y, p = [x, y]) ∨ (∃ x y z, p = [x, y, z]) ∨
      ∃ x y z w r, p = x :: y :: z :: w :: r := by
    intro p
    match p with
    | [] => simp
    | [x] => simp
    | [x, y] => simp
    | [x, y, z] => simp
    | x :: y :: z :: w :: r => right; right; right; right; exact ⟨x, y, z, w, r, rfl⟩
  refine ⟨?_, ?_, ?_⟩
  · intro p ns h
    unfold exTree at h
    split at h
    · obtain rfl := Node.dir.inj h
      refine ⟨by decide, ?_⟩
      simp [hg]
    · split at h
      · obtain rfl := Node.dir.inj h
        simp [hg]
      · split at h
        · obtain rfl := Node.dir.inj h
          simp [hg]
        · split at h <;> exact absurd h (by simp)
  · intro p c
    obtain ⟨h1, h2, h3, h4, h5, h6⟩ := ha
    rcases cases4 p with rfl | ⟨x, rfl⟩ | ⟨x, y, rfl⟩ | ⟨x, y, z, rfl⟩ | ⟨x, y, z, w, r, rfl⟩ <;>
      simp only [exTree, List.nil_append, List.cons_append, List.cons.injEq, reduceCtorEq, if_false, and_false,
        false_and, or_false, false_or, and_true, if_true]
    · by_cases e1 : c = bytes "a"
      · simp [e1]
      · by_cases e2 : c = bytes "z" <;> simp [e1, e2, Ne.symm h3]
    · by_cases e1 : x = bytes "a"
      · by_cases e2 : c = bytes "b" <;> simp [e1, e2]
      · by_cases e2 : x = bytes "z" <;> simp [e1, e2, Ne.symm h3]
    · by_cases e1 : x = bytes "a" ∧ y = bytes "b"
      · by_cases e2 : c = bytes "c" <;> simp [e1, e2]
      · have : ¬ (x = bytes "a" ∧ y = bytes "b" ∧ c = bytes "c") := fun h => e1 ⟨h.1, h.2.1⟩
        simp [e1, this]
    · by_cases e1 : x = bytes "a" ∧ y = bytes "b" ∧ z = bytes "c" <;> simp [e1]
    · simp
  · intro p h
    rcases cases4 p with rfl | ⟨x, rfl⟩ | ⟨x, y, rfl⟩ | ⟨x, y, z, rfl⟩ | ⟨x, y, z, w, r, rfl⟩ <;>
      simp_all [exTree]

def exIncludes : List (List Str) := [[], [bytes "a", bytes "b"]]
def exExcludes : List (List Str) := [[bytes "a"]]
def exDirs : List Elem := [⟨bytes "/", 1⟩, ⟨bytes "/a", 0⟩, ⟨bytes "/a/b", 1⟩]

theorem exLines_good : (∀ l ∈ exIncludes ++ exExcludes, ∀ n ∈ l, GoodName n) ∧
    configure (exIncludes.map renderPath) (exExcludes.map renderPath) = some (exDirs, [⟨bytes "/", 1⟩]) ∧
    NoNested exIncludes exExcludes (NotFiltered ⟨[], [], [], [], exDirs, 0, 0⟩) ∧
    scan ⟨[], [], [], [], exDirs, 0, 0⟩ exTree 4 [⟨bytes "/", 1⟩] =
      some [bytes "/", bytes "/a/b", bytes "/a/b/c", bytes "/z"] := by
  refine ⟨by unfold GoodName NoNul; decide, by decide, ?_, by decide⟩
  intro x hx y hy hxy hne z hz e hze hne' hex
  have hxy' : x = [] := by
    simp only [exIncludes, List.mem_cons, List.not_mem_nil, or_false] at hx hy
    rcases hx with rfl | rfl
    · rfl
    · rcases hy with rfl | rfl
      · simp at hxy
      · exact absurd rfl hne
  rw [hxy', List.prefix_nil] at hex
  rw [hex, List.prefix_nil] at hze
  exact absurd (hze.trans hex.symm) hne'

/-- C62 does not hold without that condition: here `/a` is excluded and `/a/b` and `/a/b/c` are included, and
`/a/b/c` is visited twice. -/
theorem C62_nested_violated : ∃ (includes excludes : List (List Str)) (dirs start : List Elem) (l : List Str),
    configure (includes.map renderPath) (excludes.map renderPath) = some (dirs, start) ∧ GoodTree exTree 3 ∧
    scan ⟨[], [], [], [], dirs, 0, 0⟩ exTree 4 start = some l ∧ ¬ l.Nodup :=
  ⟨[[], [bytes "a", bytes "b"], [bytes "a", bytes "b", bytes "c"]], [[bytes "a"]],
    [⟨bytes "/", 1⟩, ⟨bytes "/a", 0⟩, ⟨bytes "/a/b", 1⟩, ⟨bytes "/a/b/c", 1⟩], [⟨bytes "/", 1⟩],
    [bytes "/", bytes "/a/b", bytes "/a/b/c", bytes "/a/b/c", bytes "/z"], by decide, exTree_good,
    by decide, by decide⟩

end Verif
