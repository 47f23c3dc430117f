import Verif.Spec.Scan
import Verif.Props.Incexc

/-! # Paths as lists of names -/

namespace Verif
open Verif.Scan Verif.PathCmp

/-- The text of a path but for the root. -/
def joinPath (cs : List Str) : Str := cs.flatMap (fun c => slash :: c)

theorem renderPath_ne {p : List Str} (h : p ≠ []) : renderPath p = joinPath p := by
  cases p with
  | nil => exact absurd rfl h
  | cons => rfl

theorem splitSep_at_slash (c r : Str) (h : slash ∉ c) :
    splitSep slash (c ++ slash :: r) = c :: splitSep slash r := by
  induction c with
  | nil => simp [splitSep]
  | cons x c ih =>
    simp only [List.mem_cons, not_or] at h
    simp only [List.cons_append, splitSep, if_neg (Ne.symm h.1), ih h.2]

theorem splitSep_no_slash (c : Str) (h : slash ∉ c) : splitSep slash c = [c] := by
  induction c with
  | nil => simp [splitSep]
  | cons x c ih =>
    simp only [List.mem_cons, not_or] at h
    simp only [splitSep, if_neg (Ne.symm h.1), ih h.2]

theorem splitSep_joinPath (c : Str) (cs : List Str) (h : slash ∉ c) (hs : ∀ c ∈ cs, slash ∉ c) :
    splitSep slash (c ++ joinPath cs) = c :: cs := by
  induction cs generalizing c with
  | nil => simpa [joinPath] using splitSep_no_slash c h
  | cons d cs ih =>
    have : c ++ joinPath (d :: cs) = c ++ slash :: (d ++ joinPath cs) := by simp [joinPath]
    rw [this, splitSep_at_slash _ _ h, ih d (hs d (by simp)) (fun c hc => hs c (by simp [hc]))]

theorem components_render {p : List Str} (h : ∀ c ∈ p, GoodName c) : components (renderPath p) = p := by
  cases p with
  | nil => decide
  | cons c cs =>
    have e : renderPath (c :: cs) = ([] : Str) ++ joinPath (c :: cs) := by simp [renderPath, joinPath]
    unfold components
    rw [e, splitSep_joinPath [] (c :: cs) (by simp) (fun d hd => (h d hd).2.1)]
    have := List.filter_eq_self.2 (fun a (ha : a ∈ c :: cs) => show (!a.isEmpty) = true by
      have := (h a ha).1
      simpa using this)
    rw [List.filter_cons_of_neg (by simp)]
    exact this

theorem render_inj {p q : List Str} (hp : ∀ c ∈ p, GoodName c) (hq : ∀ c ∈ q, GoodName c)
    (h : renderPath p = renderPath q) : p = q := by
  rw [← components_render hp, ← components_render hq, h]

theorem render_noNul {p : List Str} (h : ∀ c ∈ p, GoodName c) : NoNul (renderPath p) := by
  cases p with
  | nil => unfold NoNul; decide
  | cons c cs =>
    have : ∀ l : List Str, (∀ c ∈ l, GoodName c) → (0 : Byte) ∉ joinPath l := by
      intro l hl h0
      unfold joinPath at h0
      rw [List.mem_flatMap] at h0
      obtain ⟨d, hd, h0⟩ := h0
      rcases List.mem_cons.1 h0 with h0 | h0
      · exact absurd h0 (by decide)
      · exact (hl d hd).2.2 h0
    exact this _ h

theorem join_last {p : List Str} (h : ∀ c ∈ p, GoodName c) (hp : p ≠ []) :
    ∃ c x, joinPath p = x ++ [c] ∧ c ≠ slash := by
  obtain ⟨q, d, rfl⟩ : ∃ q d, p = q ++ [d] := ⟨p.dropLast, p.getLast hp, (List.dropLast_concat_getLast hp).symm⟩
  have hd := h d (by simp)
  refine ⟨d.getLast hd.1, joinPath q ++ slash :: d.dropLast, ?_, ?_⟩
  · simp [joinPath, List.flatMap_append, List.dropLast_concat_getLast]
  · intro he
    exact hd.2.1 (he ▸ List.getLast_mem hd.1)

theorem dirPrefix_render {p : List Str} (h : ∀ c ∈ p, GoodName c) (c : Str) :
    dirPrefix (renderPath p) ++ c = renderPath (p ++ [c]) := by
  by_cases hp : p = []
  · subst hp
    simp [dirPrefix, renderPath]
  · obtain ⟨l, x, h1, h2⟩ := join_last h hp
    rw [renderPath_ne hp, renderPath_ne (by simp)]
    unfold dirPrefix
    have : (joinPath p).reverse.dropWhile (· = slash) = (joinPath p).reverse := by
      rw [h1]; simp [h2]
    rw [this]
    simp [joinPath, List.flatMap_append]

/-- Cutting at the first separator. -/
theorem cut_slash {x y u v : Str} (hx : slash ∉ x) (hy : slash ∉ y)
    (hu : u = [] ∨ u.head? = some slash) (hv : v = [] ∨ v.head? = some slash) (h : x ++ u = y ++ v) :
    x = y ∧ u = v := by
  induction x generalizing y with
  | nil =>
    cases y with
    | nil => exact ⟨rfl, h⟩
    | cons b y =>
      exfalso
      simp only [List.mem_cons, not_or] at hy
      rcases hu with rfl | hu
      · simp at h
      · rw [List.nil_append] at h
        rw [h] at hu
        simp at hu
        exact hy.1 hu.symm
  | cons a x ih =>
    cases y with
    | nil =>
      exfalso
      simp only [List.mem_cons, not_or] at hx
      rcases hv with rfl | hv
      · simp at h
      · rw [List.nil_append] at h
        rw [← h] at hv
        simp at hv
        exact hx.1 hv.symm
    | cons b y =>
      simp only [List.cons_append, List.cons.injEq] at h
      simp only [List.mem_cons, not_or] at hx hy
      obtain ⟨h1, h2⟩ := ih hx.2 hy.2 h.2
      exact ⟨by rw [h.1, h1], h2⟩

theorem join_head (cs : List Str) : joinPath cs = [] ∨ (joinPath cs).head? = some slash := by
  cases cs <;> simp [joinPath]

theorem join_prefix {a b : List Str} (ha : ∀ c ∈ a, GoodName c) (hb : ∀ c ∈ b, GoodName c) {y : Str}
    (hy : y = [] ∨ y.head? = some slash) (h : joinPath b = joinPath a ++ y) : a <+: b := by
  induction a generalizing b with
  | nil => exact List.nil_prefix
  | cons x a ih =>
    cases b with
    | nil => simp [joinPath] at h
    | cons z b =>
      have e1 : joinPath (z :: b) = slash :: (z ++ joinPath b) := by simp [joinPath]
      have e2 : joinPath (x :: a) = slash :: (x ++ joinPath a) := by simp [joinPath]
      rw [e1, e2, List.cons_append, List.append_assoc] at h
      obtain ⟨h1, h2⟩ := cut_slash (hb z (by simp)).2.1 (ha x (by simp)).2.1 (join_head b)
        (by
          rcases join_head a with h | h
          · rw [h]; simpa using hy
          · cases hj : joinPath a with
            | nil => rw [hj] at h; simp at h
            | cons c cs => rw [hj] at h; simpa using h) (List.cons.inj h).2
      rw [h1, List.prefix_cons_inj]
      exact ih (fun c hc => ha c (by simp [hc])) (fun c hc => hb c (by simp [hc])) h2

theorem contains_render {a b : List Str} (ha : ∀ c ∈ a, GoodName c) (hb : ∀ c ∈ b, GoodName c) :
    Contains (renderPath a) (renderPath b) ↔ a <+: b := by
  constructor
  · intro h
    by_cases h0 : a = []
    · subst h0; exact List.nil_prefix
    · rw [renderPath_ne h0] at h
      have hlast : (joinPath a).getLast? ≠ some slash := by
        obtain ⟨c, x, h1, h2⟩ := join_last ha h0
        rw [h1]; simp [h2]
      have hlen : 2 ≤ (joinPath a).length := by
        cases a with
        | nil => exact absurd rfl h0
        | cons c cs =>
          have := List.length_pos_iff.mpr (ha c (by simp)).1
          simp [joinPath]; omega
      by_cases hb0 : b = []
      · exfalso
        subst hb0
        have := (contains_prefix h).length_le
        simp [renderPath] at this
        omega
      · rw [renderPath_ne hb0] at h
        rcases h with (h | ⟨y, h⟩) | ⟨h, _⟩
        · exact join_prefix ha hb (y := []) (Or.inl rfl) (by simpa using h)
        · exact join_prefix ha hb (Or.inr rfl) h
        · exact absurd h hlast
  · rintro ⟨r, rfl⟩
    by_cases h0 : a = []
    · subst h0
      by_cases hr : r = []
      · subst hr; exact Or.inl (Or.inl rfl)
      · right
        rw [List.nil_append, renderPath_ne hr]
        refine ⟨rfl, ?_⟩
        cases r with
        | nil => exact absurd rfl hr
        | cons c cs =>
          refine ⟨c ++ joinPath cs, ?_, by simp [joinPath, renderPath]⟩
          have := (hb c (by simp)).1
          simp [this]
    · left
      rw [renderPath_ne h0, renderPath_ne (by simp [h0])]
      by_cases hr : r = []
      · subst hr; left; simp
      · right
        cases r with
        | nil => exact absurd rfl hr
        | cons c cs => exact ⟨c ++ joinPath cs, by simp [joinPath, List.flatMap_append]⟩

theorem isSubdir_render {a b : List Str} (ha : ∀ c ∈ a, GoodName c) (hb : ∀ c ∈ b, GoodName c) :
    isSubdir (renderPath a) (renderPath b) ≠ 0 ↔ a <+: b := by
  rw [← contains_render ha hb, isSubdir_eq _ _ (render_noNul ha) (render_noNul hb)]
  unfold Contains Under
  split
  · rename_i h
    constructor
    · intro _; grind
    · intro _; omega
  · rename_i h
    simp only [ne_eq, not_true_eq_false, false_iff]
    grind

theorem render_lt_of_prefix {a b : List Str} (ha : ∀ c ∈ a, GoodName c) (hb : ∀ c ∈ b, GoodName c)
    (h : a <+: b) (hne : a ≠ b) : pathcmp (renderPath a) (renderPath b) < 0 := by
  have hc := contains_prefix ((contains_render ha hb).2 h)
  obtain ⟨y, hy⟩ := hc
  cases y with
  | nil => exact absurd (render_inj ha hb (by simpa using hy)) hne
  | cons c r => rw [← hy]; exact pathcmp_prefix _ _ _

/-- Of two directories neither of which contains the other, everything beneath the first comes before
everything beneath the second. -/
theorem render_lt_apart {a b q r : List Str} (ha : ∀ c ∈ a, GoodName c) (hb : ∀ c ∈ b, GoodName c)
    (hq : ∀ c ∈ q, GoodName c) (hr : ∀ c ∈ r, GoodName c)
    (h : pathcmp (renderPath a) (renderPath b) < 0) (hab : ¬ a <+: b) (haq : a <+: q) (hbr : b <+: r) :
    pathcmp (renderPath q) (renderPath r) < 0 := by
  apply Classical.byContradiction
  intro h1
  have hbr' : pathcmp (renderPath b) (renderPath r) ≤ 0 := by
    by_cases e : b = r
    · subst e; rw [pathcmp_self]; omega
    · have := render_lt_of_prefix hb hr hbr e; omega
  have h2 : pathcmp (renderPath r) (renderPath q) ≤ 0 := by
    rw [pathcmp_antisymm]; omega
  have h3 := pathcmp_le_trans hbr' h2
  have ha0 : a ≠ [] := fun e => hab (e ▸ List.nil_prefix)
  have hu : Contains (renderPath a) (renderPath q) := (contains_render ha hq).2 haq
  rcases hu with (hu | ⟨y, hu⟩) | ⟨hu, _⟩
  · rw [hu, pathcmp_antisymm] at h3; omega
  · rw [hu] at h3
    exact hab ((contains_render ha hb).1 (Or.inl (between_dir (by omega) h3)))
  · rw [renderPath_ne ha0] at hu
    obtain ⟨c, x, e1, e2⟩ := join_last ha ha0
    rw [e1] at hu
    simp at hu
    exact e2 hu

end Verif
