import Verif.Lemmas.Cache
import Verif.Lemmas.Scan
import Verif.Props.Prepend

/-!
# From records to the tree of names
-/

namespace Verif.Cache
open Verif.PathCmp

/-- What is put into the tree for a record. -/
def item (e : Entry) : Item := ⟨components e.path, e.link, e.st, trailing e.path⟩

theorem strtok_eq (s : Str) : ∀ cur : Str, slash ∉ cur → strtok cur s = components (cur ++ s) := by
  induction s with
  | nil =>
    intro cur h
    rw [List.append_nil]
    unfold components
    rw [splitSep_no_slash _ h]
    cases cur <;> simp [strtok]
  | cons c s ih =>
    intro cur h
    rw [strtok]
    by_cases hc : c = slash
    · subst hc
      rw [if_pos rfl, ih [] (by simp), List.nil_append]
      cases cur with
      | nil => simp [components_slash]
      | cons x cur =>
        rw [components_append]
        have : components (x :: cur) = [x :: cur] := by
          unfold components; rw [splitSep_no_slash _ h]; rfl
        rw [this]; rfl
    · rw [if_neg hc, ih (cur ++ [c]) (by simp [h, Ne.symm hc])]
      simp

theorem load_snoc (es : List Entry) (e : Entry) : load (es ++ [e]) = addEntry (load es) e := by
  simp [load, List.foldl_append]

theorem load_ents (es : List Entry) : (load es).ents = kids ((es.filter isShown).map item) := by
  induction es using snoc_ind with
  | h0 => rfl
  | h1 es e ih =>
    rw [load_snoc, List.filter_append, List.map_append]
    unfold addEntry
    by_cases h : isShown e = true
    · rw [if_pos h]
      simp only [List.filter_cons, h, if_true, List.filter_nil, List.map_cons, List.map_nil]
      rw [kids_snoc, ← ih]
      simp only [item, strtok_eq _ [] (by simp), List.nil_append]
      split <;> rfl
    · rw [if_neg h]
      simp [h, ih]

/-- The whole path from `/`. -/
def full (drives : Bool) (p : Str) : Str := if drives then slash :: p else p

theorem full_render {drives : Bool} {names : List Str} {p : Str} (h : WrittenAs drives names p) :
    full drives p = renderPath names := by
  unfold WrittenAs at h; unfold full
  cases drives with
  | false => simpa using h.2
  | true => simpa using h.2.2

theorem components_full (drives : Bool) (p : Str) : components (full drives p) = components p := by
  unfold full; cases drives with
  | false => rfl
  | true => exact components_slash p

theorem components_written {drives : Bool} {names : List Str} {p : Str} (h : WrittenAs drives names p) :
    components p = names := by
  rw [← components_full drives, full_render h, components_render h.1]

theorem pathcmp_full (drives : Bool) (a b : Str) : pathcmp (full drives a) (full drives b) = pathcmp a b := by
  unfold full; cases drives <;> simp [pathcmp]

theorem prefix_under {a b : List Str} (ha : ∀ c ∈ a, GoodName c) (hb : ∀ c ∈ b, GoodName c) (h0 : a ≠ []) :
    a <+: b ↔ Under (renderPath a) (renderPath b) := by
  constructor
  · rintro ⟨r, rfl⟩
    rw [renderPath_ne h0, renderPath_ne (by simp [h0])]
    cases r with
    | nil => left; simp
    | cons c r => right; exact ⟨c ++ joinPath r, by simp [joinPath, List.flatMap_append]⟩
  · intro h
    by_cases hb0 : b = []
    · subst hb0
      exfalso
      obtain ⟨c, cs, rfl⟩ := List.exists_cons_of_ne_nil h0
      have hc := (ha c (by simp)).1
      rcases h with h | ⟨y, h⟩
      · simp [renderPath] at h; exact hc h.1
      · have := congrArg List.length h; simp [renderPath] at this
    · rw [renderPath_ne h0, renderPath_ne hb0] at h
      rcases h with h | ⟨y, h⟩
      · exact join_prefix ha hb (y := []) (Or.inl rfl) (by simpa using h)
      · exact join_prefix ha hb (y := slash :: y) (Or.inr rfl) h

/-- In burp's order, what lies in a directory lies together. -/
theorem contig_items {drives : Bool} {es : List Entry} (h : InOrder drives es) :
    Contig ((es.filter isShown).map item) := by
  intro d hd a x b y c e hx hy z hz
  obtain ⟨b1, b2, rfl⟩ := List.append_of_mem hz
  rw [List.append_assoc] at e
  obtain ⟨a', r1, h1, rfl, e1⟩ := List.map_eq_append_iff.1 e
  obtain ⟨x', r2, rfl, rfl, e2⟩ := List.map_eq_cons_iff.1 e1
  obtain ⟨b1', r3, rfl, rfl, e3⟩ := List.map_eq_append_iff.1 e2
  obtain ⟨z', r4, rfl, rfl, e4⟩ := List.map_eq_cons_iff.1 e3
  obtain ⟨b2', r5, rfl, rfl, e5⟩ := List.map_eq_append_iff.1 e4
  obtain ⟨y', c', rfl, rfl, e6⟩ := List.map_eq_cons_iff.1 e5
  have hm : ∀ w, w ∈ a' ++ x' :: (b1' ++ z' :: (b2' ++ y' :: c')) → ∃ names, WrittenAs drives names w.path := by
    intro w hw
    rw [← h1] at hw
    exact h.1 w (List.mem_filter.1 hw).1 (List.mem_filter.1 hw).2
  obtain ⟨nx, wx⟩ := hm x' (by simp)
  obtain ⟨ny, wy⟩ := hm y' (by simp)
  obtain ⟨nz, wz⟩ := hm z' (by simp)
  simp only [item] at hx hy ⊢
  rw [components_written wx] at hx
  rw [components_written wy] at hy
  rw [components_written wz]
  have hdg : ∀ c ∈ d, GoodName c := fun c hc => wx.1 c (hx.subset hc)
  rw [prefix_under hdg wx.1 hd, ← full_render wx] at hx
  rw [prefix_under hdg wy.1 hd, ← full_render wy] at hy
  rw [prefix_under hdg wz.1 hd, ← full_render wz]
  have hs := h.2
  rw [h1] at hs
  have hs1 := (List.pairwise_append.1 hs).2.1
  have hs2 := (List.pairwise_cons.1 hs1)
  have hxz := hs2.1 z' (by simp)
  have hs3 := (List.pairwise_append.1 hs2.2).2.1
  have hzy := (List.pairwise_cons.1 hs3).1 y' (by simp)
  exact C04_directory_contiguous _ _ _ _ hx hy (by rw [pathcmp_full]; omega) (by rw [pathcmp_full]; omega)

theorem trailing_written {drives : Bool} {names : List Str} {p : Str} (h : WrittenAs drives names p)
    (h0 : names ≠ []) : trailing p = false := by
  obtain ⟨c, x, h1, h2⟩ := join_last h.1 h0
  have hf := full_render h
  rw [renderPath_ne h0, h1] at hf
  unfold trailing
  unfold full at hf
  cases drives with
  | false =>
    simp at hf; rw [hf]; simp [h2]
  | true =>
    simp at hf
    cases x with
    | nil =>
      simp at hf
      exact absurd hf.1.symm h2
    | cons y ys =>
      simp at hf
      rw [hf.2]; simp [h2]

end Verif.Cache
