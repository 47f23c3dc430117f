import Verif.Model.Browse
import Verif.Spec.Browse
import Verif.Lemmas.PathCmp

/-!
# C44: browsing a directory
-/

namespace Verif
open Verif.PathCmp Verif.Browse

/-! ### Names -/

private theorem under_takeWhile {c r : Str} (hc : slash ∉ c) :
    Under c r ↔ r.takeWhile (· ≠ slash) = c := by
  have all : ∀ x ∈ c, decide (x ≠ slash) = true := by
    intro x hx
    have : x ≠ slash := fun e => hc (e ▸ hx)
    simpa using this
  constructor
  · rintro (e | ⟨y, e⟩)
    · subst e
      have := List.takeWhile_append_of_pos (l₂ := []) all
      simpa using this
    · subst e
      rw [List.takeWhile_append_of_pos all]; simp
  · intro h
    have hr := List.takeWhile_append_dropWhile (p := fun x => decide (x ≠ slash)) (l := r)
    cases hd : r.dropWhile (fun x => decide (x ≠ slash)) with
    | nil => rw [hd, h] at hr; left; simpa using hr.symm
    | cons x y =>
      have hx : x = slash := by
        have := List.head?_dropWhile_not (fun x => decide (x ≠ slash)) r
        rw [hd] at this
        simpa using this
      rw [hd, h, hx] at hr
      exact Or.inr ⟨y, hr.symm⟩

private theorem stripSlash_noslash {c : Str} (hc : slash ∉ c) : stripSlash c = c := by
  unfold stripSlash
  have gen : ∀ l : Str, slash ∉ l → l.dropWhile (· ≠ slash) = [] := by
    intro l
    induction l with
    | nil => intro _; rfl
    | cons x l ih =>
      intro h
      have hx : x ≠ slash := fun e => h (by rw [e]; simp)
      rw [List.dropWhile_cons, if_pos (by simpa using hx)]
      exact ih (fun h' => h (List.mem_cons_of_mem _ h'))
  rw [gen c.reverse (fun h => hc (List.mem_reverse.1 h))]

private theorem stripSlash_slash (t : Str) : stripSlash (t ++ [slash]) = if t = [] then [slash] else t := by
  unfold stripSlash
  rw [List.reverse_append]
  simp only [List.reverse_cons, List.reverse_nil, List.nil_append, List.singleton_append]
  rw [List.dropWhile_cons]
  simp only [ne_eq, not_true_eq_false, decide_false, Bool.false_eq_true, if_false]
  cases t with
  | nil => simp
  | cons a t => simp

private theorem slash_not_mem_takeWhile (r : Str) : slash ∉ r.takeWhile (· ≠ slash) := by
  induction r with
  | nil => simp
  | cons x r ih =>
    by_cases hx : x = slash
    · simp [hx]
    · have hx' : slash ≠ x := fun e => hx e.symm
      simp only [List.takeWhile_cons, hx, ne_eq, not_false_eq_true, decide_true, if_true, List.mem_cons, hx',
        false_or]
      exact ih

private theorem takeWhile_of_not_mem {r : Str} (h : slash ∉ r) : r.takeWhile (· ≠ slash) = r :=
  (under_takeWhile h).1 (Or.inl rfl)

/-- The name under which a path is listed. -/
def nameOf (bd p : Str) : Option Str :=
  (restOf bd p).map (fun rest =>
    let cp := if rest.isEmpty then [dot] else rest
    stripSlash (if slash ∈ cp then
        (if bd.length = 0 then cp.takeWhile (· ≠ slash) ++ [slash] else cp.takeWhile (· ≠ slash))
      else cp))

private theorem under_append (D c r : Str) : Under (D ++ c) (D ++ r) ↔ Under c r := by
  unfold Under
  simp only [List.append_assoc, List.append_cancel_left_eq]

private theorem atDir_last (d : Str) : ∃ D, atDir d = D ++ [slash] := by
  unfold atDir
  split
  · rename_i h
    rcases List.eq_nil_or_concat d with e | ⟨D, x, e⟩
    · subst e; simp at h
    · subst e; simp at h; exact ⟨D, by simp [h]⟩
  · exact ⟨d, rfl⟩

private theorem restOf_spec {d p r : Str} (hd : d ≠ []) :
    restOf d p = some r ↔ p = atDir d ++ r ∨ (p = d ∧ r = []) := by
  have hlen : d.length > 0 := List.length_pos_iff.2 hd
  unfold restOf
  rw [if_pos hlen]
  by_cases ht : p.take d.length = d
  · obtain ⟨q, rfl⟩ : ∃ q, p = d ++ q := ⟨p.drop d.length, by
      conv => lhs; rw [← List.take_append_drop d.length p, ht]⟩
    simp only [List.take_left, ne_eq, not_true_eq_false, if_false, List.drop_left]
    unfold atDir
    by_cases hl : d.getLast? = some slash
    · simp only [hl, if_true, not_true_eq_false, if_false, Option.some.injEq, List.append_cancel_left_eq]
      constructor
      · intro h; exact Or.inl h
      · rintro (h | ⟨h, h2⟩)
        · exact h
        · rw [h2]; simpa using h
    · simp only [hl, not_false_eq_true, if_true, if_false]
      cases q with
      | nil => simp
      | cons x q =>
        by_cases hx : x = slash
        · subst hx; simp
        · simp [hx]
  · simp only [ne_eq, ht, not_false_eq_true, if_true]
    constructor
    · intro h; cases h
    · rintro (h | ⟨h, _⟩)
      · exfalso; apply ht; rw [h]; unfold atDir; split <;> simp
      · exfalso; apply ht; rw [h]; simp

private theorem name_spec {d p c : Str} (hp : PlainPath p) : nameOf d p = some c ↔ Shown d c p := by
  unfold Shown
  by_cases hd : d = []
  · subst hd
    simp only [if_true]
    have hr : restOf [] p = some p := by simp [restOf]
    have hne : p.isEmpty = false := by
      cases p with
      | nil => exact absurd rfl hp.ne
      | cons => rfl
    unfold nameOf
    rw [hr]
    simp only [Option.map_some, hne, Bool.false_eq_true, if_false, List.length_nil, if_true,
      Option.some.injEq]
    by_cases hs : slash ∈ p
    · rw [if_pos hs, stripSlash_slash]
      cases p with
      | nil => simp at hs
      | cons x q =>
        by_cases hx : x = slash
        · subst hx
          simp only [List.takeWhile_cons, ne_eq, not_true_eq_false, decide_false, Bool.false_eq_true,
            if_false, if_true, List.cons.injEq, true_and, exists_eq', and_true]
          constructor
          · intro h; exact Or.inl h.symm
          · rintro (h | ⟨h1, h2, h3⟩)
            · exact h.symm
            · have := (under_takeWhile h2).1 h3
              simp at this
              exact absurd this.symm (by simpa using h1)
        · have ht : (x :: q).takeWhile (· ≠ slash) ≠ [] := by simp [hx]
          rw [if_neg ht]
          constructor
          · intro h
            right
            have hns := slash_not_mem_takeWhile (x :: q)
            rw [h] at hns ht
            exact ⟨ht, hns, (under_takeWhile hns).2 h⟩
          · rintro (⟨_, y, h⟩ | ⟨h1, h2, h3⟩)
            · cases h; exact absurd rfl hx
            · exact (under_takeWhile h2).1 h3
    · rw [if_neg hs, stripSlash_noslash hs]
      constructor
      · intro h; subst h; exact Or.inr ⟨hp.ne, hs, Or.inl rfl⟩
      · rintro (⟨_, y, h⟩ | ⟨h1, h2, h3⟩)
        · exfalso; apply hs; rw [h]; simp
        · rw [← takeWhile_of_not_mem hs]; exact (under_takeWhile h2).1 h3
  · rw [if_neg hd]
    have hlen : d.length ≠ 0 := fun h => hd (List.length_eq_zero_iff.1 h)
    have key : ∀ r : Str, stripSlash (if slash ∈ (if r.isEmpty then [dot] else r) then
        (if d.length = 0 then (if r.isEmpty then [dot] else r).takeWhile (· ≠ slash) ++ [slash]
          else (if r.isEmpty then [dot] else r).takeWhile (· ≠ slash))
        else (if r.isEmpty then [dot] else r)) = if r = [] then [dot] else r.takeWhile (· ≠ slash) := by
      intro r
      cases r with
      | nil =>
        have : ¬ slash ∈ [dot] := by decide
        simp only [List.isEmpty_nil, if_true, this, if_false]
        exact stripSlash_noslash this
      | cons x r =>
        simp only [List.isEmpty_cons, Bool.false_eq_true, if_false, hlen, reduceCtorEq]
        by_cases hs : slash ∈ x :: r
        · rw [if_pos hs, stripSlash_noslash (slash_not_mem_takeWhile _)]
        · rw [if_neg hs, stripSlash_noslash hs, takeWhile_of_not_mem hs]
    have hn : nameOf d p = some c ↔ ∃ r, restOf d p = some r ∧
        (if r = [] then [dot] else r.takeWhile (· ≠ slash)) = c := by
      unfold nameOf
      rw [Option.map_eq_some_iff]
      constructor
      · rintro ⟨r, h1, h2⟩; exact ⟨r, h1, by rw [← key r]; exact h2⟩
      · rintro ⟨r, h1, h2⟩; exact ⟨r, h1, by rw [← key r] at h2; exact h2⟩
    rw [hn]
    obtain ⟨D, hD⟩ := atDir_last d
    constructor
    · rintro ⟨r, hr, hc⟩
      rcases (restOf_spec hd).1 hr with h | ⟨h, hr0⟩
      · by_cases hr0 : r = []
        · rw [if_pos hr0] at hc
          left; exact ⟨hc.symm, Or.inr (by rw [h, hr0]; simp)⟩
        · rw [if_neg hr0] at hc
          have hns := slash_not_mem_takeWhile r
          rw [hc] at hns
          right
          refine ⟨?_, hns, ?_⟩
          · intro e
            subst e
            cases r with
            | nil => exact hr0 rfl
            | cons x r =>
              have hx : x = slash := by
                by_cases hx : x = slash
                · exact hx
                · simp [hx] at hc
              exact hp.noDouble D r (by rw [h, hD, hx]; simp)
          · rw [h]; exact (under_append _ _ _).2 ((under_takeWhile hns).2 hc)
      · rw [if_pos hr0] at hc
        left; exact ⟨hc.symm, Or.inl h⟩
    · rintro (⟨hc, h | h⟩ | ⟨h1, h2, h3⟩)
      · exact ⟨[], (restOf_spec hd).2 (Or.inr ⟨h, rfl⟩), by simp [hc]⟩
      · exact ⟨[], (restOf_spec hd).2 (Or.inl (by rw [h]; simp)), by simp [hc]⟩
      · obtain ⟨r, hr⟩ : ∃ r, p = atDir d ++ r := by
          rcases h3 with h | ⟨y, h⟩
          · exact ⟨c, h⟩
          · exact ⟨c ++ slash :: y, by rw [h]; simp⟩
        have hu := (under_append (atDir d) c r).1 (hr ▸ h3)
        have ht := (under_takeWhile h2).1 hu
        refine ⟨r, (restOf_spec hd).2 (Or.inl hr), ?_⟩
        rw [if_neg, ht]
        intro e; subst e; simp at ht; exact h1 ht

/-! ### What is shown under one name stands together -/

private theorem under_ge {e p : Str} (h : Under e p) : pathcmp e p ≤ 0 := by
  rcases h with h | ⟨y, h⟩
  · subst h; have := pathcmp_self p; omega
  · subst h; have := dir_lt_under e y; omega

private theorem under_convex {e p q r : Str} (h1 : Under e p) (h2 : Under e r) (hpq : pathcmp p q ≤ 0)
    (hqr : pathcmp q r ≤ 0) : Under e q := by
  have h := pathcmp_le_trans (under_ge h1) hpq
  rcases h2 with h2 | ⟨y, h2⟩
  · subst h2
    have := dir_lt_under r []
    exact between_dir (x := []) h (pathcmp_le_trans hqr (by omega))
  · subst h2; exact between_dir h hqr

private theorem pathcmp_le_antisymm {p q : Str} (h1 : pathcmp p q ≤ 0) (h2 : pathcmp q p ≤ 0) : p = q := by
  have := pathcmp_antisymm p q
  exact pathcmp_eq_zero.1 (by omega)

private theorem nil_le (q : Str) : pathcmp [] q ≤ 0 := by
  cases q <;> simp [pathcmp]

/-- Nothing in between two paths shown under one name is shown under another. -/
private theorem shown_convex {d c p q r : Str} (hq : q ≠ []) (h1 : Shown d c p) (h2 : Shown d c r)
    (hdot : c = [dot] → d ≠ [] → r = d ∨ r = atDir d)
    (hpq : pathcmp p q ≤ 0) (hqr : pathcmp q r ≤ 0) (hdot' : c = [dot] → d ≠ [] → p = d ∨ p = atDir d) :
    Shown d c q := by
  unfold Shown at *
  by_cases hd : d = []
  · rw [if_pos hd] at *
    rcases h1 with ⟨hc, y, h1⟩ | ⟨hc, hs, h1⟩
    · rcases h2 with ⟨_, y', h2⟩ | ⟨_, hs, _⟩
      · rw [h2] at hqr
        rcases between_dir (d := []) (nil_le q) hqr with h | ⟨z, h⟩
        · exact absurd h hq
        · exact Or.inl ⟨hc, z, h⟩
      · rw [hc] at hs; simp at hs
    · rcases h2 with ⟨hc2, _⟩ | ⟨_, _, h2⟩
      · rw [hc2] at hs; simp at hs
      · exact Or.inr ⟨hc, hs, under_convex h1 h2 hpq hqr⟩
  · rw [if_neg hd] at *
    by_cases hc : c = [dot]
    · left
      refine ⟨hc, ?_⟩
      have hp := hdot' hc hd
      have hr := hdot hc hd
      unfold atDir at *
      by_cases hl : d.getLast? = some slash
      · simp only [hl, if_true, or_self] at *
        subst hp; subst hr
        exact (pathcmp_le_antisymm hpq hqr).symm
      · simp only [hl, if_false] at *
        have hr' : pathcmp q (d ++ [slash]) ≤ 0 := by
          rcases hr with hr | hr
          · subst hr; have := dir_lt_under r []; exact pathcmp_le_trans hqr (by omega)
          · subst hr; exact hqr
        have hp' : pathcmp d q ≤ 0 := by
          rcases hp with hp | hp
          · subst hp; exact hpq
          · subst hp; have := dir_lt_under d []; exact pathcmp_le_trans (by omega) hpq
        rcases between_dir hp' hr' with h | ⟨y, h⟩
        · exact Or.inl h
        · right
          have : pathcmp (d ++ [slash]) q ≤ 0 := by
            rw [h, show d ++ slash :: y = (d ++ [slash]) ++ y by simp]
            have := pathcmp_append_left (d ++ [slash]) [] y
            rw [List.append_nil] at this
            rw [this]; exact nil_le y
          exact pathcmp_le_antisymm hr' this
    · rcases h1 with h1 | ⟨hc1, hs, h1⟩
      · exact absurd h1.1 hc
      · rcases h2 with h2 | ⟨_, _, h2⟩
        · exact absurd h2.1 hc
        · exact Or.inr ⟨hc1, hs, under_convex h1 h2 hpq hqr⟩

/-- For plain paths, `.` stands for the directory only. -/
private theorem shown_dot {d p : Str} (hp : PlainPath p) (hd : d ≠ []) (h : Shown d [dot] p) :
    p = d ∨ p = atDir d := by
  unfold Shown at h
  rw [if_neg hd] at h
  rcases h with h | ⟨_, _, h⟩
  · exact h.2
  · obtain ⟨D, hD⟩ := atDir_last d
    exfalso
    apply hp.noDot
    refine ⟨by decide, ?_⟩
    rcases h with h | ⟨y, h⟩
    · exact ⟨atDir d, [], by rw [h]; simp, Or.inr (by rw [hD]; simp), Or.inl rfl⟩
    · exact ⟨atDir d, slash :: y, by rw [h], Or.inr (by rw [hD]; simp), Or.inr rfl⟩

/-! ### The listing -/

/-- The entries a listing takes into account. -/
def listable (es : List Ent) : List Ent := es.filter (fun e => !e.cmd.isMetadata)

/-- The names that are sent. -/
def listedNames (browsedir : Option Str) (regex : Str → Bool) (es : List Ent) : List Str :=
  (listManifest browsedir regex es).1.map Ent.path

/-- The entry sent for an entry. -/
private theorem check_eq (d : Str) (e : Ent) (last : Option Str) :
    (nameOf d e.path = none ∧ checkBrowsedir d e last = none) ∨
    (∃ n, nameOf d e.path = some n ∧ last = some n ∧ checkBrowsedir d e last = none) ∨
    (∃ n e', nameOf d e.path = some n ∧ last ≠ some n ∧ checkBrowsedir d e last = some e' ∧
      e'.path = n ∧ e'.cmd = e.cmd) := by
  unfold checkBrowsedir nameOf
  cases hr : restOf d e.path with
  | none => left; simp
  | some r =>
    right
    simp only [Option.map_some, Option.some.injEq, exists_eq_left']
    generalize hn : stripSlash _ = n
    by_cases hl : last = some n
    · left; exact ⟨hl, if_pos hl⟩
    · right
      refine ⟨n, _, rfl, hl, if_neg hl, rfl, ?_⟩
      simp only [maybeFakeDirectory]
      repeat' split
      all_goals rfl

private theorem loop_spec (d : Str) (es : List Ent) :
    ∀ last : Option Str, (∀ e ∈ listable es, PlainPath e.path) →
      (listable es).Pairwise (fun a b => pathcmp a.path b.path ≤ 0) →
      (∀ l, last = some l → ∃ p0, PlainPath p0 ∧ Shown d l p0 ∧ ∀ e ∈ listable es, pathcmp p0 e.path ≤ 0) →
      ((listLoop (some d) (fun _ => true) last es).1.map Ent.path).Nodup ∧
      ∀ c, c ∈ (listLoop (some d) (fun _ => true) last es).1.map Ent.path ↔
        (∃ e ∈ listable es, Shown d c e.path) ∧ last ≠ some c := by
  induction es with
  | nil => intro last _ _ _; simp [listLoop, listable]
  | cons e es ih =>
    intro last hp hs hlast
    by_cases hm : e.cmd.isMetadata = true
    · have hl : listable (e :: es) = listable es := by simp [listable, hm]
      rw [hl] at hp hs hlast ⊢
      rw [listLoop, if_pos hm]
      exact ih last hp hs hlast
    · have hl : listable (e :: es) = e :: listable es := by simp [listable, hm]
      rw [hl] at hp hs hlast ⊢
      have hpe := hp e (by simp)
      have hp' : ∀ e ∈ listable es, PlainPath e.path := fun x hx => hp x (List.mem_cons_of_mem _ hx)
      have hs' := List.pairwise_cons.1 hs
      have hlast' : ∀ l, last = some l → ∃ p0, PlainPath p0 ∧ Shown d l p0 ∧
          ∀ e ∈ listable es, pathcmp p0 e.path ≤ 0 := by
        intro l h
        obtain ⟨p0, h1, h2, h3⟩ := hlast l h
        exact ⟨p0, h1, h2, fun x hx => h3 x (List.mem_cons_of_mem _ hx)⟩
      rw [listLoop, if_neg hm]
      rcases check_eq d e last with ⟨hn, hc⟩ | ⟨n, hn, hln, hc⟩ | ⟨n, e', hn, hln, hc, he1, he2⟩
      · simp only [hc]
        obtain ⟨i1, i2⟩ := ih last hp' hs'.2 hlast'
        refine ⟨i1, fun c => (i2 c).trans ?_⟩
        constructor
        · rintro ⟨⟨x, hx, h⟩, h2⟩; exact ⟨⟨x, List.mem_cons_of_mem _ hx, h⟩, h2⟩
        · rintro ⟨⟨x, hx, h⟩, h2⟩
          rcases List.mem_cons.1 hx with e0 | hx
          · subst e0
            rw [← name_spec hpe, hn] at h; cases h
          · exact ⟨⟨x, hx, h⟩, h2⟩
      · simp only [hc]
        obtain ⟨i1, i2⟩ := ih last hp' hs'.2 hlast'
        refine ⟨i1, fun c => (i2 c).trans ?_⟩
        constructor
        · rintro ⟨⟨x, hx, h⟩, h2⟩; exact ⟨⟨x, List.mem_cons_of_mem _ hx, h⟩, h2⟩
        · rintro ⟨⟨x, hx, h⟩, h2⟩
          rcases List.mem_cons.1 hx with e0 | hx
          · subst e0
            rw [← name_spec hpe, hn] at h; cases h; exact absurd hln h2
          · exact ⟨⟨x, hx, h⟩, h2⟩
      · simp only [hc, if_true, List.map_cons, he1]
        have hsh : Shown d n e.path := (name_spec hpe).1 hn
        obtain ⟨i1, i2⟩ := ih (some n) hp' hs'.2 (fun l h => ⟨e.path, hpe, by cases h; exact hsh, hs'.1⟩)
        refine ⟨List.nodup_cons.2 ⟨fun h => ((i2 n).1 h).2 rfl, i1⟩, fun c => ?_⟩
        rw [List.mem_cons]
        constructor
        · rintro (h | h)
          · subst h; exact ⟨⟨e, by simp, hsh⟩, hln⟩
          · obtain ⟨⟨x, hx, hxs⟩, hcn⟩ := (i2 c).1 h
            refine ⟨⟨x, List.mem_cons_of_mem _ hx, hxs⟩, fun hl => hcn ?_⟩
            obtain ⟨p0, h1, h2, h3⟩ := hlast c hl
            have : Shown d c e.path := shown_convex hpe.ne h2 hxs
              (fun hc hd => shown_dot (hp' x hx) hd (hc ▸ hxs)) (h3 e (by simp)) (hs'.1 x hx)
              (fun hc hd => shown_dot h1 hd (hc ▸ h2))
            rw [← name_spec hpe, hn] at this
            exact this
        · rintro ⟨⟨x, hx, hxs⟩, h2⟩
          by_cases hcn : c = n
          · exact Or.inl hcn
          · right
            rcases List.mem_cons.1 hx with e0 | hx
            · subst e0
              rw [← name_spec hpe, hn] at hxs; cases hxs; exact absurd rfl hcn
            · exact (i2 c).2 ⟨⟨x, hx, hxs⟩, fun h => hcn (by cases h; rfl)⟩

/-- C44. Browsing a directory of a sorted manifest reports each child exactly once: every name that is the
name of an entry in it or of a parent in it of deeper entries, and nothing else; and `.` if the directory
itself is an entry. With no directory, it reports the root directory or the drives. -/
theorem C44_children (d : Str) (es : List Ent) (hp : ∀ e ∈ listable es, PlainPath e.path)
    (hs : (listable es).Pairwise (fun a b => pathcmp a.path b.path ≤ 0)) :
    (listedNames (some d) (fun _ => true) es).Nodup ∧
    ∀ c, c ∈ listedNames (some d) (fun _ => true) es ↔ ∃ e ∈ listable es, Shown d c e.path := by
  obtain ⟨h1, h2⟩ := loop_spec d es none hp hs (by simp)
  exact ⟨h1, fun c => (h2 c).trans (by simp)⟩

private theorem loop_origin (d : Str) (es : List Ent) : ∀ last : Option Str,
    ∀ e' ∈ (listLoop (some d) (fun _ => true) last es).1, ∃ e ∈ listable es, ∃ l,
      checkBrowsedir d e l = some e' := by
  induction es with
  | nil => intro last e' h; simp [listLoop] at h
  | cons e es ih =>
    intro last e' h
    rw [listLoop] at h
    by_cases hm : e.cmd.isMetadata = true
    · rw [if_pos hm] at h
      obtain ⟨x, hx, r⟩ := ih last e' h
      exact ⟨x, by simpa [listable, hm] using hx, r⟩
    · rw [if_neg hm] at h
      have sub : ∀ x ∈ listable es, x ∈ listable (e :: es) := by
        intro x hx; simp only [listable, hm, Bool.not_false, List.filter_cons]; simp; exact Or.inr (by simpa [listable] using hx)
      cases hc : checkBrowsedir d e last with
      | none =>
        simp only [hc] at h
        obtain ⟨x, hx, r⟩ := ih last e' h
        exact ⟨x, sub x hx, r⟩
      | some f =>
        simp only [hc, if_true] at h
        rcases List.mem_cons.1 h with h | h
        · subst h; exact ⟨e, by simp [listable, hm], last, hc⟩
        · obtain ⟨x, hx, r⟩ := ih _ e' h
          exact ⟨x, sub x hx, r⟩

/-- C44. What is reported for a name is shown as a directory, or else is an entry of that very name, with its
kind: so a directory that only exists as a parent of deeper entries is shown as one. -/
theorem C44_parents_are_directories (d : Str) (hd : d ≠ []) (es : List Ent) :
    ∀ e' ∈ (listManifest (some d) (fun _ => true) es).1, e'.isDir = true ∨
      ∃ e ∈ listable es, e.cmd = e'.cmd ∧ e.isDir = e'.isDir ∧
        (e.path = atDir d ++ e'.path ∨ (e'.path = [dot] ∧ (e.path = d ∨ e.path = atDir d))) := by
  intro e' h
  obtain ⟨e, he, l, hc⟩ := loop_origin d es none e' h
  unfold checkBrowsedir at hc
  cases hr : restOf d e.path with
  | none => simp [hr] at hc
  | some r =>
    simp only [hr] at hc
    generalize hm : (if slash ∈ (if r.isEmpty then [dot] else r) then maybeFakeDirectory e else _) = mb at hc
    generalize hn : stripSlash _ = nm at hc
    by_cases hl : l = some nm
    · rw [if_pos hl] at hc; cases hc
    · rw [if_neg hl] at hc
      simp only [Option.some.injEq] at hc
      by_cases hsl : slash ∈ (if r.isEmpty then [dot] else r)
      · rw [if_pos hsl] at hm
        left; rw [← hc, ← hm]; rfl
      · rw [if_neg hsl] at hm
        rw [if_neg hsl, stripSlash_noslash hsl] at hn
        rw [← hn] at hc
        by_cases h2 : e.path = [slash] ∧ d = [slash]
        · rw [if_pos h2] at hm
          left; rw [← hc, ← hm]; rfl
        · rw [if_neg h2] at hm
          by_cases h3 : e.cmd = .directory
          · rw [if_pos h3] at hm
            left; rw [← hc, ← hm]; rfl
          · rw [if_neg h3] at hm
            right
            refine ⟨e, he, by rw [← hc, ← hm], by rw [← hc, ← hm], ?_⟩
            rcases (restOf_spec hd).1 hr with h | ⟨h, hr0⟩
            · by_cases hr0 : r = []
              · right; rw [← hc, hr0]; exact ⟨rfl, Or.inr (by rw [h, hr0]; simp)⟩
              · left
                rw [← hc]
                have : r.isEmpty = false := by cases r with | nil => exact absurd rfl hr0 | cons => rfl
                simp only [this, Bool.false_eq_true, if_false]
                exact h
            · right; rw [← hc, hr0]; exact ⟨rfl, Or.inl h⟩

private theorem loop_regex (bd : Option Str) (regex : Str → Bool) (es : List Ent) : ∀ last : Option Str,
    (listLoop bd regex last es).1 = (listLoop bd (fun _ => true) last es).1.filter (fun e => regex e.path) ∧
    (listLoop bd regex last es).2 = (listLoop bd (fun _ => true) last es).2 := by
  induction es with
  | nil => intro last; simp [listLoop]
  | cons e es ih =>
    intro last
    by_cases hm : e.cmd.isMetadata = true
    · simp only [listLoop, hm, if_true]; exact ih last
    · simp only [listLoop, hm, Bool.false_eq_true, if_false]
      cases bd with
      | none =>
        simp only [if_true, List.filter_cons]
        by_cases hr : regex e.path = true
        · simp only [hr, if_true, (ih last).1, (ih last).2, and_self]
        · simp only [hr, Bool.false_eq_true, if_false, (ih last).1, (ih last).2, and_self]
      | some d =>
        simp only []
        cases hc : checkBrowsedir d e last with
        | none => simp only []; exact ih last
        | some f =>
          simp only [if_true, List.filter_cons]
          by_cases hr : regex f.path = true
          · simp only [hr, if_true, (ih _).1, (ih _).2, and_self]
          · simp only [hr, Bool.false_eq_true, if_false, (ih _).1, (ih _).2, and_self]

/-- C44. With a regular expression as well, what is reported are the children whose names match. -/
theorem C44_regex (bd : Option Str) (regex : Str → Bool) (es : List Ent) :
    (listManifest bd regex es).1 = (listManifest bd (fun _ => true) es).1.filter (fun e => regex e.path) ∧
    (listManifest bd regex es).2 = (listManifest bd (fun _ => true) es).2 := by
  obtain ⟨h1, h2⟩ := loop_regex bd regex es none
  refine ⟨h1, ?_⟩
  unfold listManifest
  simp only [h2]

private theorem loop_all (es : List Ent) : ∀ last : Option Str,
    listLoop none (fun _ => true) last es = (listable es, last) := by
  induction es with
  | nil => intro last; simp [listLoop, listable]
  | cons e es ih =>
    intro last
    rw [listLoop]
    by_cases hm : e.cmd.isMetadata = true
    · rw [if_pos hm, ih]; simp [listable, hm]
    · rw [if_neg hm]; simp [ih, listable, hm]

/-- C44. Without a directory or a regular expression every entry is reported once, in order, except metadata. -/
theorem C44_all (es : List Ent) : listManifest none (fun _ => true) es = (listable es, false) := by
  unfold listManifest; rw [loop_all]; simp

private theorem loop_last (d : Str) (es : List Ent) : ∀ last : Option Str,
    (listLoop (some d) (fun _ => true) last es).2 = none ↔
      last = none ∧ (listLoop (some d) (fun _ => true) last es).1 = [] := by
  induction es with
  | nil => intro last; simp [listLoop]
  | cons e es ih =>
    intro last
    rw [listLoop]
    by_cases hm : e.cmd.isMetadata = true
    · rw [if_pos hm]; exact ih last
    · rw [if_neg hm]
      simp only []
      cases hc : checkBrowsedir d e last with
      | none => simp only []; exact ih last
      | some f => simp [ih]

/-- C44. "Directory not found" is reported exactly if a directory was named and nothing in the backup is
it or in it. -/
theorem C44_not_found (d : Str) (regex : Str → Bool) (es : List Ent)
    (hp : ∀ e ∈ listable es, PlainPath e.path)
    (hs : (listable es).Pairwise (fun a b => pathcmp a.path b.path ≤ 0)) :
    (listManifest (some d) regex es).2 = true ↔ d ≠ [] ∧ ¬ ∃ c, ∃ e ∈ listable es, Shown d c e.path := by
  rw [(C44_regex (some d) regex es).2]
  have h := (C44_children d es hp hs).2
  unfold listedNames listManifest at h
  unfold listManifest
  simp only [Bool.and_eq_true, Bool.not_eq_true', List.isEmpty_eq_false_iff, Option.isNone_iff_eq_none,
    loop_last, true_and] at h ⊢
  refine and_congr Iff.rfl ?_
  constructor
  · rintro h1 ⟨c, hc⟩
    have := (h c).2 hc
    rw [h1] at this; simp at this
  · intro h1
    cases hl : (listLoop (some d) (fun _ => true) none es).1 with
    | nil => rfl
    | cons x xs => exact absurd ⟨x.path, (h x.path).1 (by rw [hl]; simp)⟩ h1

/-- C44. Whatever the form in which the directory is given, with or without a slash at the end, the children are the
same. -/
theorem C44_trailing_slash (d c : Str) (hd : d ≠ []) (hl : d.getLast? ≠ some slash) (hc : c ≠ [dot]) (p : Str) :
    Shown (d ++ [slash]) c p ↔ Shown d c p := by
  unfold Shown
  have : atDir (d ++ [slash]) = atDir d := by unfold atDir; simp [hl]
  simp [hd, hc, this]

/-- C44. The condition on paths is needed: a doubled slash, as `C59` shows seeding to the root directory to
leave, makes a child without a name. -/
theorem C44_doubled_slash_violated :
    listedNames (some (bytes "/")) (fun _ => true) [⟨.file, bytes "//x", false⟩] = [[]] := by decide

def exBrowse : List Ent :=
  [⟨.directory, bytes "/a", true⟩, ⟨.metadata, bytes "/a", true⟩, ⟨.file, bytes "/a/b/c", false⟩,
   ⟨.file, bytes "/a/b/d", false⟩, ⟨.file, bytes "/a/b+", false⟩, ⟨.file, bytes "/ab", false⟩]

/-- The listing of a manifest with a directory that is not an entry itself; and the manifest is in order. -/
example : listManifest (some (bytes "/a")) (fun _ => true) exBrowse =
      ([⟨.directory, bytes ".", true⟩, ⟨.file, bytes "b", true⟩, ⟨.file, bytes "b+", false⟩], false) ∧
    (listable exBrowse).Pairwise (fun a b => pathcmp a.path b.path ≤ 0) := by decide

theorem exBrowse_plain : PlainPath (bytes "/a/b") := by
  refine ⟨by decide, ?_, ?_⟩
  · intro a b h
    have : bytes "/a/b" = [slash, 97, slash, 98] := by decide
    rw [this] at h
    match a, h with
    | [], h => simp [slash] at h
    | [_], h => simp [slash] at h
    | [_, _], h => simp [slash] at h
    | [_, _, _], h => simp at h
    | _ :: _ :: _ :: _ :: a, h => simp at h
  · rintro ⟨_, pre, post, h, _⟩
    have : dot ∈ bytes "/a/b" := by rw [h]; simp
    revert this; decide

example : listManifest (some []) (fun _ => true) exBrowse = ([⟨.directory, bytes "/", true⟩], false) := by decide
example : listedNames (some []) (fun _ => true)
    [⟨.directory, bytes "C:/", true⟩, ⟨.file, bytes "C:/x", true⟩, ⟨.file, bytes "D:/y", false⟩] =
    [bytes "C:", bytes "D:"] := by decide
example : (listManifest (some (bytes "/b")) (fun _ => true) exBrowse).2 = true := by decide

end Verif
