import Verif.Spec.CommandLine

/-!
# Lemmas about command lines
-/

namespace Verif.CommandLine
open Verif Seed

/-- What `getopt` gives for an option. -/
def toItem (g : Given) : Item := .opt g.1 g.2

/-- An option has an argument exactly if it takes one. -/
def Formed (g : Given) : Prop := g.2.isSome = g.1.takes

theorem letters_ok : ∀ x ∈ letters, x.1.byte = x.2.1 ∧ x.1.takes = x.2.2 := by decide

theorem letters_find (l : Letter) :
    letters.find? (fun x => decide (x.2.1 = l.byte)) = some (l, l.byte, l.takes) := by
  cases l <;> decide

theorem letters_found {c : Byte} {x : Letter × Byte × Bool}
    (h : letters.find? (fun x => decide (x.2.1 = c)) = some x) : x.1.byte = c ∧ x.1.takes = x.2.2 := by
  have h1 := letters_ok x (List.mem_of_find?_eq_some h)
  have h2 : x.2.1 = c := by simpa using List.find?_some h
  exact ⟨h1.1.trans h2, h1.2⟩

theorem byte_ne (l : Letter) : l.byte ≠ 45 := by cases l <;> decide

theorem cluster_flag {l : Letter} (h : l.takes = false) (t : Str) :
    cluster (l.byte :: t) = (.opt l none :: (cluster t).1, (cluster t).2) := by
  rw [cluster, letters_find, h]

theorem cluster_arg {l : Letter} (h : l.takes = true) (t : Str) :
    cluster (l.byte :: t) = if t = [] then ([], some l) else ([.opt l (some t)], none) := by
  rw [cluster, letters_find, h]

theorem cluster_flags : ∀ (fs : List Letter), (∀ f ∈ fs, f.takes = false) → ∀ rest,
    cluster (fs.map Letter.byte ++ rest) =
      ((fs.map (fun f => ((f, none) : Given))).map toItem ++ (cluster rest).1, (cluster rest).2)
  | [], _, rest => by simp
  | f :: fs, h, rest => by
    have ih := cluster_flags fs (fun g hg => h g (by simp [hg])) rest
    simp only [List.map_cons, List.cons_append]
    rw [cluster_flag (h f (by simp)), ih]
    rfl

theorem cluster_inv : ∀ (s : Str) (gs : List Given), (cluster s).1 = gs.map toItem →
    ∃ fs : List Letter, (∀ f ∈ fs, f.takes = false) ∧
      ((s = fs.map Letter.byte ∧ gs = fs.map (fun f => (f, none)) ∧ (cluster s).2 = none) ∨
       (∃ l v, l.takes = true ∧ v ≠ [] ∧ s = fs.map Letter.byte ++ l.byte :: v ∧
          gs = fs.map (fun f => (f, none)) ++ [(l, some v)] ∧ (cluster s).2 = none) ∨
       (∃ l, l.takes = true ∧ s = fs.map Letter.byte ++ [l.byte] ∧ gs = fs.map (fun f => (f, none)) ∧
          (cluster s).2 = some l))
  | [], gs, h => ⟨[], by simp, Or.inl ⟨rfl, by simpa [cluster] using h, rfl⟩⟩
  | c :: t, gs, h => by
    rw [cluster] at h ⊢
    generalize hf : letters.find? (fun x => decide (x.2.1 = c)) = o at h ⊢
    match o, hf with
    | none, _ => cases gs <;> simp [toItem] at h
    | some (l, b, true), hf =>
      obtain ⟨h1, h2⟩ := letters_found hf
      simp only at h1 h2
      by_cases ht : t = []
      · subst ht
        simp only [if_true] at h ⊢
        have : gs = [] := by cases gs with
          | nil => rfl
          | cons _ _ => simp at h
        exact ⟨[], by simp, Or.inr (Or.inr ⟨l, h2, by simp [h1], by simp [this], rfl⟩)⟩
      · simp only [ht, if_false] at h ⊢
        match gs, h with
        | [(k, v)], h =>
          simp [toItem] at h
          exact ⟨[], by simp, Or.inr (Or.inl ⟨l, t, h2, ht, by simp [h1], by simp [h.1, h.2], by simp⟩)⟩
    | some (l, b, false), hf =>
      obtain ⟨h1, h2⟩ := letters_found hf
      simp only at h1 h2
      match gs, h with
      | (k, v) :: gs, h =>
        simp only [List.map_cons, List.cons.injEq] at h
        obtain ⟨e, h⟩ := h
        simp only [toItem, Item.opt.injEq] at e
        obtain ⟨e1, e2⟩ := e
        subst e1 e2
        obtain ⟨fs, hfs, hc⟩ := cluster_inv t gs h
        refine ⟨l :: fs, ?_, ?_⟩
        · intro f hf
          rcases List.mem_cons.mp hf with rfl | hf
          · exact h2
          · exact hfs f hf
        · rcases hc with ⟨a, b, c'⟩ | ⟨l', v, a, b, c', d, e⟩ | ⟨l', a, b, c', d⟩
          · exact Or.inl ⟨by simp [a, h1], by simp [b], c'⟩
          · exact Or.inr (Or.inl ⟨l', v, a, b, by simp [c', h1], by simp [d], e⟩)
          · exact Or.inr (Or.inr ⟨l', a, by simp [b, h1], by simp [c'], d⟩)

theorem dashed_ne {fs : List Letter} {rest : Str} (h : fs ≠ [] ∨ ∃ l : Letter, ∃ v, rest = l.byte :: v) :
    dashed fs rest ≠ bytes "--" ∧ ∃ c t, dashed fs rest = 45 :: c :: t ∧ fs.map Letter.byte ++ rest = c :: t := by
  have hb : bytes "--" = [45, 45] := by decide
  rw [hb]
  unfold dashed
  cases fs with
  | nil =>
    rcases h with h | ⟨l, v, rfl⟩
    · exact absurd rfl h
    · refine ⟨?_, _, _, rfl, rfl⟩
      intro e
      simp at e
      exact byte_ne l e.1
  | cons f fs =>
    refine ⟨?_, _, _, rfl, rfl⟩
    intro e
    simp at e
    exact byte_ne f e.1

theorem getopt_dashed {fs : List Letter} {rest : Str} (h : fs ≠ [] ∨ ∃ l : Letter, ∃ v, rest = l.byte :: v)
    (ws : List Str) : getopt none (dashed fs rest :: ws) =
      ((cluster (fs.map Letter.byte ++ rest)).1 ++ (getopt (cluster (fs.map Letter.byte ++ rest)).2 ws).1,
        (getopt (cluster (fs.map Letter.byte ++ rest)).2 ws).2) := by
  obtain ⟨h1, c, t, h2, h3⟩ := dashed_ne h
  rw [getopt, if_neg h1, h3, h2]
  rfl

theorem optWord_some {w s : Str} (h : optWord w = some s) : w = 45 :: s := by
  unfold optWord at h
  split at h
  · injection h with h
    rw [h]
  · cases h

theorem getopt_of_spells {gs : List Given} {ws : List Str} (h : Spells gs ws) :
    getopt none ws = (gs.map toItem, false) := by
  induction h with
  | done => rfl
  | stop => simp [getopt]
  | flags fs hne hfs _ ih =>
    rw [getopt_dashed (Or.inl hne), cluster_flags fs hfs]
    simp only [cluster, ih]
    simp
  | attached fs l v hfs hl hv _ ih =>
    rw [getopt_dashed (Or.inr ⟨l, v, rfl⟩), cluster_flags fs hfs, cluster_arg hl, if_neg hv]
    simp only [ih]
    simp [toItem]
  | separate fs l v hfs hl _ ih =>
    rw [getopt_dashed (Or.inr ⟨l, [], rfl⟩), cluster_flags fs hfs, cluster_arg hl, if_pos rfl]
    simp only [getopt, ih]
    simp [toItem]

theorem spells_of_getopt : ∀ (ws : List Str),
    (∀ gs : List Given, getopt none ws = (gs.map toItem, false) → Spells gs ws) ∧
    (∀ l (gs : List Given), getopt (some l) ws = (gs.map toItem, false) →
      ∃ v ws' gs', ws = v :: ws' ∧ gs = (l, some v) :: gs' ∧ Spells gs' ws')
  | [] => by
    refine ⟨?_, ?_⟩
    · intro gs h
      cases gs with
      | nil => exact .done
      | cons _ _ => simp [getopt] at h
    · intro l gs h
      cases gs with
      | nil => simp [getopt] at h
      | cons _ _ => simp [getopt, toItem] at h
  | w :: ws => by
    have ih := spells_of_getopt ws
    refine ⟨?_, ?_⟩
    · intro gs h
      rw [getopt] at h
      split at h
      · rename_i hw
        subst hw
        simp only [Prod.mk.injEq] at h
        have h1 : gs = [] := by cases gs with
          | nil => rfl
          | cons _ _ => simp at h
        have h2 : ws = [] := by simpa using h.2
        subst h1 h2
        exact .stop
      · split at h
        · rename_i s hs
          have hw := optWord_some hs
          subst hw
          have hsne : s ≠ [] := by
            rintro rfl
            cases hs
          simp only [Prod.mk.injEq] at h
          obtain ⟨h1, h2⟩ := h
          obtain ⟨g1, g2, rfl, hg1, hg2⟩ := List.map_eq_append_iff.mp h1.symm
          obtain ⟨fs, hfs, hc⟩ := cluster_inv s g1 hg1.symm
          rcases hc with ⟨a, b, c'⟩ | ⟨l, v, a, b, c', d, e⟩ | ⟨l, a, b, c', d⟩
          · rw [c'] at hg2 h2
            have := ih.1 g2 (Prod.ext hg2.symm h2)
            rw [a, b]
            have hne : fs ≠ [] := by
              rintro rfl
              exact hsne (by simpa using a)
            simpa [dashed] using Spells.flags fs hne hfs this
          · rw [e] at hg2 h2
            have := ih.1 g2 (Prod.ext hg2.symm h2)
            rw [c', d]
            simpa [dashed] using Spells.attached fs l v hfs a b this
          · rw [d] at hg2 h2
            obtain ⟨v, ws', gs', rfl, rfl, hs⟩ := ih.2 l g2 (Prod.ext hg2.symm h2)
            rw [b, c']
            simpa [dashed] using Spells.separate fs l v hfs a hs
        · simp at h
    · intro l gs h
      rw [getopt] at h
      simp only [Prod.mk.injEq] at h
      match gs, h with
      | (k, v) :: gs, h =>
        simp only [List.map_cons, List.cons.injEq, toItem, Item.opt.injEq] at h
        obtain ⟨⟨⟨rfl, rfl⟩, h1⟩, h2⟩ := h
        exact ⟨w, ws, gs, rfl, rfl, ih.1 gs (Prod.ext h1 h2)⟩

theorem spells_formed {gs : List Given} {ws : List Str} (h : Spells gs ws) : ∀ g ∈ gs, Formed g := by
  induction h with
  | done => simp
  | stop => simp
  | flags fs hne hfs _ ih =>
    intro g hg
    rcases List.mem_append.mp hg with hg | hg
    · obtain ⟨f, hf, rfl⟩ := List.mem_map.mp hg
      simp [Formed, hfs f hf]
    · exact ih g hg
  | attached fs l v hfs hl hv _ ih =>
    intro g hg
    rcases List.mem_append.mp hg with hg | hg
    · obtain ⟨f, hf, rfl⟩ := List.mem_map.mp hg
      simp [Formed, hfs f hf]
    · rcases List.mem_cons.mp hg with rfl | hg
      · simp [Formed, hl]
      · exact ih g hg
  | separate fs l v hfs hl _ ih =>
    intro g hg
    rcases List.mem_append.mp hg with hg | hg
    · obtain ⟨f, hf, rfl⟩ := List.mem_map.mp hg
      simp [Formed, hfs f hf]
    · rcases List.mem_cons.mp hg with rfl | hg
      · simp [Formed, hl]
      · exact ih g hg

/-! ## The loop -/

theorem vals_snoc (l k : Letter) (v : Option Str) (gs : List Given) :
    vals l (gs ++ [(k, v)]) = vals l gs ++ (if k = l then v.toList else []) := by
  unfold vals
  rw [List.filterMap_append]
  by_cases h : k = l
  · cases v <;> simp [h]
  · simp [h]

theorem has_snoc (l k : Letter) (v : Option Str) (gs : List Given) :
    has l (gs ++ [(k, v)]) = (has l gs || decide (k = l)) := by simp [has]

theorem lastOf_snoc (a b k : Letter) (v : Option Str) (gs : List Given) :
    lastOf a b (gs ++ [(k, v)]) = if k = a ∨ k = b then some (k, v) else lastOf a b gs := by
  unfold lastOf
  rw [List.filter_append]
  by_cases h : k = a ∨ k = b
  · have : (decide (k = a) || decide (k = b)) = true := by simpa using h
    simp [List.filter, h, this]
  · have : (decide (k = a) || decide (k = b)) = false := by simpa using h
    simp [List.filter, h, this]

theorem firstIs_cons (c d : Byte) (t : Str) : firstIs (d :: t) c = decide (d = c) := by simp [firstIs]

theorem isPrefixOf_one (c d : Byte) (t : Str) : [c].isPrefixOf (d :: t) = decide (d = c) := by
  by_cases h : d = c
  · simp [List.isPrefixOf, h]
  · simp [List.isPrefixOf, h, Ne.symm h]

theorem find_map {α β : Type} (p : α → Bool) (f : α → β) (x : α) (xs : List α) :
    ((x :: xs).find? p).map f = if p x = true then some (f x) else (xs.find? p).map f := by
  rw [List.find?_cons]
  cases p x <;> rfl

theorem map_if {α β : Type} (f : α → β) (p : Prop) [Decidable p] (a b : Option α) :
    (if p then a else b).map f = if p then a.map f else b.map f := by
  split <;> rfl

theorem parseAction_eq (v : Str) :
    parseAction v = (actionOf v).map (fun a => (a, overridesOf (.action, some v))) := by
  have hR : bytes "R" = [82] := by decide
  have hV : bytes "V" = [86] := by decide
  cases v with
  | nil => decide
  | cons c t =>
    have e : actionOf (c :: t) =
        if c = 98 then some .backup else if c = 116 then some .backupTimed else if c = 84 then some .timerCheck
        else if c = 114 then some .restore else if c = 82 then some .restore else if c = 118 then some .verify
        else if c = 86 then some .verify else if c = 108 then some .list else if c = 76 then some .listLong
        else if c = 112 then some .listParseable else if c = 115 then some .status
        else if c = 83 then some .statusSnapshot else if c = 101 then some .estimate
        else if (bytes "delete").isPrefixOf (c :: t) then some .delete
        else if c = 100 then some .diff else if c = 68 then some .diffLong else if c = 109 then some .monitor
        else none := by
      have h1 : bytes "b" = [98] := by decide
      have h2 : bytes "t" = [116] := by decide
      have h3 : bytes "T" = [84] := by decide
      have h4 : bytes "r" = [114] := by decide
      have h5 : bytes "v" = [118] := by decide
      have h6 : bytes "l" = [108] := by decide
      have h7 : bytes "L" = [76] := by decide
      have h8 : bytes "p" = [112] := by decide
      have h9 : bytes "s" = [115] := by decide
      have h10 : bytes "S" = [83] := by decide
      have h11 : bytes "e" = [101] := by decide
      have h12 : bytes "d" = [100] := by decide
      have h13 : bytes "D" = [68] := by decide
      have h14 : bytes "m" = [109] := by decide
      unfold actionOf actions
      simp only [find_map, h1, h2, h3, h4, h5, h6, h7, h8, h9, h10, h11, h12, h13, h14, hR, hV, isPrefixOf_one,
        decide_eq_true_eq, List.find?_nil, Option.map_none]
    rw [e]
    unfold parseAction overridesOf
    simp only [firstIs_cons, hR, hV, isPrefixOf_one, decide_eq_true_eq]
    by_cases hc1 : c = 82
    · subst hc1
      simp
    · by_cases hc2 : c = 86
      · subst hc2
        simp
      · simp only [hc1, hc2, if_false, decide_false, Bool.or_self, Bool.false_eq_true]
        simp only [map_if, Option.map_some, Option.map_none]

theorem step_plain (conffile : Str) (pre : List Given) {g : Given} (hf : Formed g) (hp : Plain g) :
    step (lineOf conffile pre) (toItem g) = .go (lineOf conffile (pre ++ [g])) := by
  obtain ⟨k, v⟩ := g
  cases k <;> simp [Formed, Letter.takes] at hf
  case action =>
    obtain ⟨v, rfl⟩ := Option.isSome_iff_exists.mp hf
    have ha : actionOf v ≠ none := fun e => hp.2 (Or.inr (Or.inr (Or.inr ⟨v, rfl, e⟩)))
    obtain ⟨a, ha⟩ := Option.ne_none_iff_exists'.mp ha
    simp [toItem, step, parseAction_eq, ha, lineOf, vals_snoc, has_snoc, lastOf_snoc]
  case backup =>
    obtain ⟨v, rfl⟩ := Option.isSome_iff_exists.mp hf
    simp [toItem, step, lineOf, vals_snoc, has_snoc, lastOf_snoc, overridesOf]
    generalize vals .backup pre = L
    match L with
    | [] => simp
    | [a] => simp
    | a :: b :: r => simp
  case symbols => exact absurd (Or.inl rfl) hp.1
  case version => exact absurd (Or.inr rfl) hp.1
  case help => exact absurd (Or.inl rfl) hp.2
  case question => exact absurd (Or.inr (Or.inl rfl)) hp.2
  case unused => exact absurd (Or.inr (Or.inr (Or.inl rfl))) hp.2
  all_goals first
    | (obtain ⟨v, rfl⟩ := Option.isSome_iff_exists.mp hf
       simp [toItem, step, lineOf, vals_snoc, has_snoc, lastOf_snoc, overridesOf]
       done)
    | (subst hf
       simp [toItem, step, lineOf, vals_snoc, has_snoc, lastOf_snoc, overridesOf]
       done)

theorem loop_plain (conffile : Str) : ∀ (gs pre : List Given), (∀ g ∈ gs, Formed g ∧ Plain g) →
    ∀ rest, loop (gs.map toItem ++ rest) (lineOf conffile pre) = loop rest (lineOf conffile (pre ++ gs))
  | [], pre, _, rest => by simp
  | g :: gs, pre, h, rest => by
    have h1 := h g (by simp)
    have ih := loop_plain conffile gs (pre ++ [g]) (fun x hx => h x (by simp [hx])) rest
    simp only [List.map_cons, List.cons_append]
    rw [loop, step_plain conffile pre h1.1 h1.2]
    simpa using ih

theorem lineOf_nil (conffile : Str) : lineOf conffile [] = Line.init conffile := rfl

theorem step_shows {g : Given} (h : Shows g) (l : Line) : step l (toItem g) = .shown := by
  obtain ⟨k, v⟩ := g
  rcases h with h | h <;> (simp only at h; subst h; rfl)

theorem step_helps {g : Given} (h : Helps g) (l : Line) : step l (toItem g) = .usage := by
  obtain ⟨k, v⟩ := g
  rcases h with h | h | h | ⟨w, h, hn⟩
  · simp only at h; subst h; rfl
  · simp only at h; subst h; rfl
  · simp only at h; subst h; rfl
  · injection h with h1 h2
    subst h1 h2
    simp [toItem, step, parseAction_eq, hn]

theorem loop_first (conffile : Str) (gs : List Given) {g : Given} (h : ∀ x ∈ gs, Formed x ∧ Plain x) (rest : List Item)
    : loop (gs.map toItem ++ toItem g :: rest) (Line.init conffile) =
      match step (lineOf conffile gs) (toItem g) with
      | .go l' => loop rest l'
      | s => s := by
  rw [← lineOf_nil, loop_plain conffile gs [] h]
  rfl

/-- Of a list that is done without an end, every member is an option. -/
theorem items_given : ∀ (is : List Item) (l : Line), (∃ l', loop is l = .go l') → ∃ gs : List Given, is = gs.map toItem
  | [], _, _ => ⟨[], rfl⟩
  | .bad :: is, l, h => by
    obtain ⟨l', h⟩ := h
    cases h
  | .opt k v :: is, l, h => by
    obtain ⟨l', h⟩ := h
    rw [loop] at h
    split at h
    · rename_i l'' _
      obtain ⟨gs, rfl⟩ := items_given is l'' ⟨l', h⟩
      exact ⟨(k, v) :: gs, rfl⟩
    · rename_i hn
      exact absurd h (hn l')

theorem plain_of_loop : ∀ (gs : List Given) (l : Line), (∃ l', loop (gs.map toItem) l = .go l') → ∀ g ∈ gs, Plain g
  | [], _, _ => by simp
  | g :: gs, l, h => by
    obtain ⟨l', h⟩ := h
    rw [List.map_cons, loop] at h
    have hp : Plain g := by
      refine ⟨?_, ?_⟩
      · intro hs
        rw [step_shows hs] at h
        cases h
      · intro hs
        rw [step_helps hs] at h
        cases h
    split at h
    · rename_i l'' _
      intro x hx
      rcases List.mem_cons.mp hx with rfl | hx
      · exact hp
      · exact plain_of_loop gs l'' ⟨l', h⟩ x hx
    · rename_i hn
      exact absurd h (hn l')

end Verif.CommandLine
