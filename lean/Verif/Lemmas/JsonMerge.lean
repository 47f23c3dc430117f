import Verif.Spec.JsonInput

namespace Verif.JsonInput

/-- An entry without the pointer back. -/
def core (e : Entry) : Entry := { e with prev := none }

/-- The latest one first. -/
def Desc (l : List Entry) : Prop := l.Pairwise (fun a b => b.bno < a.bno)

/-- An entry with what is new about it. -/
def renew (o n : Entry) : Entry := { o with flags := n.flags, timestamp := n.timestamp }

/-- What is new about an entry. -/
def newer (new : List Entry) (o : Entry) : Option Entry := new.find? (fun n => decide (o.bno = n.bno))

theorem map_core_setPrev (p) (l : List Entry) : (setPrev p l).map core = l.map core := by
  cases l <;> rfl

theorem core_renew {o o' n n' : Entry} (h : core o = core o') (hf : n.flags = n'.flags) (ht : n.timestamp = n'.timestamp) :
    core (renew o n) = core (renew o' n') := by
  obtain ⟨a, b, c, d, e⟩ := o
  obtain ⟨a', b', c', d', e'⟩ := o'
  simp only [core, renew, Entry.mk.injEq] at h ⊢
  simp [h, hf, ht]

theorem setPrev_bno (p) (l : List Entry) : (setPrev p l).map (·.bno) = l.map (·.bno) := by cases l <;> rfl

theorem setPrev_id (p) (l : List Entry) : (setPrev p l).map (·.id) = l.map (·.id) := by cases l <;> rfl

theorem setPrev_length (p) (l : List Entry) : (setPrev p l).length = l.length := by cases l <;> rfl

theorem mergeOld_nil (sel kept new) : mergeOld sel kept new [] = (kept.reverse, new, sel) := by
  rw [mergeOld.eq_def]

theorem mergeOld_found {sel kept new o rest n} (h : newer new o = some n) :
    mergeOld sel kept new (o :: rest) =
      mergeOld sel (renew o n :: kept) (new.eraseP (fun n => decide (o.bno = n.bno))) rest := by
  rw [mergeOld.eq_def]
  unfold newer at h
  dsimp only
  rw [h]
  rfl

theorem mergeOld_gone {sel l ls new o rest} (h : newer new o = none) :
    mergeOld sel (l :: ls) new (o :: rest) =
      mergeOld (if sel = some o.id then none else sel) (l :: ls) new (setPrev (some l.id) rest) := by
  rw [mergeOld.eq_def]
  unfold newer at h
  dsimp only
  rw [h]

theorem mergeOld_ends {sel new o rest} (h : newer new o = none) :
    mergeOld sel [] new (o :: rest) = (setPrev none rest, new, if sel = some o.id then none else sel) := by
  rw [mergeOld.eq_def]
  unfold newer at h
  dsimp only
  rw [h]

theorem newer_none {new : List Entry} {o} : newer new o = none ↔ o.bno ∉ new.map (·.bno) := by
  unfold newer
  rw [List.find?_eq_none]
  simp only [decide_eq_true_eq, List.mem_map, not_exists, not_and]
  exact ⟨fun h n hn e => h n hn e.symm, fun h n hn e => h n hn e.symm⟩

theorem newer_some {new : List Entry} {o n} (h : newer new o = some n) : n ∈ new ∧ n.bno = o.bno := by
  unfold newer at h
  have := List.find?_some h
  exact ⟨List.mem_of_find?_eq_some h, by simpa using Eq.symm (by simpa using this)⟩

theorem eraseP_filter {b : Nat} : ∀ {new : List Entry}, (new.map (·.bno)).Nodup →
    new.eraseP (fun n => decide (b = n.bno)) = new.filter (fun n => decide (n.bno ≠ b))
  | [], _ => rfl
  | n :: new, h => by
    rw [List.map_cons, List.nodup_cons] at h
    by_cases e : b = n.bno
    · rw [List.eraseP_cons_of_pos (by simpa using e), List.filter_cons_of_neg (by simp [e])]
      rw [List.filter_eq_self.mpr]
      intro m hm
      have : m.bno ≠ n.bno := fun c => h.1 (List.mem_map.mpr ⟨m, hm, c⟩)
      simp [e, this]
    · rw [List.eraseP_cons_of_neg (by simpa using e), List.filter_cons_of_pos (by simp [Ne.symm e]), eraseP_filter h.2]

theorem newer_filter {new : List Entry} {b : Nat} {o : Entry} (h : o.bno ≠ b) :
    newer (new.filter (fun n => decide (n.bno ≠ b))) o = newer new o := by
  unfold newer
  rw [List.find?_filter]
  congr 1
  funext n
  by_cases e : o.bno = n.bno
  · simp [e]; rw [← e]; exact h
  · simp [e]

theorem filter_nodup {new : List Entry} {p} (h : (new.map (·.bno)).Nodup) : ((new.filter p).map (·.bno)).Nodup :=
  h.sublist (List.filter_sublist.map _)

theorem filterMap_eq {f g : Entry → Option Entry} : ∀ {l : List Entry}, (∀ x ∈ l, f x = g x) → l.filterMap f = l.filterMap g
  | [], _ => rfl
  | a :: l, h => by
    rw [List.filterMap_cons, List.filterMap_cons, h a (by simp), filterMap_eq (fun x hx => h x (by simp [hx]))]

/-- The first loop, once something has been kept. -/
theorem mergeOld_spec : ∀ (rest : List Entry) (sel : Option Nat) (kept new : List Entry), kept ≠ [] →
    (new.map (·.bno)).Nodup → (rest.map (·.bno)).Nodup →
    (mergeOld sel kept new rest).1.map core =
      (kept.reverse ++ rest.filterMap (fun o => (newer new o).map (renew o))).map core ∧
    (mergeOld sel kept new rest).2.1 = new.filter (fun n => decide (n.bno ∉ rest.map (·.bno))) ∧
    (mergeOld sel kept new rest).2.2 =
      if ∃ o ∈ rest, sel = some o.id ∧ o.bno ∉ new.map (·.bno) then none else sel
  | [], sel, kept, new, _, _, _ => by
    rw [mergeOld_nil]
    refine ⟨by simp, ?_, by simp⟩
    exact (List.filter_eq_self.mpr (fun a _ => by simp)).symm
  | o :: rest, sel, kept, new, hk, hn, ho => by
    rw [List.map_cons, List.nodup_cons] at ho
    have hne : ∀ x ∈ rest, x.bno ≠ o.bno := fun x hx e => ho.1 (List.mem_map.mpr ⟨x, hx, e⟩)
    cases h : newer new o with
    | some n =>
      rw [mergeOld_found h, eraseP_filter hn]
      obtain ⟨h1, h2, h3⟩ := mergeOld_spec rest sel (renew o n :: kept) (new.filter (fun n => decide (n.bno ≠ o.bno)))
        (by simp) (filter_nodup hn) ho.2
      refine ⟨?_, ?_, ?_⟩
      · rw [h1]
        simp only [List.reverse_cons, List.append_assoc, List.singleton_append, List.filterMap_cons, h, Option.map_some]
        congr 3
        exact filterMap_eq (fun x hx => by rw [newer_filter (hne x hx)])
      · rw [h2, List.filter_filter]
        congr 1
        funext m
        by_cases e : m.bno = o.bno
        · simp [e]
        · simp [e]
      · rw [h3]
        have hin : o.bno ∈ new.map (·.bno) := List.mem_map.mpr ⟨n, newer_some h⟩
        have hiff : (∃ x ∈ rest, sel = some x.id ∧ x.bno ∉ (new.filter (fun n => decide (n.bno ≠ o.bno))).map (·.bno)) ↔
            ∃ x ∈ o :: rest, sel = some x.id ∧ x.bno ∉ new.map (·.bno) := by
          constructor
          · rintro ⟨x, hx, h4, h5⟩
            refine ⟨x, by simp [hx], h4, fun c => h5 ?_⟩
            obtain ⟨m, hm, hmb⟩ := List.mem_map.mp c
            exact List.mem_map.mpr ⟨m, List.mem_filter.mpr ⟨hm, by simp [hmb, hne x hx]⟩, hmb⟩
          · rintro ⟨x, hx, h4, h5⟩
            rcases List.mem_cons.mp hx with rfl | hx
            · exact absurd hin h5
            · refine ⟨x, hx, h4, fun c => h5 ?_⟩
              obtain ⟨m, hm, hmb⟩ := List.mem_map.mp c
              exact List.mem_map.mpr ⟨m, (List.mem_filter.mp hm).1, hmb⟩
        simp only [hiff]
    | none =>
      obtain ⟨l, ls, rfl⟩ : ∃ l ls, kept = l :: ls := by
        cases kept with
        | nil => exact absurd rfl hk
        | cons l ls => exact ⟨l, ls, rfl⟩
      rw [mergeOld_gone h]
      obtain ⟨h1, h2, h3⟩ := mergeOld_spec (setPrev (some l.id) rest) (if sel = some o.id then none else sel)
        (l :: ls) new (by simp) hn (by rw [setPrev_bno]; exact ho.2)
      have hnew := newer_none.mp h
      refine ⟨?_, ?_, ?_⟩
      · rw [h1]
        simp only [List.filterMap_cons, h, Option.map_none, List.map_append]
        congr 1
        cases rest with
        | nil => rfl
        | cons r rs =>
          simp only [setPrev, List.filterMap_cons]
          have : newer new { r with prev := some l.id } = newer new r := rfl
          rw [this]
          cases newer new r <;> rfl
      · rw [h2, setPrev_bno]
        refine List.filter_congr (fun m hm => ?_)
        have : m.bno ≠ o.bno := fun c => hnew (List.mem_map.mpr ⟨m, hm, c⟩)
        simp [this]
      · rw [h3]
        have hiff : (∃ x ∈ setPrev (some l.id) rest, (if sel = some o.id then none else sel) = some x.id ∧
            x.bno ∉ new.map (·.bno)) ↔ ∃ x ∈ rest, (if sel = some o.id then none else sel) = some x.id ∧
            x.bno ∉ new.map (·.bno) := by
          cases rest with
          | nil => rfl
          | cons r rs => simp [setPrev]
        simp only [hiff]
        by_cases e : sel = some o.id
        · have hex : ∃ x ∈ o :: rest, sel = some x.id ∧ x.bno ∉ new.map (·.bno) := ⟨o, by simp, e, hnew⟩
          rw [if_pos e, if_pos hex]
          simp
        · rw [if_neg e]
          have hiff2 : (∃ x ∈ rest, sel = some x.id ∧ x.bno ∉ new.map (·.bno)) ↔
              ∃ x ∈ o :: rest, sel = some x.id ∧ x.bno ∉ new.map (·.bno) := by
            constructor
            · rintro ⟨x, hx, h4⟩; exact ⟨x, by simp [hx], h4⟩
            · rintro ⟨x, hx, h4⟩
              rcases List.mem_cons.mp hx with rfl | hx
              · exact absurd h4.1 e
              · exact ⟨x, hx, h4⟩
          simp only [hiff2]
  termination_by rest => rest.length
  decreasing_by
  · first | (rw [setPrev_length]; exact Nat.lt_succ_self _) | exact Nat.lt_succ_self _
  · first | (rw [setPrev_length]; exact Nat.lt_succ_self _) | exact Nat.lt_succ_self _

theorem nodup_bno {l : List Entry} (h : (l.map (·.bno)).Nodup) {a b : Entry} (ha : a ∈ l) (hb : b ∈ l) (e : a.bno = b.bno) :
    a = b := by
  induction l with
  | nil => cases ha
  | cons x l ih =>
    rw [List.map_cons, List.nodup_cons] at h
    rcases List.mem_cons.mp ha with ha' | ha' <;> rcases List.mem_cons.mp hb with hb' | hb'
    · rw [ha', hb']
    · exact absurd (List.mem_map.mpr ⟨b, hb', ha' ▸ e.symm⟩) h.1
    · exact absurd (List.mem_map.mpr ⟨a, ha', hb' ▸ e⟩) h.1
    · exact ih h.2 ha' hb'

/-! ### The second loop -/

theorem place_core (n : Entry) : ∀ (last : Option Nat) (l : List Entry) (e : Entry),
    e ∈ (place n last l).map core ↔ e = core n ∨ e ∈ l.map core
  | last, [], e => by simp [place, core]
  | last, o :: l, e => by
    unfold place
    split
    · rw [List.map_cons, List.mem_cons, place_core n (some o.id) l e, List.map_cons, List.mem_cons]
      constructor
      · rintro (h | h | h)
        · exact .inr (.inl h)
        · exact .inl h
        · exact .inr (.inr h)
      · rintro (h | h | h)
        · exact .inr (.inl h)
        · exact .inl h
        · exact .inr (.inr h)
    · split <;> simp [core]

theorem core_bno (e : Entry) : (core e).bno = e.bno := rfl

theorem mem_core {l : List Entry} {e} (h : e ∈ l) : core e ∈ l.map core := List.mem_map.mpr ⟨e, h, rfl⟩

theorem place_desc (n : Entry) : ∀ (last : Option Nat) (l : List Entry), Desc l → (∀ e ∈ l, e.bno ≠ n.bno) →
    Desc (place n last l)
  | last, [], _, _ => by simp [place, Desc]
  | last, o :: l, hd, hn => by
    obtain ⟨h1, h2⟩ := List.pairwise_cons.mp hd
    unfold place
    split
    · rename_i hlt
      refine List.pairwise_cons.mpr ⟨?_, place_desc n (some o.id) l h2 (fun e he => hn e (by simp [he]))⟩
      intro e he
      rcases (place_core n (some o.id) l (core e)).mp (mem_core he) with hc | hc
      · have : e.bno = n.bno := by rw [← core_bno, hc]; rfl
        omega
      · obtain ⟨e', he', hc⟩ := List.mem_map.mp hc
        have : e.bno = e'.bno := by rw [← core_bno, ← hc]; rfl
        rw [this]; exact h1 e' he'
    · rename_i hlt
      have hno := hn o (by simp)
      have hlt' : o.bno < n.bno := by omega
      refine List.pairwise_cons.mpr ⟨?_, ?_⟩
      · intro e he
        rcases List.mem_cons.mp he with rfl | he
        · split <;> exact hlt'
        · exact Nat.lt_trans (h1 e he) hlt'
      · refine List.pairwise_cons.mpr ⟨?_, h2⟩
        intro e he
        split <;> exact h1 e he

theorem foldl_place : ∀ (ns l : List Entry), Desc l → (∀ n ∈ ns, ∀ e ∈ l, e.bno ≠ n.bno) → (ns.map (·.bno)).Nodup →
    Desc (ns.foldl (fun l n => place n none l) l) ∧
    ∀ e, e ∈ (ns.foldl (fun l n => place n none l) l).map core ↔ e ∈ ns.map core ∨ e ∈ l.map core
  | [], l, hd, _, _ => ⟨hd, by simp⟩
  | n :: ns, l, hd, hne, hnd => by
    rw [List.map_cons, List.nodup_cons] at hnd
    rw [List.foldl_cons]
    have hd' := place_desc n none l hd (hne n (by simp))
    obtain ⟨h1, h2⟩ := foldl_place ns (place n none l) hd' (by
      intro m hm e he
      rcases (place_core n none l (core e)).mp (mem_core he) with hc | hc
      · have : e.bno = n.bno := by rw [← core_bno, hc]; rfl
        rw [this]
        exact fun c => hnd.1 (List.mem_map.mpr ⟨m, hm, c.symm⟩)
      · obtain ⟨e', he', hc⟩ := List.mem_map.mp hc
        have : e.bno = e'.bno := by rw [← core_bno, ← hc]; rfl
        rw [this]; exact hne m (by simp [hm]) e' he') hnd.2
    refine ⟨h1, fun e => ?_⟩
    rw [h2, place_core, List.map_cons, List.mem_cons]
    constructor
    · rintro (h | h | h)
      · exact .inl (.inr h)
      · exact .inl (.inl h)
      · exact .inr h
    · rintro ((h | h) | h)
      · exact .inr (.inl h)
      · exact .inl h
      · exact .inr (.inr h)

/-! ### Nothing dangles -/

theorem place_ids (n : Entry) : ∀ (last : Option Nat) (l : List Entry) (i : Nat),
    i ∈ (place n last l).map (·.id) ↔ i = n.id ∨ i ∈ l.map (·.id)
  | last, [], i => by simp [place]
  | last, o :: l, i => by
    unfold place
    split
    · rw [List.map_cons, List.mem_cons, place_ids n (some o.id) l i, List.map_cons, List.mem_cons]
      constructor
      · rintro (h | h | h)
        · exact .inr (.inl h)
        · exact .inl h
        · exact .inr (.inr h)
      · rintro (h | h | h)
        · exact .inr (.inl h)
        · exact .inl h
        · exact .inr (.inr h)
    · split <;> simp

theorem foldl_place_ids : ∀ (ns l : List Entry) (i : Nat),
    i ∈ (ns.foldl (fun l n => place n none l) l).map (·.id) ↔ i ∈ ns.map (·.id) ∨ i ∈ l.map (·.id)
  | [], l, i => by simp
  | n :: ns, l, i => by
    rw [List.foldl_cons, foldl_place_ids ns, place_ids, List.map_cons, List.mem_cons]
    constructor
    · rintro (h | h | h)
      · exact .inl (.inr h)
      · exact .inl (.inl h)
      · exact .inr h
    · rintro ((h | h) | h)
      · exact .inr (.inl h)
      · exact .inl h
      · exact .inr (.inr h)

/-- What is still selected is still there. -/
theorem mergeOld_sel : ∀ (rest : List Entry) (sel : Option Nat) (kept new : List Entry) (i : Nat),
    (mergeOld sel kept new rest).2.2 = some i → sel = some i ∧
      (i ∈ (kept ++ rest).map (·.id) → i ∈ (mergeOld sel kept new rest).1.map (·.id))
  | [], sel, kept, new, i, h => by
    rw [mergeOld_nil] at h ⊢
    exact ⟨h, by simp⟩
  | o :: rest, sel, kept, new, i, h => by
    cases hn : newer new o with
    | some n =>
      rw [mergeOld_found hn] at h ⊢
      obtain ⟨h1, h2⟩ := mergeOld_sel rest _ _ _ i h
      refine ⟨h1, fun hm => h2 ?_⟩
      simp only [List.map_append, List.mem_append, List.map_cons, List.mem_cons, List.cons_append, renew] at hm ⊢
      rcases hm with hm | hm | hm
      · exact .inr (.inl hm)
      · exact .inl hm
      · exact .inr (.inr hm)
    | none =>
      have key : ∀ {s : Option Nat}, (if s = some o.id then none else s) = some i → s = some i ∧ i ≠ o.id := by
        intro s hs
        by_cases e : s = some o.id
        · rw [if_pos e] at hs; cases hs
        · rw [if_neg e] at hs
          exact ⟨hs, fun c => e (c ▸ hs)⟩
      cases kept with
      | nil =>
        rw [mergeOld_ends hn] at h ⊢
        obtain ⟨h1, h2⟩ := key h
        refine ⟨h1, fun hm => ?_⟩
        dsimp only
        rw [setPrev_id]
        simpa [h2] using hm
      | cons l ls =>
        rw [mergeOld_gone hn] at h ⊢
        obtain ⟨h1, h2⟩ := mergeOld_sel _ _ _ _ i h
        obtain ⟨h3, h4⟩ := key h1
        refine ⟨h3, fun hm => h2 ?_⟩
        rw [List.map_append, setPrev_id, List.mem_append]
        rw [List.map_append, List.mem_append, List.map_cons (l := rest), List.mem_cons] at hm
        rcases hm with hm | hm | hm
        · exact .inl hm
        · exact absurd hm h4
        · exact .inr hm
  termination_by rest => rest.length
  decreasing_by
  · first | (rw [setPrev_length]; exact Nat.lt_succ_self _) | exact Nat.lt_succ_self _
  · first | (rw [setPrev_length]; exact Nat.lt_succ_self _) | exact Nat.lt_succ_self _

theorem merge_sel {sel : Option Nat} {old new : List Entry} {i : Nat} (h : (mergeBuLists sel old new).2 = some i) :
    sel = some i ∧ (i ∈ old.map (·.id) → i ∈ (mergeBuLists sel old new).1.map (·.id)) := by
  obtain ⟨h1, h2⟩ := mergeOld_sel old sel [] new i h
  refine ⟨h1, fun hm => ?_⟩
  unfold mergeBuLists
  rw [foldl_place_ids]
  exact .inr (h2 (by simpa using hm))

/-! ### Both loops -/

/-- The first loop does not end too early. -/
def HeadKept (old new : List Entry) : Prop :=
  old.length ≤ 1 ∨ ∃ o ∈ old.head?, o.bno ∈ new.map (·.bno)

theorem mergeOld_whole {sel : Option Nat} {old new : List Entry} (hn : (new.map (·.bno)).Nodup)
    (ho : (old.map (·.bno)).Nodup) (hh : HeadKept old new) :
    (mergeOld sel [] new old).1.map core = (old.filterMap (fun o => (newer new o).map (renew o))).map core ∧
    (mergeOld sel [] new old).2.1 = new.filter (fun n => decide (n.bno ∉ old.map (·.bno))) ∧
    (mergeOld sel [] new old).2.2 =
      if ∃ o ∈ old, sel = some o.id ∧ o.bno ∉ new.map (·.bno) then none else sel := by
  cases old with
  | nil =>
    rw [mergeOld_nil]
    exact ⟨by simp, (List.filter_eq_self.mpr (fun a _ => by simp)).symm, by simp⟩
  | cons o rest =>
    cases h : newer new o with
    | some n =>
      rw [List.map_cons, List.nodup_cons] at ho
      have hne : ∀ x ∈ rest, x.bno ≠ o.bno := fun x hx e => ho.1 (List.mem_map.mpr ⟨x, hx, e⟩)
      rw [mergeOld_found h, eraseP_filter hn]
      obtain ⟨h1, h2, h3⟩ := mergeOld_spec rest sel [renew o n] (new.filter (fun n => decide (n.bno ≠ o.bno)))
        (by simp) (filter_nodup hn) ho.2
      refine ⟨?_, ?_, ?_⟩
      · rw [h1]
        simp only [List.reverse_cons, List.reverse_nil, List.nil_append, List.singleton_append, List.filterMap_cons, h,
          Option.map_some]
        congr 2
        exact filterMap_eq (fun x hx => by rw [newer_filter (hne x hx)])
      · rw [h2, List.filter_filter]
        congr 1
        funext m
        by_cases e : m.bno = o.bno
        · simp [e]
        · simp [e]
      · rw [h3]
        have hin : o.bno ∈ new.map (·.bno) := List.mem_map.mpr ⟨n, newer_some h⟩
        have hiff : (∃ x ∈ rest, sel = some x.id ∧ x.bno ∉ (new.filter (fun n => decide (n.bno ≠ o.bno))).map (·.bno)) ↔
            ∃ x ∈ o :: rest, sel = some x.id ∧ x.bno ∉ new.map (·.bno) := by
          constructor
          · rintro ⟨x, hx, h4, h5⟩
            refine ⟨x, by simp [hx], h4, fun c => h5 ?_⟩
            obtain ⟨m, hm, hmb⟩ := List.mem_map.mp c
            exact List.mem_map.mpr ⟨m, List.mem_filter.mpr ⟨hm, by simp [hmb, hne x hx]⟩, hmb⟩
          · rintro ⟨x, hx, h4, h5⟩
            rcases List.mem_cons.mp hx with rfl | hx
            · exact absurd hin h5
            · refine ⟨x, hx, h4, fun c => h5 ?_⟩
              obtain ⟨m, hm, hmb⟩ := List.mem_map.mp c
              exact List.mem_map.mpr ⟨m, (List.mem_filter.mp hm).1, hmb⟩
        simp only [hiff]
    | none =>
      have hnew := newer_none.mp h
      rcases hh with hh | ⟨x, hx, hxn⟩
      · obtain rfl : rest = [] := List.eq_nil_of_length_eq_zero (by simp only [List.length_cons] at hh; omega)
        rw [mergeOld_ends h]
        refine ⟨by simp [h, setPrev], ?_, ?_⟩
        · refine (List.filter_eq_self.mpr (fun m hm => ?_)).symm
          have : m.bno ≠ o.bno := fun c => hnew (List.mem_map.mpr ⟨m, hm, c⟩)
          simp [this]
        · dsimp only
          by_cases e : sel = some o.id
          · rw [if_pos e, if_pos ⟨o, by simp, e, hnew⟩]
          · rw [if_neg e, if_neg (by
              rintro ⟨x, hx, h4, _⟩
              rw [List.mem_singleton] at hx
              exact e (hx ▸ h4))]
      · cases hx
        exact absurd hxn hnew

theorem map_core_bno (l : List Entry) : (l.map core).map (·.bno) = l.map (·.bno) := by
  rw [List.map_map]; rfl

theorem desc_iff {l : List Entry} : Desc l ↔ (l.map (·.bno)).Pairwise (fun a b => b < a) := by
  unfold Desc
  rw [List.pairwise_map]

theorem desc_nodup {l : List Entry} (h : Desc l) : (l.map (·.bno)).Nodup :=
  (desc_iff.mp h).imp (fun h e => by omega)

theorem renewed_sublist (new : List Entry) : ∀ (old : List Entry),
    ((old.filterMap (fun o => (newer new o).map (renew o))).map (·.bno)).Sublist (old.map (·.bno))
  | [] => List.Sublist.slnil
  | o :: old => by
    rw [List.filterMap_cons]
    cases newer new o with
    | none => exact (renewed_sublist new old).cons _
    | some n => exact (renewed_sublist new old).cons_cons _

/-- The whole of it: what is there afterwards. -/
theorem merge_spec {sel : Option Nat} {old new : List Entry} (hn : (new.map (·.bno)).Nodup)
    (ho : Desc old) (hh : HeadKept old new) :
    Desc (mergeBuLists sel old new).1 ∧
    (∀ e, e ∈ (mergeBuLists sel old new).1.map core ↔
      (∃ o ∈ old, ∃ n ∈ new, o.bno = n.bno ∧ e = core (renew o n)) ∨
      (∃ n ∈ new, n.bno ∉ old.map (·.bno) ∧ e = core n)) ∧
    (mergeBuLists sel old new).2 =
      if ∃ o ∈ old, sel = some o.id ∧ o.bno ∉ new.map (·.bno) then none else sel := by
  obtain ⟨h1, h2, h3⟩ := mergeOld_whole (sel := sel) hn (desc_nodup ho) hh
  have hb : (mergeOld sel [] new old).1.map (·.bno) = (old.filterMap (fun o => (newer new o).map (renew o))).map (·.bno) := by
    rw [← map_core_bno, h1, map_core_bno]
  have hsub : ((mergeOld sel [] new old).1.map (·.bno)).Sublist (old.map (·.bno)) := hb ▸ renewed_sublist new old
  have hd : Desc (mergeOld sel [] new old).1 := desc_iff.mpr ((desc_iff.mp ho).sublist hsub)
  unfold mergeBuLists
  dsimp only
  rw [h2]
  obtain ⟨h4, h5⟩ := foldl_place (new.filter (fun n => decide (n.bno ∉ old.map (·.bno)))) (mergeOld sel [] new old).1 hd
    (by
      intro n hm e he c
      have := (List.mem_filter.mp hm).2
      rw [decide_eq_true_eq] at this
      exact this (c ▸ hsub.subset (List.mem_map.mpr ⟨e, he, rfl⟩)))
    (filter_nodup hn)
  refine ⟨h4, fun e => ?_, h3⟩
  rw [h5, h1]
  constructor
  · rintro (h | h)
    · obtain ⟨n, hm, rfl⟩ := List.mem_map.mp h
      obtain ⟨hm, hm2⟩ := List.mem_filter.mp hm
      exact .inr ⟨n, hm, by simpa using hm2, rfl⟩
    · obtain ⟨x, hx, rfl⟩ := List.mem_map.mp h
      obtain ⟨o, hox, hx⟩ := List.mem_filterMap.mp hx
      cases hnw : newer new o with
      | none => rw [hnw] at hx; cases hx
      | some n =>
        rw [hnw, Option.map_some] at hx
        cases hx
        exact .inl ⟨o, hox, n, (newer_some hnw).1, (newer_some hnw).2.symm, rfl⟩
  · rintro (⟨o, hox, n, hnx, hbn, rfl⟩ | ⟨n, hnx, hbn, rfl⟩)
    · refine .inr (List.mem_map.mpr ⟨renew o n, List.mem_filterMap.mpr ⟨o, hox, ?_⟩, rfl⟩)
      cases hnw : newer new o with
      | none => exact absurd (List.mem_map.mpr ⟨n, hnx, hbn.symm⟩) (newer_none.mp hnw)
      | some m =>
        have : m = n := by
          obtain ⟨hm1, hm2⟩ := newer_some hnw
          exact nodup_bno hn hm1 hnx (by omega)
        rw [this]; rfl
    · exact .inl (List.mem_map.mpr ⟨n, List.mem_filter.mpr ⟨hnx, by simpa using hbn⟩, rfl⟩)

/-! ### The pointers back -/

theorem linked_append : ∀ (a b : List Entry) (p : Option Nat),
    Linked p (a ++ b) ↔ Linked p a ∧ Linked ((a.getLast?.map (·.id)).or p) b
  | [], b, p => by simp [Linked]
  | [x], b, p => by simp [Linked]
  | x :: y :: a, b, p => by
    rw [List.cons_append, Linked, linked_append (y :: a) b (some x.id), Linked, List.getLast?_cons_cons]
    obtain ⟨z, hz⟩ : ∃ z, (y :: a).getLast? = some z := ⟨_, List.getLast?_eq_some_getLast (by simp)⟩
    rw [hz, Option.map_some, Option.some_or, Option.some_or, Linked, Linked, and_assoc, and_assoc, and_assoc]

theorem linked_setPrev {p q} : ∀ {l : List Entry}, Linked p l → Linked q (setPrev q l)
  | [], _ => trivial
  | _ :: _, h => ⟨rfl, h.2⟩

theorem mergeOld_linked : ∀ (rest : List Entry) (sel : Option Nat) (kept new : List Entry),
    Linked none (kept.reverse ++ rest) → Linked none (mergeOld sel kept new rest).1
  | [], sel, kept, new, h => by
    rw [mergeOld_nil]
    simpa using h
  | o :: rest, sel, kept, new, h => by
    cases hn : newer new o with
    | some n =>
      rw [mergeOld_found hn]
      refine mergeOld_linked rest _ _ _ ?_
      rw [List.reverse_cons, List.append_assoc]
      rw [linked_append] at h ⊢
      exact ⟨h.1, h.2⟩
    | none =>
      rw [linked_append] at h
      cases kept with
      | nil =>
        rw [mergeOld_ends hn]
        exact linked_setPrev h.2.2
      | cons l ls =>
        rw [mergeOld_gone hn]
        refine mergeOld_linked _ _ _ _ ?_
        rw [linked_append]
        refine ⟨h.1, ?_⟩
        have : ((l :: ls).reverse.getLast?.map (·.id)).or none = some l.id := by simp
        rw [this]
        exact linked_setPrev h.2.2
  termination_by rest => rest.length
  decreasing_by
  · first | (rw [setPrev_length]; exact Nat.lt_succ_self _) | exact Nat.lt_succ_self _
  · first | (rw [setPrev_length]; exact Nat.lt_succ_self _) | exact Nat.lt_succ_self _

theorem place_end (n : Entry) : ∀ (last : Option Nat) (l : List Entry), (∀ e ∈ l, n.bno < e.bno) → Linked last l →
    Linked last (place n last l)
  | last, [], _, _ => ⟨rfl, trivial⟩
  | last, o :: l, hl, h => by
    unfold place
    rw [if_pos (hl o (by simp))]
    exact ⟨h.1, place_end n (some o.id) l (fun e he => hl e (by simp [he])) h.2⟩

theorem place_start (n : Entry) : ∀ (l : List Entry), (∀ e ∈ l, e.bno < n.bno) → Linked none l →
    Linked none (place n none l)
  | [], _, _ => ⟨rfl, trivial⟩
  | o :: l, hl, h => by
    unfold place
    rw [if_neg (by have := hl o (by simp); omega), if_pos rfl]
    exact ⟨rfl, rfl, h.2⟩

theorem place_bno {n e : Entry} {l : List Entry} (h : e ∈ place n none l) : e.bno = n.bno ∨ e.bno ∈ l.map (·.bno) := by
  rcases (place_core n none l (core e)).mp (mem_core h) with hc | hc
  · left; rw [← core_bno, hc]; rfl
  · obtain ⟨e', he', hc⟩ := List.mem_map.mp hc
    right
    exact List.mem_map.mpr ⟨e', he', by rw [← core_bno, hc]; rfl⟩

theorem foldl_end : ∀ (ns l : List Entry), Desc ns → (∀ n ∈ ns, ∀ e ∈ l, n.bno < e.bno) → Linked none l →
    Linked none (ns.foldl (fun l n => place n none l) l)
  | [], _, _, _, h => h
  | n :: ns, l, hd, hlt, h => by
    obtain ⟨h1, h2⟩ := List.pairwise_cons.mp hd
    rw [List.foldl_cons]
    refine foldl_end ns _ h2 ?_ (place_end n none l (hlt n (by simp)) h)
    intro m hm e he
    rcases place_bno he with hb | hb
    · rw [hb]; exact h1 m hm
    · obtain ⟨x, hx, hxb⟩ := List.mem_map.mp hb
      rw [← hxb]; exact hlt m (by simp [hm]) x hx

end Verif.JsonInput
