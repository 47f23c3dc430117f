import Verif.Spec.Session
import Verif.Props.Phase2
import Verif.Props.Merge
import Verif.Props.History

/-! Helper lemmas for whole backups. -/

namespace Verif.Session
open Verif.Phase2 Verif.Manifest Verif.History

variable {C D S P : Type}

theorem hasData_iff (c : Cmd) : hasData c = true ↔ c ∈ dataKinds := by
  cases c <;> decide

theorem pair_mem {α : Type} {R : α → α → Prop} {l : List α} (h : l.Pairwise R) {a b : α} (ha : a ∈ l)
    (hb : b ∈ l) : a = b ∨ R a b ∨ R b a := by
  induction l with
  | nil => cases ha
  | cons x xs ih =>
    rw [List.pairwise_cons] at h
    rcases List.mem_cons.1 ha with ea | ha'
    · rcases List.mem_cons.1 hb with eb | hb'
      · exact .inl (ea.trans eb.symm)
      · exact .inr (.inl (ea ▸ h.1 b hb'))
    · rcases List.mem_cons.1 hb with eb | hb'
      · exact .inr (.inr (eb ▸ h.1 a ha'))
      · exact ih h.2 ha' hb'

theorem find_unique {α : Type} {p : α → Bool} {l : List α} {a : α} (ha : a ∈ l) (hp : p a = true)
    (hu : ∀ b ∈ l, p b = true → b = a) : l.find? p = some a := by
  cases h : l.find? p with
  | none =>
    have := List.find?_eq_none.1 h a ha
    exact absurd hp this
  | some b =>
    rw [hu b (List.mem_of_find?_eq_some h) (List.find?_some h)]

/-! ### What phase 2 decides -/

/-- What is known about something that is recorded. -/
structure OutFacts (s : Settings) (rel : Ent → Ent → Option Ent) (scan prev : List Ent) (o : Out Ent) : Prop where
  new : ∀ p, o = .new p → p ∈ scan
  changed : ∀ p c, o = .changed p c → p ∈ scan ∧ c ∈ prev ∧ SameKey (entKey c) (entKey p) ∧
    (p.cmd ∉ dataKinds ∨ DeltaAllowed s c p)
  unchanged : ∀ p c, o = .unchanged p c → p ∈ scan ∧ c ∈ prev ∧ SameKey (entKey c) (entKey p) ∧
    (LooksSame s.windows c p ∨ LinkBecameFile c p ∧ (rel c p).isSome = true)

theorem out_facts (s : Settings) (P : List Ent) (ex : Str → Bool) {scan prev : List Ent}
    (hs : SortedBy entKey scan) (hp : SortedBy entKey prev) (hn : NoClash entKey (scan ++ prev)) :
    ∀ o ∈ phase2 (entWalk s P ex) scan (some prev), OutFacts s (relink P ex) scan prev o := by
  obtain ⟨h1, h2, h3, _⟩ := C15_classification (entWalk s P ex) (C15_walk_meets_hypothesis s P ex)
    scan prev hs hp hn
  intro o ho
  refine ⟨?_, ?_, ?_⟩
  · rintro p rfl
    exact ((h1 p).1 ho).1
  · rintro p c rfl
    obtain ⟨a, b, c1, d⟩ := (h2 p c).1 ho
    refine ⟨a, b, c1, ?_⟩
    change deltaStuff s (relink P ex) c p = .changed ∨ deltaStuff s (relink P ex) c p = .doneChanged at d
    rcases d with d | d
    · exact .inr ((C16_delta_iff s _ c p).1 d).2
    · exact .inl ((C16_attributes_iff s _ c p).1 d).2.2
  · rintro p c rfl
    obtain ⟨a, b, c1, d⟩ := (h3 p c).1 ho
    exact ⟨a, b, c1, (C16_carried_over_iff s _ c p).1 d⟩

theorem phase2_none (w : Walk Ent) (scan : List Ent) : phase2 w scan none = phase2 w scan (some []) := by
  rw [phase2_flat, phase2_flat]; rfl

/-- Different things are recorded about different entries of the scan. -/
theorem outs_sorted (w : Walk Ent) {scan : List Ent} (prev : Option (List Ent)) (hs : SortedBy entKey scan) :
    (phase2 w scan prev).Pairwise (fun o o' => ∀ p, o.scanned = some p → ∀ p', o'.scanned = some p' →
      EntryLt (entKey p) (entKey p')) := by
  have h := C15_each_scanned_once w scan prev
  unfold SortedBy at hs
  rw [← h, List.pairwise_filterMap] at hs
  exact hs.imp (fun h p hp p' hp' => h p hp p' hp')

theorem outs_unique {w : Walk Ent} {scan : List Ent} {prev : Option (List Ent)} (hs : SortedBy entKey scan)
    {o o' : Out Ent} (ho : o ∈ phase2 w scan prev) (ho' : o' ∈ phase2 w scan prev) {p p' : Ent}
    (hp : o.scanned = some p) (hp' : o'.scanned = some p') (hk : SameKey (entKey p) (entKey p')) : o = o' := by
  rcases pair_mem (outs_sorted w prev hs) ho ho' with h | h | h
  · exact h
  · exact absurd hk (h p hp p' hp').not_same
  · exact absurd hk.symm (h p' hp' p hp).not_same

theorem scanned_mem {w : Walk Ent} {scan : List Ent} {prev : Option (List Ent)} {o : Out Ent}
    (ho : o ∈ phase2 w scan prev) {p : Ent} (hp : o.scanned = some p) : p ∈ scan := by
  rw [← C15_each_scanned_once w scan prev, List.mem_filterMap]
  exact ⟨o, ho, hp⟩

/-! ### What is known of a stored backup -/

/-- A manifest agrees with what is wanted of the storage. -/
def Facts (plain : Ent → C → P) (entries : List Ent) (file : Key → P) (man : List (Key × Str))
    (want : Key → Option C) : Prop :=
  SortedBy entKey entries ∧
  (∀ e ∈ entries, (e.cmd ∈ dataKinds ↔ e.datapth ≠ none)) ∧
  (∀ e ∈ entries, ∀ d, e.datapth = some d → (entKey e, d) ∈ man ∧
    ∃ c, want (entKey e) = some c ∧ plain e c = file (entKey e)) ∧
  (∀ e ∈ entries, ∀ e' ∈ entries, ∀ d, e.datapth = some d → e'.datapth = some d → e = e')

/-- A manifest agrees with what the client had. -/
def Mirrors (entries : List Ent) (v : Visit C P) : Prop :=
  (∀ e ∈ entries, ∃ p ∈ v.scan, entKey e = entKey p ∧
    (attributes e = attributes p ∨
      p.cmd ∈ dataKinds ∧ ∃ r c, v.ans p = some (r, c) ∧ attributes e = attributes r)) ∧
  (∀ p ∈ v.scan, (∃ e ∈ entries, entKey e = entKey p) ∨ p.cmd ∈ dataKinds ∧ v.ans p = none)

/-! ### One entry -/

/-- Everything that is fixed during a backup, with what is known about it. `x` is what the previous backup
should contain. -/
structure Ctx (L : Librsync C D S) (plain : Ent → C → P) (s : Settings) (data : Str → Option C)
    (alloc : Ent → Str) (v : Visit C P) (prev : List Ent) (x : Option (Dated C D Key)) (pfile : Key → P)
    (rel : Ent → Ent → Option Ent) : Prop where
  plain_ok : GoodPlain plain
  truth : Truthful plain v
  prev_sorted : SortedBy entKey prev
  prev_data : ∀ e ∈ prev, (e.cmd ∈ dataKinds ↔ e.datapth ≠ none)
  prev_own : ∀ e ∈ prev, ∀ d, e.datapth = some d → ∃ y c, x = some y ∧ (entKey e, d) ∈ y.b.man ∧
    y.want (entKey e) = some c ∧ data d = some c ∧ plain e c = pfile (entKey e)
  prev_inj : ∀ e ∈ prev, ∀ e' ∈ prev, ∀ d, e.datapth = some d → e'.datapth = some d → e = e'
  data_eq : ∀ y, x = some y → ∀ d, data d = y.b.data d
  steady : ∀ p ∈ v.scan, ∀ c ∈ prev, SameKey (entKey c) (entKey p) →
    (LooksSame s.windows c p → p.cmd ∈ dataKinds → v.file (entKey p) = pfile (entKey p)) ∧
    (LinkBecameFile c p → p.cmd = .file ∧
      ∀ h ∈ prev, h.path = c.link → h.cmd = .file → v.file (entKey p) = pfile (entKey h))
  alloc_inj : ∀ p ∈ v.scan, ∀ q ∈ v.scan, alloc p = alloc q → p = q
  alloc_new : ∀ p ∈ v.scan, data (alloc p) = none ∨
    ∃ c ∈ prev, c.datapth = some (alloc p) ∧ SameKey (entKey c) (entKey p)
  rel_ok : ∀ c p h, rel c p = some h → h ∈ prev ∧ h.path = c.link ∧ h.cmd = p.cmd ∧
    ∃ d, h.datapth = some d

/-- How the data of an entry come to be `c`: the cases of `Arrives`. -/
def Comes (L : Librsync C D S) (x : Option (Dated C D Key)) (i : Item C D) (d : Str) (c : C) : Prop :=
  (∃ y a, x = some y ∧ (entKey i.entry, d) ∈ y.b.man ∧ y.want (entKey i.entry) = some a ∧
    i.fwd = some (L.delta (L.sig a) c)) ∨
  (i.fwd = none ∧ i.tmp = some c) ∨
  (∃ y, x = some y ∧ (entKey i.entry, d) ∈ y.b.man ∧ i.fwd = none ∧ i.tmp = none ∧
    y.want (entKey i.entry) = some c) ∨
  (i.fwd = none ∧ i.tmp = none ∧ (∀ y, x = some y → y.b.data d = none) ∧ i.rel = some c)

/-- What is known about a recorded entry. -/
structure ItemFacts (L : Librsync C D S) (plain : Ent → C → P) (alloc : Ent → Str) (v : Visit C P)
    (prev : List Ent) (x : Option (Dated C D Key)) (p : Ent) (i : Item C D) : Prop where
  key : entKey i.entry = entKey p
  attr : attributes i.entry = attributes p ∨
    p.cmd ∈ dataKinds ∧ ∃ r c, v.ans p = some (r, c) ∧ attributes i.entry = attributes r
  has : i.entry.cmd ∈ dataKinds ↔ i.entry.datapth ≠ none
  comes : ∀ d, i.entry.datapth = some d →
    ∃ c, Comes L x i d c ∧ plain i.entry c = v.file (entKey i.entry)
  origin : ∀ d, i.entry.datapth = some d → d = alloc p ∨
    ∃ c ∈ prev, c.datapth = some d ∧ SameKey (entKey c) (entKey p)

variable {L : Librsync C D S} {plain : Ent → C → P} {s : Settings} {data : Str → Option C}
  {alloc : Ent → Str} {v : Visit C P} {prev : List Ent} {x : Option (Dated C D Key)} {pfile : Key → P}
  {rel : Ent → Ent → Option Ent}

theorem entKey_cmd {a b : Ent} (h : entKey a = entKey b) : a.cmd = b.cmd := congrArg Prod.fst h

/-- An entry without data is recorded as it is. -/
theorem bare_facts (hx : Ctx L plain s data alloc v prev x pfile rel) {p : Ent} (hp : p ∈ v.scan)
    (hk : p.cmd ∉ dataKinds) : ItemFacts L plain alloc v prev x p ({ entry := p } : Item C D) := by
  have hn := hx.truth.2.1 p hp
  refine ⟨rfl, .inl rfl, ?_, ?_, ?_⟩
  · simp [hk, hn]
  · intro d hd; rw [hn] at hd; cases hd
  · intro d hd; rw [hn] at hd; cases hd

theorem item_facts (hx : Ctx L plain s data alloc v prev x pfile rel) {o : Out Ent}
    (ho : OutFacts s rel v.scan prev o) {i : Item C D}
    (hi : item L data rel alloc v.ans o = some i) :
    ∃ p, o.scanned = some p ∧ p ∈ v.scan ∧ ItemFacts L plain alloc v prev x p i := by
  cases o with
  | new p =>
    have hp := ho.new p rfl
    refine ⟨p, rfl, hp, ?_⟩
    unfold item at hi
    by_cases hd : hasData p.cmd = true
    · simp only [hd, if_true] at hi
      obtain ⟨⟨r, c⟩, hr, rfl⟩ := Option.map_eq_some_iff.1 hi
      have hk := (hasData_iff _).1 hd
      obtain ⟨h1, h2⟩ := hx.truth.2.2 p hp hk r c hr
      have hc : r.cmd = p.cmd := entKey_cmd h1
      refine ⟨h1, .inr ⟨hk, r, c, hr, rfl⟩, ?_, ?_, ?_⟩
      · simp [hc, hk]
      · intro d _
        refine ⟨c, .inr (.inl ⟨rfl, rfl⟩), ?_⟩
        rw [← h1] at h2
        refine Eq.trans ?_ h2
        exact hx.plain_ok _ _ _ rfl (.inr ⟨rfl, rfl⟩)
      · intro d h
        simp only [Option.some.injEq] at h
        exact .inl h.symm
    · simp only [hd, Bool.false_eq_true, if_false, Option.some.injEq] at hi
      subst hi
      exact bare_facts hx hp (fun h => hd ((hasData_iff _).2 h))
  | changed p c =>
    obtain ⟨hp, hc, hs, hk⟩ := ho.changed p c rfl
    refine ⟨p, rfl, hp, ?_⟩
    unfold item at hi
    by_cases hd : hasData p.cmd = true
    · simp only [hd, if_true] at hi
      have hkd := (hasData_iff _).1 hd
      rcases hk with hk | hk
      · exact absurd hkd hk
      have hcf : c.cmd = .file := hk.2.2.1
      have hpf : p.cmd = .file := hk.2.2.2.1
      have hck : entKey c = entKey p := Prod.ext (hcf.trans hpf.symm) hs.1
      cases hdp : c.datapth with
      | none =>
        have := (hx.prev_data c hc).1 (by rw [hcf]; decide)
        exact absurd hdp this
      | some d =>
        obtain ⟨y, a, hy, hm, hw, hda, _⟩ := hx.prev_own c hc d hdp
        rw [hdp] at hi
        simp only [Option.bind_some, hda] at hi
        obtain ⟨⟨r, b⟩, hr, rfl⟩ := Option.map_eq_some_iff.1 hi
        obtain ⟨h1, h2⟩ := hx.truth.2.2 p hp hkd r b hr
        have hrc : r.cmd = p.cmd := entKey_cmd h1
        have e1 : entKey { r with datapth := some d } = entKey c := by
          rw [hck]; exact h1
        refine ⟨h1, .inr ⟨hkd, r, b, hr, rfl⟩, ?_, ?_, ?_⟩
        · simp [hrc, hkd]
        · intro d' hd'
          simp only [Option.some.injEq] at hd'
          subst hd'
          refine ⟨b, .inl ⟨y, a, hy, ?_, ?_, rfl⟩, ?_⟩
          · show (entKey { r with datapth := some d }, d) ∈ _
            rw [e1]; exact hm
          · show y.want (entKey { r with datapth := some d }) = _
            rw [e1]; exact hw
          · rw [← h1] at h2
            refine Eq.trans ?_ h2
            exact hx.plain_ok _ _ _ rfl (.inr ⟨rfl, rfl⟩)
        · intro d' hd'
          simp only [Option.some.injEq] at hd'
          subst hd'
          exact .inr ⟨c, hc, hdp, hs⟩
    · simp only [hd, Bool.false_eq_true, if_false, Option.some.injEq] at hi
      subst hi
      exact bare_facts hx hp (fun h => hd ((hasData_iff _).2 h))
  | unchanged p c =>
    obtain ⟨hp, hc, hs, hk⟩ := ho.unchanged p c rfl
    refine ⟨p, rfl, hp, ?_⟩
    obtain ⟨st1, st2⟩ := hx.steady p hp c hc hs
    unfold item at hi
    dsimp only at hi
    by_cases hcp : c.cmd = p.cmd
    · rw [if_neg (fun h => h hcp)] at hi
      simp only [Option.some.injEq] at hi
      subst hi
      have hck : entKey c = entKey p := Prod.ext hcp hs.1
      have hl : LooksSame s.windows c p := by
        rcases hk with h | ⟨⟨h1, h2, _⟩, _⟩
        · exact h
        · rw [← hcp, h1] at h2; simp at h2
      have hpd := hx.prev_data c hc
      refine ⟨rfl, .inl rfl, ?_, ?_, ?_⟩
      · show p.cmd ∈ dataKinds ↔ c.datapth ≠ none
        rw [← hcp]; exact hpd
      · intro d hd
        have hd' : c.datapth = some d := hd
        obtain ⟨y, a, hy, hm, hw, _, hpl⟩ := hx.prev_own c hc d hd'
        have e1 : entKey (unchangedRecord p c) = entKey c := by rw [hck]; rfl
        refine ⟨a, .inr (.inr (.inl ⟨y, hy, ?_, rfl, rfl, ?_⟩)), ?_⟩
        · show (entKey (unchangedRecord p c), d) ∈ _
          rw [e1]; exact hm
        · show y.want (entKey (unchangedRecord p c)) = _
          rw [e1]; exact hw
        · have h3 : p.cmd ∈ dataKinds := by
            rw [← hcp]; exact hpd.2 (by rw [hd']; simp)
          show plain (unchangedRecord p c) a = v.file (entKey p)
          rw [st1 hl h3, ← hck, ← hpl]
          exact hx.plain_ok _ _ _ hcp.symm (.inr ⟨rfl, rfl⟩)
      · intro d hd
        exact .inr ⟨c, hc, hd, hs⟩
    · rw [if_pos hcp] at hi
      rcases hk with h | ⟨hlb, hrs⟩
      · exact absurd h.1 hcp
      cases hrel : rel c p with
      | none => rw [hrel] at hi; cases hi
      | some h =>
        rw [hrel] at hi
        simp only [Option.some.injEq] at hi
        subst hi
        obtain ⟨hf, hcont⟩ := st2 hlb
        obtain ⟨h1, h2, h3, dh, h4⟩ := hx.rel_ok c p h hrel
        obtain ⟨y, a, hy, hm, hw, hda, hpl⟩ := hx.prev_own h h1 dh h4
        refine ⟨rfl, .inl rfl, ?_, ?_, ?_⟩
        · show p.cmd ∈ dataKinds ↔ some (alloc p) ≠ none
          rw [hf]; simp; decide
        · intro d hd
          have hd' : some (alloc p) = some d := hd
          simp only [Option.some.injEq] at hd'
          refine ⟨a, .inr (.inr (.inr ⟨rfl, rfl, ?_, ?_⟩)), ?_⟩
          · intro y' hy'
            rw [← hx.data_eq y' hy' d, ← hd']
            rcases hx.alloc_new p hp with h5 | ⟨c2, hc2, h6, h7⟩
            · exact h5
            · have : c2 = c := sorted_same_eq hx.prev_sorted hc2 hc (h7.trans hs.symm)
              rw [this] at h6
              have h8 := (hx.prev_data c hc).2 (by rw [h6]; simp)
              rw [hlb.1] at h8
              exact absurd h8 (by decide)
          · show h.datapth.bind data = some a
            rw [h4]; exact hda
          · show plain _ a = v.file (entKey p)
            rw [hcont h h1 h2 (h3.trans hf), ← hpl]
            exact hx.plain_ok _ _ _ (show p.cmd = h.cmd from h3.symm) (.inl hf)
        · intro d hd
          have hd' : some (alloc p) = some d := hd
          simp only [Option.some.injEq] at hd'
          exact .inl hd'.symm
  | deleted c => simp [item] at hi

/-- Entries with one data path are one entry. -/
theorem origin_unique (hx : Ctx L plain s data alloc v prev x pfile rel) {p p' : Ent} (hp : p ∈ v.scan)
    (hp' : p' ∈ v.scan) {d : Str}
    (h : d = alloc p ∨ ∃ c ∈ prev, c.datapth = some d ∧ SameKey (entKey c) (entKey p))
    (h' : d = alloc p' ∨ ∃ c ∈ prev, c.datapth = some d ∧ SameKey (entKey c) (entKey p')) : p = p' := by
  have key : ∀ {q q' : Ent}, q ∈ v.scan → q' ∈ v.scan → d = alloc q →
      (∃ c ∈ prev, c.datapth = some d ∧ SameKey (entKey c) (entKey q')) → q = q' := by
    intro q q' hq hq' e ⟨c, hc, hcd, hcs⟩
    rcases hx.alloc_new q hq with h5 | ⟨c2, hc2, h6, h7⟩
    · obtain ⟨_, a, _, _, _, hda, _⟩ := hx.prev_own c hc d hcd
      rw [← e, hda] at h5; cases h5
    · have : c2 = c := hx.prev_inj c2 hc2 c hc d (by rw [e]; exact h6) hcd
      subst this
      exact sorted_same_eq hx.truth.1 hq hq' (h7.symm.trans hcs)
  rcases h with e | h
  · rcases h' with e' | h'
    · exact hx.alloc_inj p hp p' hp' (e ▸ e')
    · exact key hp hp' e h'
  · rcases h' with e' | h'
    · exact (key hp' hp e' h).symm
    · obtain ⟨c, hc, hcd, hcs⟩ := h
      obtain ⟨c', hc', hcd', hcs'⟩ := h'
      have : c = c' := hx.prev_inj c hc c' hc' d hcd hcd'
      subst this
      exact sorted_same_eq hx.truth.1 hp hp' (hcs.symm.trans hcs')

/-! ### All entries -/

/-- Everything that is recorded. -/
abbrev itemsOf (L : Librsync C D S) (data : Str → Option C) (rel : Ent → Ent → Option Ent) (alloc : Ent → Str)
    (v : Visit C P) (outs : List (Out Ent)) : List (Item C D) :=
  outs.filterMap (item L data rel alloc v.ans)

/-- The merged manifest. -/
abbrev manOf (L : Librsync C D S) (data : Str → Option C) (rel : Ent → Ent → Option Ent) (alloc : Ent → Str)
    (v : Visit C P) (outs : List (Out Ent)) : List Ent :=
  phase3 entKey ((itemsOf L data rel alloc v (outs.filter (fun o => !late o))).map Item.entry)
    ((itemsOf L data rel alloc v (outs.filter late)).map Item.entry)

/-- What phase 4 gets. -/
abbrev incOf (L : Librsync C D S) (data : Str → Option C) (rel : Ent → Ent → Option Ent) (alloc : Ent → Str)
    (v : Visit C P) (outs : List (Out Ent)) : Incoming C D Key :=
  { man := (manOf L data rel alloc v outs).filterMap storedAs
    fwd := lookup (itemsOf L data rel alloc v outs) Item.fwd
    tmp := lookup (itemsOf L data rel alloc v outs) Item.tmp
    rel := lookup (itemsOf L data rel alloc v outs) Item.rel }

/-- What is known of the list of decisions. -/
structure Outs (s : Settings) (rel : Ent → Ent → Option Ent) (scan prev : List Ent) (outs : List (Out Ent)) : Prop where
  facts : ∀ o ∈ outs, OutFacts s rel scan prev o
  sorted : outs.Pairwise (fun o o' => ∀ p, o.scanned = some p → ∀ p', o'.scanned = some p' →
      EntryLt (entKey p) (entKey p'))
  all : ∀ p ∈ scan, ∃ o ∈ outs, o.scanned = some p
  noclash : NoClash entKey scan

variable {outs : List (Out Ent)}

theorem Outs.unique (h : Outs s rel v.scan prev outs) {o o' : Out Ent} (ho : o ∈ outs) (ho' : o' ∈ outs)
    {p p' : Ent} (hp : o.scanned = some p) (hp' : o'.scanned = some p')
    (hk : SameKey (entKey p) (entKey p')) : o = o' := by
  rcases pair_mem h.sorted ho ho' with h | h | h
  · exact h
  · exact absurd hk (h p hp p' hp').not_same
  · exact absurd hk.symm (h p' hp' p hp).not_same

theorem man_mem {e : Ent} : e ∈ manOf L data rel alloc v outs ↔
    ∃ i ∈ itemsOf L data rel alloc v outs, i.entry = e := by
  rw [phase3_mem]
  simp only [List.mem_map, List.mem_filterMap, List.mem_filter]
  constructor
  · rintro (⟨i, ⟨o, ⟨ho, _⟩, hi⟩, rfl⟩ | ⟨i, ⟨o, ⟨ho, _⟩, hi⟩, rfl⟩) <;> exact ⟨i, ⟨o, ho, hi⟩, rfl⟩
  · rintro ⟨i, ⟨o, ho, hi⟩, rfl⟩
    cases hl : late o
    · exact .inl ⟨i, ⟨o, ⟨ho, by simp [hl]⟩, hi⟩, rfl⟩
    · exact .inr ⟨i, ⟨o, ⟨ho, hl⟩, hi⟩, rfl⟩

theorem items_sorted (hx : Ctx L plain s data alloc v prev x pfile rel) (h : Outs s rel v.scan prev outs)
    {q : List (Out Ent)} (hq : q.Sublist outs) :
    SortedBy entKey ((itemsOf L data rel alloc v q).map Item.entry) := by
  unfold SortedBy
  rw [List.pairwise_map, List.pairwise_filterMap]
  refine (h.sorted.sublist hq).imp_of_mem ?_
  intro o o' ho ho' hlt i hi i' hi'
  obtain ⟨p, hp, _, f⟩ := item_facts hx (h.facts o (hq.subset ho)) hi
  obtain ⟨p', hp', _, f'⟩ := item_facts hx (h.facts o' (hq.subset ho')) hi'
  rw [f.key, f'.key]
  exact hlt p hp p' hp'

theorem man_sorted (hx : Ctx L plain s data alloc v prev x pfile rel) (h : Outs s rel v.scan prev outs) :
    SortedBy entKey (manOf L data rel alloc v outs) := by
  have hsub1 : (outs.filter (fun o => !late o)).Sublist outs := List.filter_sublist
  have hsub2 : (outs.filter late).Sublist outs := List.filter_sublist
  have src : ∀ q : List (Out Ent), (∀ o ∈ q, o ∈ outs) →
      ∀ e ∈ (itemsOf L data rel alloc v q).map Item.entry, ∃ o ∈ q, ∃ p, o.scanned = some p ∧ p ∈ v.scan ∧
        entKey e = entKey p := by
    intro q hq e he
    obtain ⟨i, hi, rfl⟩ := List.mem_map.1 he
    obtain ⟨o, ho, hi⟩ := List.mem_filterMap.1 hi
    obtain ⟨p, hp, hps, f⟩ := item_facts hx (h.facts o (hq o ho)) hi
    exact ⟨o, ho, p, hp, hps, f.key⟩
  apply C17_each_path_once_partial
  · intro a ha b hb
    have mem : ∀ e, e ∈ (itemsOf L data rel alloc v (outs.filter (fun o => !late o))).map Item.entry ++
        (itemsOf L data rel alloc v (outs.filter late)).map Item.entry → ∃ p ∈ v.scan, entKey e = entKey p := by
      intro e he
      rcases List.mem_append.1 he with he | he
      · obtain ⟨_, _, p, _, hp, hk⟩ := src _ hsub1.subset e he; exact ⟨p, hp, hk⟩
      · obtain ⟨_, _, p, _, hp, hk⟩ := src _ hsub2.subset e he; exact ⟨p, hp, hk⟩
    obtain ⟨p, hp, e1⟩ := mem a ha
    obtain ⟨p', hp', e2⟩ := mem b hb
    rw [e1, e2]
    exact h.noclash p hp p' hp'
  · exact items_sorted hx h hsub1
  · exact items_sorted hx h hsub2
  · intro u hu c hc hs
    obtain ⟨o, ho, p, hp, _, e1⟩ := src _ hsub1.subset u hu
    obtain ⟨o', ho', p', hp', _, e2⟩ := src _ hsub2.subset c hc
    rw [List.mem_filter] at ho ho'
    rw [e1, e2] at hs
    have := h.unique ho.1 ho'.1 hp hp' hs
    subst this
    have h1 := ho.2
    rw [ho'.2] at h1
    cases h1

theorem items_unique (hx : Ctx L plain s data alloc v prev x pfile rel) (h : Outs s rel v.scan prev outs)
    {i i' : Item C D} (hi : i ∈ itemsOf L data rel alloc v outs) (hi' : i' ∈ itemsOf L data rel alloc v outs)
    (hk : (∃ d, i.entry.datapth = some d ∧ i'.entry.datapth = some d) ∨ entKey i.entry = entKey i'.entry) :
    i = i' := by
  obtain ⟨o, ho, hi⟩ := List.mem_filterMap.1 hi
  obtain ⟨o', ho', hi'⟩ := List.mem_filterMap.1 hi'
  obtain ⟨p, hp, hps, f⟩ := item_facts hx (h.facts o ho) hi
  obtain ⟨p', hp', hps', f'⟩ := item_facts hx (h.facts o' ho') hi'
  have hpp : SameKey (entKey p) (entKey p') := by
    rcases hk with ⟨d, hd, hd'⟩ | hk
    · rw [origin_unique hx hps hps' (f.origin d hd) (f'.origin d hd')]
      exact ⟨rfl, rfl⟩
    · rw [f.key, f'.key] at hk
      rw [hk]; exact ⟨rfl, rfl⟩
  have := h.unique ho ho' hp hp' hpp
  subst this
  rw [hi] at hi'
  exact Option.some.inj hi'

theorem lookup_eq (hx : Ctx L plain s data alloc v prev x pfile rel) (h : Outs s rel v.scan prev outs)
    {X : Type} (f : Item C D → Option X) {i : Item C D} (hi : i ∈ itemsOf L data rel alloc v outs) {d : Str}
    (hd : i.entry.datapth = some d) : lookup (itemsOf L data rel alloc v outs) f d = f i := by
  unfold lookup
  rw [find_unique hi (by simp [hd]) (fun b hb hbd =>
    items_unique hx h hb hi (.inl ⟨d, by simpa using hbd, hd⟩))]
  rfl

/-- What was received is what the storage needs. -/
theorem session_arrives (hx : Ctx L plain s data alloc v prev x pfile rel) (h : Outs s rel v.scan prev outs) :
    ∃ want : Key → Option C, Arrives L x (incOf L data rel alloc v outs) want ∧
      ∀ i ∈ itemsOf L data rel alloc v outs, ∀ d, i.entry.datapth = some d →
        ∃ c, want (entKey i.entry) = some c ∧ plain i.entry c = v.file (entKey i.entry) := by
  classical
  have fi : ∀ i ∈ itemsOf L data rel alloc v outs, ∀ d, i.entry.datapth = some d →
      ∃ c, Comes L x i d c ∧ plain i.entry c = v.file (entKey i.entry) := by
    intro i hi d hd
    obtain ⟨o, ho, hi⟩ := List.mem_filterMap.1 hi
    obtain ⟨p, _, _, f⟩ := item_facts hx (h.facts o ho) hi
    exact f.comes d hd
  let Q : Key → C → Prop := fun k c => ∃ i ∈ itemsOf L data rel alloc v outs, ∃ d, i.entry.datapth = some d ∧
    entKey i.entry = k ∧ Comes L x i d c ∧ plain i.entry c = v.file (entKey i.entry)
  let want : Key → Option C := fun k => if hq : ∃ c, Q k c then some hq.choose else none
  have hw : ∀ i ∈ itemsOf L data rel alloc v outs, ∀ d, i.entry.datapth = some d →
      ∃ c, want (entKey i.entry) = some c ∧ Comes L x i d c ∧ plain i.entry c = v.file (entKey i.entry) := by
    intro i hi d hd
    obtain ⟨c, hc1, hc2⟩ := fi i hi d hd
    have hq : ∃ c, Q (entKey i.entry) c := ⟨c, i, hi, d, hd, rfl, hc1, hc2⟩
    obtain ⟨i', hi', d', hd', hk, h1, h2⟩ := hq.choose_spec
    have hii := items_unique hx h hi' hi (.inr hk)
    subst hii
    rw [hd] at hd'
    cases hd'
    exact ⟨hq.choose, dif_pos hq, h1, h2⟩
  refine ⟨want, ⟨?_, ?_, ?_, ?_⟩, ?_⟩
  · rw [List.nodup_iff_pairwise_ne, List.pairwise_map, List.pairwise_filterMap]
    refine (man_sorted hx h).imp ?_
    intro a b hab ka hka kb hkb
    unfold storedAs at hka hkb
    obtain ⟨da, _, rfl⟩ := Option.map_eq_some_iff.1 hka
    obtain ⟨db, _, rfl⟩ := Option.map_eq_some_iff.1 hkb
    intro e
    simp only at e
    rw [e] at hab
    exact EntryLt.irrefl hab
  · rw [List.nodup_iff_pairwise_ne, List.pairwise_map, List.pairwise_filterMap]
    refine (man_sorted hx h).imp_of_mem ?_
    intro a b ha hb hab ka hka kb hkb
    unfold storedAs at hka hkb
    obtain ⟨da, hda, rfl⟩ := Option.map_eq_some_iff.1 hka
    obtain ⟨db, hdb, rfl⟩ := Option.map_eq_some_iff.1 hkb
    intro e
    simp only at e
    subst e
    obtain ⟨i, hi, rfl⟩ := man_mem.1 ha
    obtain ⟨j, hj, rfl⟩ := man_mem.1 hb
    have := items_unique hx h hi hj (.inl ⟨da, hda, hdb⟩)
    subst this
    exact EntryLt.irrefl hab
  · intro k hk
    have hq : ∃ c, Q k c := by
      apply Classical.byContradiction
      intro hn
      exact hk (dif_neg hn)
    obtain ⟨c, i, hi, d, hd, hki, _⟩ := hq
    rw [List.mem_map]
    refine ⟨(k, d), ?_, rfl⟩
    rw [List.mem_filterMap]
    exact ⟨i.entry, man_mem.2 ⟨i, hi, rfl⟩, by unfold storedAs; rw [hd, hki]; rfl⟩
  · intro k d hkd
    obtain ⟨e, he, hse⟩ := List.mem_filterMap.1 hkd
    unfold storedAs at hse
    obtain ⟨d', hd', heq⟩ := Option.map_eq_some_iff.1 hse
    simp only [Prod.mk.injEq] at heq
    obtain ⟨rfl, rfl⟩ := heq
    obtain ⟨i, hi, rfl⟩ := man_mem.1 he
    obtain ⟨c, hc, hcomes, _⟩ := hw i hi d' hd'
    have l1 := lookup_eq hx h Item.fwd hi hd'
    have l2 := lookup_eq hx h Item.tmp hi hd'
    have l3 := lookup_eq hx h Item.rel hi hd'
    simp only [l1, l2, l3]
    rcases hcomes with ⟨y, a, h1, h2, h3, h4⟩ | ⟨h1, h2⟩ | ⟨y, h1, h2, h3, h4, h5⟩ | ⟨h1, h2, h3, h4⟩
    · exact .inl ⟨y, a, _, h1, h2, h3, h4, .inl ⟨c, rfl, hc⟩⟩
    · exact .inr (.inl ⟨c, h1, h2, hc⟩)
    · exact .inr (.inr (.inl ⟨y, h1, h2, h3, h4, hc.trans h5.symm⟩))
    · exact .inr (.inr (.inr ⟨c, h1, h2, h3, h4, hc⟩))
  · intro i hi d hd
    obtain ⟨c, h1, _, h2⟩ := hw i hi d hd
    exact ⟨c, h1, h2⟩

theorem item_none (hx : Ctx L plain s data alloc v prev x pfile rel) {o : Out Ent}
    (ho : OutFacts s rel v.scan prev o) (hf : failed data o = false) {p : Ent} (hp : o.scanned = some p)
    (hi : item L data rel alloc v.ans o = none) : p.cmd ∈ dataKinds ∧ v.ans p = none := by
  cases o with
  | new q =>
    simp only [Out.scanned, Option.some.injEq] at hp
    subst hp
    unfold item at hi
    by_cases hd : hasData q.cmd = true
    · simp only [hd, if_true, Option.map_eq_none_iff] at hi
      exact ⟨(hasData_iff _).1 hd, hi⟩
    · simp [hd] at hi
  | changed q c =>
    simp only [Out.scanned, Option.some.injEq] at hp
    subst hp
    unfold item at hi
    by_cases hd : hasData q.cmd = true
    · simp only [failed, hd, Bool.true_and] at hf
      simp only [hd, if_true] at hi
      cases hb : c.datapth.bind data with
      | none => rw [hb] at hf; cases hf
      | some a =>
        rw [hb] at hi
        simp only [Option.map_eq_none_iff] at hi
        exact ⟨(hasData_iff _).1 hd, hi⟩
    · simp [hd] at hi
  | unchanged q c =>
    obtain ⟨_, _, _, hk⟩ := ho.unchanged q c rfl
    unfold item at hi
    dsimp only at hi
    by_cases hcp : c.cmd = q.cmd
    · rw [if_neg (fun h => h hcp)] at hi; cases hi
    · rw [if_pos hcp] at hi
      rcases hk with h | ⟨_, hr⟩
      · exact absurd h.1 hcp
      · cases hrel : rel c q with
        | none => rw [hrel] at hr; cases hr
        | some h => rw [hrel] at hi; cases hi
  | deleted c => cases hp

theorem man_mirrors (hx : Ctx L plain s data alloc v prev x pfile rel) (h : Outs s rel v.scan prev outs)
    (hf : outs.any (failed data) = false) : Mirrors (manOf L data rel alloc v outs) v := by
  constructor
  · intro e he
    obtain ⟨i, hi, rfl⟩ := man_mem.1 he
    obtain ⟨o, ho, hi⟩ := List.mem_filterMap.1 hi
    obtain ⟨p, _, hps, f⟩ := item_facts hx (h.facts o ho) hi
    exact ⟨p, hps, f.key, f.attr⟩
  · intro p hp
    obtain ⟨o, ho, hop⟩ := h.all p hp
    have hfo : failed data o = false := by
      have := List.any_eq_false.1 hf o ho
      simpa using this
    cases hi : item L data rel alloc v.ans o with
    | none => exact .inr (item_none hx (h.facts o ho) hfo hop hi)
    | some i =>
      left
      obtain ⟨q, hq, _, f⟩ := item_facts hx (h.facts o ho) hi
      rw [hop] at hq
      cases hq
      exact ⟨i.entry, man_mem.2 ⟨i, List.mem_filterMap.2 ⟨o, ho, hi⟩, rfl⟩, f.key⟩

theorem man_facts (hx : Ctx L plain s data alloc v prev x pfile rel) (h : Outs s rel v.scan prev outs)
    {want : Key → Option C} {man : List (Key × Str)}
    (hw : ∀ i ∈ itemsOf L data rel alloc v outs, ∀ d, i.entry.datapth = some d →
        ∃ c, want (entKey i.entry) = some c ∧ plain i.entry c = v.file (entKey i.entry))
    (hm : ∀ e ∈ manOf L data rel alloc v outs, ∀ d, e.datapth = some d → (entKey e, d) ∈ man) :
    Facts plain (manOf L data rel alloc v outs) v.file man want := by
  refine ⟨man_sorted hx h, ?_, ?_, ?_⟩
  · intro e he
    obtain ⟨i, hi, rfl⟩ := man_mem.1 he
    obtain ⟨o, ho, hi⟩ := List.mem_filterMap.1 hi
    obtain ⟨p, _, _, f⟩ := item_facts hx (h.facts o ho) hi
    exact f.has
  · intro e he d hd
    obtain ⟨i, hi, rfl⟩ := man_mem.1 he
    exact ⟨hm _ he d hd, hw i hi d hd⟩
  · intro e he e' he' d hd hd'
    obtain ⟨i, hi, rfl⟩ := man_mem.1 he
    obtain ⟨j, hj, rfl⟩ := man_mem.1 he'
    rw [items_unique hx h hi hj (.inl ⟨d, hd, hd'⟩)]

/-! ### The history -/

theorem finish_man {K : Type} [DecidableEq K] {inc : Incoming C D K} {bno : Nat} {hard : Bool}
    {l0 l : List (Backup C D K)} (h : finish L bno hard inc l0 = some l) : ∃ new : Backup C D K,
      l.map Backup.man = l0.map Backup.man ++ [new.man] ∧ l.getLast? = some new ∧
      ∀ kd ∈ new.man, kd ∈ inc.man := by
  unfold finish at h
  simp only at h
  split at h
  · cases h
  · rename_i st dels _
    rcases List.eq_nil_or_concat l0 with rfl | ⟨o, y, e⟩
    · simp only [List.getLast?_nil, Option.some.injEq] at h
      subst h
      exact ⟨_, rfl, rfl, fun kd hkd => (List.mem_filter.1 hkd).1⟩
    · rw [List.concat_eq_append] at e
      subst e
      simp only [List.getLast?_append, List.getLast?_singleton, Option.some_or, Option.some.injEq,
        List.dropLast_concat] at h
      subst h
      refine ⟨⟨bno, hard, inc.man.filter (fun e => !dels.contains e.1), fun d => (st d).fin, fun _ => none⟩,
        ?_, ?_, fun kd hkd => (List.mem_filter.1 hkd).1⟩
      · simp only [List.map_append, List.map_cons, List.map_nil, List.append_assoc, List.cons_append,
          List.nil_append]
        split <;> rfl
      · simp

/-- What is known of a history. -/
def Inv (L : Librsync C D S) (plain : Ent → C → P) (H : List (Made C D P)) : Prop :=
  ∃ Z : List (Made C D P × Dated C D Key), H = Z.map Prod.fst ∧ Reachable L (Z.map Prod.snd) ∧
    ∀ z ∈ Z, z.2.b = z.1.b ∧ Facts plain z.1.entries z.1.visit.file z.1.b.man z.2.want ∧
      Mirrors z.1.entries z.1.visit

theorem OutFacts.mono {p q scan : List Ent} {o : Out Ent} (h : OutFacts s rel scan p o)
    (hs : ∀ e ∈ p, e ∈ q) : OutFacts s rel scan q o := by
  refine ⟨h.new, ?_, ?_⟩
  · intro a b e
    obtain ⟨h1, h2, h3⟩ := h.changed a b e
    exact ⟨h1, hs b h2, h3⟩
  · intro a b e
    obtain ⟨h1, h2, h3⟩ := h.unchanged a b e
    exact ⟨h1, hs b h2, h3⟩

/-- The circumstances of a backup in a history. -/
theorem session_ctx (hL : L.Sound) (hpl : GoodPlain plain) {Z : List (Made C D P × Dated C D Key)}
    (hr : Reachable L (Z.map Prod.snd))
    (hz : ∀ z ∈ Z, z.2.b = z.1.b ∧ Facts plain z.1.entries z.1.visit.file z.1.b.man z.2.want ∧
      Mirrors z.1.entries z.1.visit)
    (ht : Truthful plain v)
    (hst : ∀ x, (Z.map Prod.fst).getLast? = some x → Steady s.windows v x ∧ NoClash entKey (v.scan ++ x.entries))
    (hnc : NoClash entKey v.scan) (hal : GoodAlloc alloc v (Z.map Prod.fst).getLast?) (reset : Bool) :
    let l := (Z.map Prod.fst).map Made.b
    let prev := (Z.map Prod.fst).getLast?.map Made.entries
    let data : Str → Option C := fun d => l.getLast?.bind (fun b => b.data d)
    let rel := relink (prev.getD []) (fun d => (data d).isSome)
    let w := entWalk s (prev.getD []) (fun d => (data d).isSome)
    (∃ pfile, Ctx L plain s data alloc v (prev.getD []) (Z.map Prod.snd).getLast? pfile rel) ∧
    Outs s rel v.scan (prev.getD []) (phase2 w v.scan (if reset then none else prev)) := by
  intro l prev data rel w
  have hrel : ∀ c p h, rel c p = some h → h ∈ prev.getD [] ∧ h.path = c.link ∧ h.cmd = p.cmd ∧
      ∃ d, h.datapth = some d := by
    intro c p h hh
    obtain ⟨h1, h2, h3, d, h4, _⟩ := C16_relink_sound _ _ c p h hh
    exact ⟨h1, h2, h3, d, h4⟩
  have mkOuts : ∀ q : List Ent, SortedBy entKey q → NoClash entKey (v.scan ++ q) → (∀ e ∈ q, e ∈ prev.getD []) →
      Outs s rel v.scan (prev.getD []) (phase2 w v.scan (some q)) := by
    intro q h1 h2 h3
    refine ⟨fun o ho => (out_facts s _ _ ht.1 h1 h2 o ho).mono h3, outs_sorted w _ ht.1, ?_, hnc⟩
    intro p hp
    rw [← C15_each_scanned_once w v.scan (some q), List.mem_filterMap] at hp
    exact hp
  have none_case : Outs s rel v.scan (prev.getD []) (phase2 w v.scan none) := by
    rw [phase2_none]
    exact mkOuts [] List.Pairwise.nil (by simpa using hnc) (by simp)
  rcases List.eq_nil_or_concat Z with rfl | ⟨Z0, z, e⟩
  · refine ⟨⟨v.file, ?_⟩, ?_⟩
    · refine ⟨hpl, ht, ?_, ?_, ?_, ?_, ?_, ?_, hal.1, ?_, hrel⟩
      · exact List.Pairwise.nil
      · intro e he; cases he
      · intro e he; cases he
      · intro e he; cases he
      · intro y hy; cases hy
      · intro p _ c hc; cases hc
      · intro p _; exact .inl rfl
    · have : (if reset then none else prev) = none := by cases reset <;> rfl
      rw [this]
      exact none_case
  · rw [List.concat_eq_append] at e
    obtain ⟨hb, ⟨f1, f2, f3, f4⟩, _⟩ := hz z (by rw [e]; simp)
    have e1 : (Z.map Prod.fst).getLast? = some z.1 := by rw [e]; simp
    have e2 : (Z.map Prod.snd).getLast? = some z.2 := by rw [e]; simp
    have e3 : prev = some z.1.entries := by show Option.map _ _ = _; rw [e1]; rfl
    have e4 : ∀ d, data d = z.1.b.data d := by
      intro d
      show (List.map Made.b (Z.map Prod.fst)).getLast?.bind _ = _
      rw [List.getLast?_map, e1]; rfl
    have e5 : prev.getD [] = z.1.entries := by rw [e3]; rfl
    obtain ⟨hst1, hst2⟩ := hst z.1 e1
    have hgood : Good L [z.2] := by
      have := (reachable_inv hL hr).1
      rw [e, List.map_append] at this
      exact this.suffix
    refine ⟨⟨z.1.visit.file, ?_⟩, ?_⟩
    · rw [e5, e2]
      refine ⟨hpl, ht, f1, f2, ?_, f4, ?_, hst1, hal.1, ?_, ?_⟩
      · intro en hen d hd
        obtain ⟨hm, c, hw, hp⟩ := f3 en hen d hd
        rw [← hb] at hm
        obtain ⟨c', hc', hdc⟩ := hgood.own hm
        rw [hw] at hc'
        cases hc'
        exact ⟨z.2, c, rfl, hm, hw, by rw [e4, ← hb]; exact hdc, hp⟩
      · intro y hy d
        cases hy
        rw [e4, hb]
      · intro p hp
        rw [e4]
        exact hal.2 p hp z.1 e1
      · intro c p h hh
        have := hrel c p h hh
        rw [e5] at this
        exact this
    · cases reset
      · rw [if_neg (by simp), e3]
        have := mkOuts z.1.entries f1 hst2 (by rw [e5]; exact fun _ h => h)
        rw [e3] at this
        exact this
      · exact none_case

theorem storedAs_some {e : Ent} {d : Str} (h : e.datapth = some d) : storedAs e = some (entKey e, d) := by
  unfold storedAs; rw [h]; rfl

theorem session_some {s : Settings} {reset : Bool} {bno : Nat} {hard : Bool} {prev : Option (List Ent)}
    {l0 l : List (Backup C D Key)} {es : List Ent}
    (h : session L s reset bno hard alloc v.ans v.scan prev l0 = some (l, es)) :
    let data : Str → Option C := fun d => l0.getLast?.bind (fun b => b.data d)
    let rel := relink (prev.getD []) (fun d => (data d).isSome)
    let w := entWalk s (prev.getD []) (fun d => (data d).isSome)
    let outs := phase2 w v.scan (if reset then none else prev)
    outs.any (failed data) = false ∧ finish L bno hard (incOf L data rel alloc v outs) l0 = some l ∧
      es = (manOf L data rel alloc v outs).filter (fun e => match storedAs e with
        | none => true
        | some kd => ((l.getLast?.map Backup.man).getD []).contains kd) := by
  intro data rel w outs
  unfold session at h
  by_cases hf : outs.any (failed data) = true
  · have := if_pos hf ▸ h
    simp only [data, outs, w] at hf
    simp only [hf, if_true] at h
    cases h
  · rw [Bool.not_eq_true] at hf
    refine ⟨hf, ?_⟩
    simp only [data, outs, w] at hf
    simp only [hf] at h
    simp only [Bool.false_eq_true, if_false] at h
    cases hfin : finish L bno hard (incOf L data rel alloc v outs) l0 with
    | none =>
      simp only [incOf, itemsOf, manOf, data, rel, w, outs] at hfin
      simp only [hfin] at h
      cases h
    | some l' =>
      simp only [incOf, itemsOf, manOf, data, rel, w, outs] at hfin
      simp only [hfin, Option.some.injEq, Prod.mk.injEq] at h
      obtain ⟨rfl, rfl⟩ := h
      exact ⟨rfl, rfl⟩

theorem session_eq {s : Settings} {reset : Bool} {bno : Nat} {hard : Bool} {prev : Option (List Ent)}
    {l0 l : List (Backup C D Key)} :
    let data : Str → Option C := fun d => l0.getLast?.bind (fun b => b.data d)
    let rel := relink (prev.getD []) (fun d => (data d).isSome)
    let w := entWalk s (prev.getD []) (fun d => (data d).isSome)
    let outs := phase2 w v.scan (if reset then none else prev)
    outs.any (failed data) = false → finish L bno hard (incOf L data rel alloc v outs) l0 = some l →
    session L s reset bno hard alloc v.ans v.scan prev l0 = some (l,
      (manOf L data rel alloc v outs).filter (fun e => match storedAs e with
        | none => true
        | some kd => ((l.getLast?.map Backup.man).getD []).contains kd)) := by
  intro data rel w outs hf hfin
  simp only [data, outs, w] at hf
  simp only [incOf, itemsOf, manOf, data, rel, w, outs] at hfin
  unfold session
  simp only [hf, Bool.false_eq_true, if_false, hfin]
  rfl

theorem none_failed (hx : Ctx L plain s data alloc v prev x pfile rel) (h : Outs s rel v.scan prev outs) :
    outs.any (failed data) = false := by
  rw [List.any_eq_false]
  intro o ho
  cases o with
  | changed p c =>
    simp only [failed, Bool.and_eq_true, not_and, Bool.not_eq_true]
    intro hd
    obtain ⟨hp, hc, _, hk⟩ := (h.facts _ ho).changed p c rfl
    rcases hk with hk | hk
    · exact absurd ((hasData_iff _).1 hd) hk
    · have hcd : c.cmd ∈ dataKinds := by rw [hk.2.2.1]; decide
      cases e : c.datapth with
      | none => exact absurd e ((hx.prev_data c hc).1 hcd)
      | some d =>
        obtain ⟨_, a, _, _, _, ha, _⟩ := hx.prev_own c hc d e
        simp [ha]
  | _ => simp [failed]

/-- The invariant after a backup. -/
theorem inv_step (hL : L.Sound) {Z : List (Made C D P × Dated C D Key)} (hr : Reachable L (Z.map Prod.snd))
    (hz : ∀ z ∈ Z, z.2.b = z.1.b ∧ Facts plain z.1.entries z.1.visit.file z.1.b.man z.2.want ∧
      Mirrors z.1.entries z.1.visit)
    {bno : Nat} {hard : Bool} {l : List (Backup C D Key)}
    (hx : Ctx L plain s data alloc v prev (Z.map Prod.snd).getLast? pfile rel)
    (ho : Outs s rel v.scan prev outs) (hany : outs.any (failed data) = false)
    (hb : ∀ x ∈ Z.map Prod.fst, x.b.bno < bno) (hpos : 0 < bno)
    (hfin : finish L bno hard (incOf L data rel alloc v outs) ((Z.map Prod.fst).map Made.b) = some l) :
    Inv L plain (List.zipWith (fun b m => ⟨b, m.1, m.2⟩) l
        ((Z.map Prod.fst).map (fun m => (m.entries, m.visit)) ++
          [((manOf L data rel alloc v outs).filter (fun e => match storedAs e with
        | none => true
        | some kd => ((l.getLast?.map Backup.man).getD []).contains kd), v)])) := by
  obtain ⟨want, harr, hw⟩ := session_arrives hx ho
  have hbs : (Z.map Prod.fst).map Made.b = (Z.map Prod.snd).map Dated.b := by
    rw [List.map_map, List.map_map]
    exact List.map_congr_left (fun z hzz => (hz z hzz).1.symm)
  have hbno : ∀ y ∈ Z.map Prod.snd, y.b.bno < bno := by
    intro y hy
    obtain ⟨z, hzz, rfl⟩ := List.mem_map.1 hy
    rw [(hz z hzz).1]
    exact hb z.1 (List.mem_map_of_mem hzz)
  have hfin' := hfin
  rw [hbs] at hfin'
  have hreach := Reachable.backup hr harr hbno hpos hfin'
  obtain ⟨new, hman, hlast, hsub⟩ := finish_man hfin
  obtain ⟨l0, rfl⟩ : ∃ l0, l = l0 ++ [new] := by
    obtain ⟨l0, h⟩ := List.getLast?_eq_some_iff.1 hlast
    exact ⟨l0, h⟩
  have hman0 : l0.map Backup.man = Z.map (fun z => z.1.b.man) := by
    rw [List.map_append, List.map_cons, List.map_nil] at hman
    have := (List.append_inj' hman rfl).1
    rw [this]; simp
  have hlen : l0.length = Z.length := by
    have := congrArg List.length hman0
    simpa using this
  have hgood : Good L [(⟨new, want⟩ : Dated C D Key)] := by
    have := (reachable_inv hL hreach).1
    rw [List.zipWith_append (by simp [hlen])] at this
    exact this.suffix
  -- every entry is kept
  have hkeep : ∀ e ∈ manOf L data rel alloc v outs, ∀ d, e.datapth = some d → (entKey e, d) ∈ new.man := by
    intro e he d hd
    obtain ⟨i, hi, rfl⟩ := man_mem.1 he
    obtain ⟨c, hc, _⟩ := hw i hi d hd
    obtain ⟨d', hd'⟩ := hgood.2.1 (entKey i.entry) (by
      show want _ ≠ none
      rw [hc]; simp)
    have h1 := hsub _ hd'
    have h2 : (entKey i.entry, d) ∈ (incOf L data rel alloc v outs).man :=
      List.mem_filterMap.2 ⟨i.entry, he, storedAs_some hd⟩
    have h3 := harr.1
    rw [List.nodup_iff_pairwise_ne, List.pairwise_map] at h3
    rcases pair_mem h3 h1 h2 with h | h | h
    · rw [← h]; exact hd'
    · exact absurd rfl h
    · exact absurd rfl h
  have hfilter : ∀ (q : Ent → Bool), (∀ e, q e = (match storedAs e with
        | none => true
        | some kd => new.man.contains kd)) →
      (manOf L data rel alloc v outs).filter q = manOf L data rel alloc v outs := by
    intro q hq
    rw [List.filter_eq_self]
    intro e he
    rw [hq]
    cases hd : e.datapth with
    | none => simp [storedAs, hd]
    | some d =>
      rw [storedAs_some hd]
      simp only [List.contains_iff_mem]
      exact hkeep e he d hd
  rw [hfilter _ (by intro e; simp)]
  refine ⟨List.zipWith (fun b t => (⟨b, t.1, t.2.1⟩, ⟨b, t.2.2⟩)) (l0 ++ [new])
    (Z.map (fun z => (z.1.entries, z.1.visit, z.2.want)) ++ [(manOf L data rel alloc v outs, v, want)]), ?_, ?_, ?_⟩
  · rw [List.map_zipWith, List.zipWith_append (by simp [hlen]), List.zipWith_append (by simp [hlen]),
      List.map_map, List.zipWith_map_right, List.zipWith_map_right]
    rfl
  · rw [List.map_zipWith, List.zipWith_append (by simp [hlen]), List.zipWith_map_right]
    rw [List.zipWith_append (by simp [hlen]), List.map_map, List.zipWith_map_right] at hreach
    exact hreach
  · intro z hzz
    rw [List.zipWith_append (by simp [hlen])] at hzz
    rcases List.mem_append.1 hzz with hzz | hzz
    · obtain ⟨j, hj, rfl⟩ := List.mem_iff_getElem.1 hzz
      have hj2 : j < Z.length := by simpa [hlen] using hj
      rw [List.getElem_zipWith]
      simp only [List.getElem_map]
      obtain ⟨h1, h2, h3⟩ := hz Z[j] (List.getElem_mem hj2)
      refine ⟨trivial, ?_, h3⟩
      have : l0[j].man = Z[j].1.b.man := by
        have hj3 : j < l0.length := by omega
        have h4 : (l0.map Backup.man)[j]'(by simpa using hj3) = (Z.map (fun z => z.1.b.man))[j]'(by simpa using hj2) := by
          simp only [hman0]
        simpa using h4
      rw [this]
      exact h2
    · simp only [List.zipWith_cons_cons, List.zipWith_nil_left, List.mem_singleton] at hzz
      subst hzz
      exact ⟨rfl, man_facts hx ho hw hkeep, man_mirrors hx ho hany⟩

/-- The invariant is kept by a backup. -/
theorem inv_backup (hL : L.Sound) (hpl : GoodPlain plain) {H : List (Made C D P)} (hi : Inv L plain H)
    {reset : Bool} {bno : Nat} {hard : Bool} {l : List (Backup C D Key)} {es : List Ent}
    (ht : Truthful plain v)
    (hst : ∀ x, H.getLast? = some x → Steady s.windows v x ∧ NoClash entKey (v.scan ++ x.entries))
    (hnc : NoClash entKey v.scan) (hal : GoodAlloc alloc v H.getLast?) (hb : ∀ x ∈ H, x.b.bno < bno)
    (hpos : 0 < bno)
    (hs : session L s reset bno hard alloc v.ans v.scan (H.getLast?.map Made.entries) (H.map Made.b) =
        some (l, es)) :
    Inv L plain (List.zipWith (fun b m => ⟨b, m.1, m.2⟩) l
        (H.map (fun m => (m.entries, m.visit)) ++ [(es, v)])) := by
  obtain ⟨Z, rfl, hr, hz⟩ := hi
  obtain ⟨⟨pfile, hx⟩, ho⟩ := session_ctx hL hpl hr hz ht hst hnc hal reset
  obtain ⟨hany, hfin, rfl⟩ := session_some hs
  exact inv_step hL hr hz hx ho hany hb hpos hfin

/-- The invariant is kept by a deletion. -/
theorem inv_delete {H : List (Made C D P)} (hi : Inv L plain H) {bno : Nat}
    (hd : ∃ b ∈ H.map (fun x => x.b.bu), b.bno = bno ∧ Deletable (H.map (fun x => x.b.bu)) b) :
    Inv L plain (H.filter (fun x => x.b.bno ≠ bno)) := by
  obtain ⟨Z, rfl, hr, hz⟩ := hi
  have hbu : (Z.map Prod.fst).map (fun x => x.b.bu) = (Z.map Prod.snd).map (fun x => x.b.bu) := by
    rw [List.map_map, List.map_map]
    refine List.map_congr_left (fun z hzz => ?_)
    simp only [Function.comp_apply]
    rw [(hz z hzz).1]
  rw [hbu] at hd
  have := Reachable.delete hr hd
  refine ⟨Z.filter (fun z => z.1.b.bno ≠ bno), ?_, ?_, fun z hzz => hz z (List.mem_filter.1 hzz).1⟩
  · rw [List.filter_map]; rfl
  · rw [List.filter_map] at this
    have e : Z.filter (fun z => z.1.b.bno ≠ bno) =
        Z.filter ((fun x : Dated C D Key => decide (x.b.bno ≠ bno)) ∘ Prod.snd) := by
      refine List.filter_congr (fun z hzz => ?_)
      simp only [Function.comp_apply]
      rw [(hz z hzz).1]
    rw [e]
    exact this

theorem sessions_inv (hL : L.Sound) (hpl : GoodPlain plain) {H : List (Made C D P)}
    (h : Sessions L plain H) : Inv L plain H := by
  induction h with
  | empty => exact ⟨[], rfl, .empty, fun z hz => by cases hz⟩
  | backup _ ht hst hnc hal hb hp hs ih => exact inv_backup hL hpl ih ht hst hnc hal hb hp hs
  | delete _ hd ih => exact inv_delete ih hd

end Verif.Session
