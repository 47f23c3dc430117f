import Verif.Spec.Phase2
import Verif.Lemmas.Merge

namespace Verif
open Verif.Phase2 Verif.Manifest

variable {E : Type}

/-- The walk without the calls: everything that is recorded for the rest `ps` of the scan and the rest
`cs` of the previous manifest. -/
def flat (w : Walk E) : List E → List E → List (Out E)
  | [], cs => cs.map .deleted
  | p :: ps, [] => .new p :: flat w ps []
  | p :: ps, c :: cs =>
    match maybeProcess w c (some p) with
    | (.deleted _, _) => .deleted c :: flat w (p :: ps) cs
    | (o, true) => o :: flat w ps (c :: cs)
    | (o, false) => o :: flat w ps cs
termination_by ps cs => ps.length + cs.length

/-- The previous entries that are still to come. -/
def pending (s : St E) : List E :=
  match s.cur with
  | none => []
  | some cs => s.cb.toList ++ cs

theorem loop_none (w : Walk E) (cs : List E) : loop w none cs = (cs.map .deleted, ⟨none, none⟩) := by
  induction cs with
  | nil => rfl
  | cons c cs ih => simp only [loop, maybeProcess, ih, List.map_cons]

theorem next_none (w : Walk E) (s : St E) : (next w none s).1 = (pending s).map .deleted := by
  obtain ⟨cur, cb⟩ := s
  cases cur with
  | none => rfl
  | some cs =>
    cases cb with
    | none => simp [next, loop_none, pending]
    | some c => simp [next, maybeProcess, loop_none, pending]

theorem step_flat (w : Walk E) (p : E) (ps : List E) (c : E) (cs : List E)
    (f : List (Out E) × St E)
    (hf : flat w (p :: ps) cs = f.1 ++ flat w ps (pending f.2)) :
    flat w (p :: ps) (c :: cs) =
      (match maybeProcess w c (some p) with
        | (.deleted c, _) => (Out.deleted c :: f.1, f.2)
        | (o, keep) => ([o], (⟨some cs, if keep then some c else none⟩ : St E))).1 ++
      flat w ps (pending (match maybeProcess w c (some p) with
        | (.deleted c, _) => (Out.deleted c :: f.1, f.2)
        | (o, keep) => ([o], (⟨some cs, if keep then some c else none⟩ : St E))).2) := by
  rw [flat]
  unfold maybeProcess
  dsimp only
  by_cases h0 : pcmp w.key c p = 0
  · simp only [h0, if_true]
    cases w.dec c p <;> simp [pending, hf]
  · by_cases h1 : pcmp w.key c p > 0
    · simp [h0, h1, pending]
    · simp [h0, h1, hf]

theorem loop_flat (w : Walk E) (p : E) (ps : List E) (cs : List E) :
    flat w (p :: ps) cs = (loop w (some p) cs).1 ++ flat w ps (pending (loop w (some p) cs).2) := by
  induction cs with
  | nil => simp [loop, flat, pending]
  | cons c cs ih =>
    exact step_flat w p ps c cs (loop w (some p) cs) ih

theorem walk_flat (w : Walk E) (ps : List E) : ∀ s : St E, walk w ps s = flat w ps (pending s) := by
  induction ps with
  | nil => intro s; rw [walk, next_none, flat]
  | cons p ps ih =>
    intro s
    rw [walk, ih]
    obtain ⟨cur, cb⟩ := s
    cases cur with
    | none => simp [next, pending, flat]
    | some cs =>
      cases cb with
      | none => exact (loop_flat w p ps cs).symm
      | some c => exact (step_flat w p ps c cs (loop w (some p) cs) (loop_flat w p ps cs)).symm

theorem phase2_flat (w : Walk E) (scan : List E) (prev : Option (List E)) :
    phase2 w scan prev = flat w scan (prev.getD []) := by
  rw [phase2, walk_flat]
  cases prev <;> rfl

/-! What `maybeProcess` can give. -/

inductive MP (w : Walk E) (c p : E) : Out E × Bool → Prop where
  | whole (h : pcmp w.key c p = 0) (d : Whole (w.dec c p)) : MP w c p (.new p, true)
  | changed (h : pcmp w.key c p = 0) (d : w.dec c p = .changed ∨ w.dec c p = .doneChanged) :
      MP w c p (.changed p c, false)
  | unchanged (h : pcmp w.key c p = 0) (d : w.dec c p = .doneUnchanged) : MP w c p (.unchanged p c, false)
  | strange (h : pcmp w.key c p = 0) (d : w.dec c p = .doneDeleted) : MP w c p (.deleted c, false)
  | ahead (h : pcmp w.key c p > 0) : MP w c p (.new p, true)
  | behind (h : pcmp w.key c p < 0) : MP w c p (.deleted c, false)

theorem maybeProcess_mp (w : Walk E) (c p : E) : MP w c p (maybeProcess w c (some p)) := by
  unfold maybeProcess
  dsimp only
  by_cases h0 : pcmp w.key c p = 0
  · simp only [h0, if_true]
    cases hd : w.dec c p <;> dsimp only
    · exact .whole h0 (Or.inr hd)
    · exact .changed h0 (Or.inr hd)
    · exact .unchanged h0 hd
    · exact .strange h0 hd
    · exact .whole h0 (Or.inl hd)
    · exact .changed h0 (Or.inl hd)
  · by_cases h1 : pcmp w.key c p > 0
    · simp only [h0, h1, if_true, if_false]; exact .ahead h1
    · simp only [h0, h1, if_false]; exact .behind (by omega)

/-- The outcomes for the first of both lists. -/
theorem flat_cons (w : Walk E) (p : E) (ps : List E) (c : E) (cs : List E) :
    (flat w (p :: ps) (c :: cs) = .deleted c :: flat w (p :: ps) cs ∧
      (pcmp w.key c p < 0 ∨ pcmp w.key c p = 0 ∧ w.dec c p = .doneDeleted)) ∨
    (flat w (p :: ps) (c :: cs) = .new p :: flat w ps (c :: cs) ∧
      (pcmp w.key c p > 0 ∨ pcmp w.key c p = 0 ∧ Whole (w.dec c p))) ∨
    (flat w (p :: ps) (c :: cs) = .changed p c :: flat w ps cs ∧ pcmp w.key c p = 0 ∧
      (w.dec c p = .changed ∨ w.dec c p = .doneChanged)) ∨
    (flat w (p :: ps) (c :: cs) = .unchanged p c :: flat w ps cs ∧ pcmp w.key c p = 0 ∧
      w.dec c p = .doneUnchanged) := by
  have h := maybeProcess_mp w c p
  rw [flat]
  generalize maybeProcess w c (some p) = r at h
  cases h with
  | whole h d => exact Or.inr (Or.inl ⟨rfl, Or.inr ⟨h, d⟩⟩)
  | changed h d => exact Or.inr (Or.inr (Or.inl ⟨rfl, h, d⟩))
  | unchanged h d => exact Or.inr (Or.inr (Or.inr ⟨rfl, h, d⟩))
  | strange h d => exact Or.inl ⟨rfl, Or.inr ⟨h, d⟩⟩
  | ahead h => exact Or.inr (Or.inl ⟨rfl, Or.inl h⟩)
  | behind h => exact Or.inl ⟨rfl, Or.inl h⟩

/-- Induction along the walk. -/
theorem flat_ind (w : Walk E) {P : List E → List E → Prop}
    (h0 : ∀ cs, P [] cs) (h1 : ∀ p ps, P ps [] → P (p :: ps) [])
    (h2 : ∀ p ps c cs, P (p :: ps) cs → P ps (c :: cs) → P ps cs → P (p :: ps) (c :: cs)) :
    ∀ ps cs, P ps cs
  | [], cs => h0 cs
  | p :: ps, [] => h1 p ps (flat_ind w h0 h1 h2 ps [])
  | p :: ps, c :: cs => h2 p ps c cs (flat_ind w h0 h1 h2 (p :: ps) cs)
      (flat_ind w h0 h1 h2 ps (c :: cs)) (flat_ind w h0 h1 h2 ps cs)
termination_by ps cs => ps.length + cs.length

theorem flat_scanned (w : Walk E) (ps cs : List E) : (flat w ps cs).filterMap Out.scanned = ps := by
  refine flat_ind w (P := fun ps cs => (flat w ps cs).filterMap Out.scanned = ps) ?_ ?_ ?_ ps cs
  · intro cs
    induction cs with
    | nil => rw [flat]; rfl
    | cons c cs ih => rw [flat] at ih ⊢; simp [Out.scanned]
  · intro p ps ih
    rw [flat, List.filterMap_cons]
    simp [Out.scanned, ih]
  · intro p ps c cs ih1 ih2 ih3
    rcases flat_cons w p ps c cs with ⟨e, _⟩ | ⟨e, _⟩ | ⟨e, _⟩ | ⟨e, _⟩ <;>
      rw [e, List.filterMap_cons] <;> simp [Out.scanned, ih1, ih2, ih3]

theorem flat_previous (w : Walk E) (ps cs : List E) : (flat w ps cs).filterMap Out.previous = cs := by
  refine flat_ind w (P := fun ps cs => (flat w ps cs).filterMap Out.previous = cs) ?_ ?_ ?_ ps cs
  · intro cs
    induction cs with
    | nil => rw [flat]; rfl
    | cons c cs ih => rw [flat] at ih ⊢; simpa [Out.previous] using ih
  · intro p ps ih
    rw [flat, List.filterMap_cons]
    simp [Out.previous, ih]
  · intro p ps c cs ih1 ih2 ih3
    rcases flat_cons w p ps c cs with ⟨e, _⟩ | ⟨e, _⟩ | ⟨e, _⟩ | ⟨e, _⟩ <;>
      rw [e, List.filterMap_cons] <;> simp [Out.previous, ih1, ih2, ih3]

/-- What each record says is right. -/
def OutOk (w : Walk E) (S P : List E) : Out E → Prop
  | .new p => ∀ c ∈ P, SameKey (w.key c) (w.key p) → Whole (w.dec c p)
  | .changed p c => SameKey (w.key c) (w.key p) ∧ (w.dec c p = .changed ∨ w.dec c p = .doneChanged)
  | .unchanged p c => SameKey (w.key c) (w.key p) ∧ w.dec c p = .doneUnchanged
  | .deleted c => ∀ p ∈ S, SameKey (w.key c) (w.key p) → Whole (w.dec c p)

theorem flat_ok (w : Walk E) (hd : ∀ c p, w.dec c p ≠ .doneDeleted) (S P : List E)
    (hS : SortedBy w.key S) (hP : SortedBy w.key P) (hn : NoClash w.key (S ++ P)) (ps cs : List E) :
    ∀ S0 P0, S = S0 ++ ps → P = P0 ++ cs →
      (∀ c ∈ cs, ∀ p ∈ S0, EntryLt (w.key p) (w.key c) ∨ SameKey (w.key c) (w.key p) ∧ Whole (w.dec c p)) →
      (∀ c ∈ P0, ∀ p ∈ ps, EntryLt (w.key c) (w.key p)) →
      ∀ o ∈ flat w ps cs, OutOk w S P o := by
  have hdel : ∀ c cs S0 ps, S = S0 ++ ps →
      (∀ c' ∈ c :: cs, ∀ p ∈ S0, EntryLt (w.key p) (w.key c') ∨
        SameKey (w.key c') (w.key p) ∧ Whole (w.dec c' p)) →
      (∀ p ∈ ps, EntryLt (w.key c) (w.key p)) → OutOk w S P (.deleted c) := by
    intro c cs S0 ps eS h1 h2 p hp hs
    rw [eS] at hp
    rcases List.mem_append.1 hp with hp | hp
    · rcases h1 c (by simp) p hp with h | ⟨_, h⟩
      · exact absurd hs.symm h.not_same
      · exact h
    · exact absurd hs (h2 p hp).not_same
  refine flat_ind w (P := fun ps cs => ∀ S0 P0, S = S0 ++ ps → P = P0 ++ cs →
      (∀ c ∈ cs, ∀ p ∈ S0, EntryLt (w.key p) (w.key c) ∨ SameKey (w.key c) (w.key p) ∧ Whole (w.dec c p)) →
      (∀ c ∈ P0, ∀ p ∈ ps, EntryLt (w.key c) (w.key p)) →
      ∀ o ∈ flat w ps cs, OutOk w S P o) ?_ ?_ ?_ ps cs
  · intro cs S0 P0 eS eP h1 h2 o ho
    rw [flat] at ho
    obtain ⟨c, hc, rfl⟩ := List.mem_map.1 ho
    exact hdel c [] S0 [] eS (fun c' hc' => by
      rw [List.mem_singleton.1 hc']; exact h1 c hc) (by simp)
  · intro p ps ih S0 P0 eS eP h1 h2 o ho
    rw [flat] at ho
    rcases List.mem_cons.1 ho with rfl | ho
    · intro c hc hs
      rw [eP, List.append_nil] at hc
      exact absurd hs (h2 c hc p (by simp)).not_same
    · exact ih (S0 ++ [p]) P0 (by simp [eS]) eP (by simp)
        (fun c hc p' hp' => h2 c hc p' (by simp [hp'])) o ho
  · intro p ps c cs ih1 ih2 ih3 S0 P0 eS eP h1 h2 o ho
    have hpS : p ∈ S := by rw [eS]; simp
    have hcP : c ∈ P := by rw [eP]; simp
    have hcl : ¬ Clash (w.key c) (w.key p) := hn c (by simp [hcP]) p (by simp [hpS])
    have hps : ∀ p' ∈ ps, EntryLt (w.key p) (w.key p') := by
      unfold SortedBy at hS
      rw [eS, List.pairwise_append, List.pairwise_cons] at hS
      exact hS.2.1.1
    have hcs : ∀ c' ∈ cs, EntryLt (w.key c) (w.key c') := by
      unfold SortedBy at hP
      rw [eP, List.pairwise_append, List.pairwise_cons] at hP
      exact hP.2.1.1
    -- both consumed
    have both : SameKey (w.key c) (w.key p) → ∀ o ∈ flat w ps cs, OutOk w S P o := by
      intro hs
      refine ih3 (S0 ++ [p]) (P0 ++ [c]) (by simp [eS]) (by simp [eP]) ?_ ?_
      · intro c' hc' p' hp'
        rcases List.mem_append.1 hp' with hp' | hp'
        · exact h1 c' (by simp [hc']) p' hp'
        · rw [List.mem_singleton.1 hp']
          exact Or.inl ((hcs c' hc').same_left hs)
      · intro c' hc' p' hp'
        rcases List.mem_append.1 hc' with hc' | hc'
        · exact h2 c' hc' p' (by simp [hp'])
        · rw [List.mem_singleton.1 hc']
          exact (hps p' hp').same_left hs.symm
    rcases flat_cons w p ps c cs with ⟨e, h⟩ | ⟨e, h⟩ | ⟨e, h, d⟩ | ⟨e, h, d⟩
    · have hlt : EntryLt (w.key c) (w.key p) := by
        rcases h with h | ⟨_, h⟩
        · exact (iobufPathcmp_lt hcl).1 h
        · exact absurd h (hd c p)
      have hall : ∀ p' ∈ p :: ps, EntryLt (w.key c) (w.key p') := by
        intro p' hp'
        rcases List.mem_cons.1 hp' with rfl | hp'
        · exact hlt
        · exact hlt.trans (hps p' hp')
      rw [e] at ho
      rcases List.mem_cons.1 ho with rfl | ho
      · exact hdel c cs S0 (p :: ps) eS h1 hall
      · refine ih1 S0 (P0 ++ [c]) eS (by simp [eP]) (fun c' hc' => h1 c' (by simp [hc'])) ?_ o ho
        intro c' hc' p' hp'
        rcases List.mem_append.1 hc' with hc' | hc'
        · exact h2 c' hc' p' hp'
        · rw [List.mem_singleton.1 hc']; exact hall p' hp'
    · have hp1 : EntryLt (w.key p) (w.key c) ∨ SameKey (w.key c) (w.key p) ∧ Whole (w.dec c p) := by
        rcases h with h | ⟨h, d⟩
        · left
          rcases pcmp_cases w.key hcl with ⟨h3, _⟩ | ⟨h3, _⟩ | ⟨_, h3⟩
          · omega
          · omega
          · exact h3
        · exact Or.inr ⟨iobufPathcmp_zero.1 h, d⟩
      have hp2 : ∀ c' ∈ cs, EntryLt (w.key p) (w.key c') := by
        intro c' hc'
        rcases hp1 with h | ⟨h, _⟩
        · exact h.trans (hcs c' hc')
        · exact (hcs c' hc').same_left h
      rw [e] at ho
      rcases List.mem_cons.1 ho with rfl | ho
      · intro c' hc' hs
        rw [eP] at hc'
        rcases List.mem_append.1 hc' with hc' | hc'
        · exact absurd hs (h2 c' hc' p (by simp)).not_same
        · rcases List.mem_cons.1 hc' with rfl | hc'
          · rcases hp1 with h | ⟨_, h⟩
            · exact absurd hs.symm h.not_same
            · exact h
          · exact absurd hs.symm (hp2 c' hc').not_same
      · refine ih2 (S0 ++ [p]) P0 (by simp [eS]) eP ?_ (fun c' hc' p' hp' => h2 c' hc' p' (by simp [hp'])) o ho
        intro c' hc' p' hp'
        rcases List.mem_append.1 hp' with hp' | hp'
        · exact h1 c' hc' p' hp'
        · rw [List.mem_singleton.1 hp']
          rcases List.mem_cons.1 hc' with rfl | hc'
          · exact hp1
          · exact Or.inl (hp2 c' hc')
    · have hs := iobufPathcmp_zero.1 h
      rw [e] at ho
      rcases List.mem_cons.1 ho with rfl | ho
      · exact ⟨hs, d⟩
      · exact both hs o ho
    · have hs := iobufPathcmp_zero.1 h
      rw [e] at ho
      rcases List.mem_cons.1 ho with rfl | ho
      · exact ⟨hs, d⟩
      · exact both hs o ho

theorem sorted_same_eq {key : E → Cmd × Option Str} {l : List E} (h : SortedBy key l) {a b : E}
    (ha : a ∈ l) (hb : b ∈ l) (hs : SameKey (key a) (key b)) : a = b := by
  induction l with
  | nil => cases ha
  | cons x l ih =>
    unfold SortedBy at h
    rw [List.pairwise_cons] at h
    rcases List.mem_cons.1 ha with rfl | ha
    · rcases List.mem_cons.1 hb with rfl | hb
      · rfl
      · exact absurd hs (h.1 b hb).not_same
    · rcases List.mem_cons.1 hb with e | hb
      · rw [e] at hs; exact absurd hs.symm (h.1 a ha).not_same
      · exact ih h.2 ha hb

theorem extraKinds_iff (c : Cmd) : c ∈ extraKinds ↔
    (c = .encMetadata ∨ c = .efsFile ∨ c = .metadata ∨ c.isVssdata = true) := by
  cases c <;> decide

theorem file_iff (c : Cmd) : c = .file ↔
    (c.isFiledata = true ∧ c ≠ .metadata ∧ c.isEncrypted = false ∧ c.isVssdata = false) := by
  cases c <;> decide

theorem processNew_cases (p : Ent) : (processNew p = .new ∧ p.cmd ∈ dataKinds) ∨
    (processNew p = .doneNew ∧ p.cmd ∉ dataKinds) := by
  unfold processNew
  cases p.cmd <;> decide

theorem processNew_whole (p : Ent) : Whole (processNew p) := by
  rcases processNew_cases p with h | h
  · exact Or.inl h.1
  · exact Or.inr h.1

theorem endsGz_iff (d : Str) : endsGz d = true ↔ bytes ".gz" <:+ d := by
  unfold endsGz; exact List.isSuffixOf_iff_suffix

theorem librsyncEnabled_iff (s : Settings) (p c : Ent) : librsyncEnabled s p c = true ↔
    s.librsync = true ∧ (s.maxSize = 0 ∨ c.size ≤ s.maxSize ∧ p.size ≤ s.maxSize) := by
  unfold librsyncEnabled
  cases s.librsync <;> by_cases h : s.maxSize = 0 <;> simp [h]

theorem oldcompressed_iff (c : Ent) :
    ((match c.datapth with | none => false | some d => dpthIsCompressed c.compression d) = true) ↔
    ∃ d, c.datapth = some d ∧ (c.compression > 0 ∨ c.compression < 0 ∧ bytes ".gz" <:+ d) := by
  cases h : c.datapth with
  | none => simp
  | some d =>
    simp only [Option.some.injEq, exists_eq_left']
    unfold dpthIsCompressed
    rw [← endsGz_iff]
    by_cases h1 : c.compression > 0
    · simp [h1]
    · by_cases h2 : c.compression = 0
      · simp [h2]
      · simp [h1, h2]; omega

/-- The decision, in terms of the specification. -/
theorem deltaStuff_cases (s : Settings) (rel : Ent → Ent → Option Ent) (c p : Ent) :
    (deltaStuff s rel c p = .doneUnchanged ∧
      (LooksSame s.windows c p ∨ LinkBecameFile c p ∧ (rel c p).isSome = true)) ∨
    (deltaStuff s rel c p = .doneChanged ∧ c.cmd = p.cmd ∧ ¬ LooksSame s.windows c p ∧ p.cmd ∉ dataKinds) ∨
    (deltaStuff s rel c p = .changed ∧ ¬ LooksSame s.windows c p ∧ DeltaAllowed s c p) ∨
    (deltaStuff s rel c p = processNew p ∧ ¬ LooksSame s.windows c p ∧
      ¬ (LinkBecameFile c p ∧ (rel c p).isSome = true) ∧ ¬ DeltaAllowed s c p ∧
      (c.cmd = p.cmd → p.cmd ∈ dataKinds)) := by
  by_cases hk : c.cmd = p.cmd
  · have nolink : ¬ LinkBecameFile c p := by
      rintro ⟨h1, h2, _⟩
      rw [hk] at h1; rw [h1] at h2; simp at h2
    by_cases hsame : LooksSame s.windows c p
    · left
      refine ⟨?_, Or.inl hsame⟩
      obtain ⟨_, hm, hc⟩ := hsame
      by_cases hct : c.ctime = p.ctime
      · simp [deltaStuff, hk, hm, hct]
      · obtain ⟨hw, he⟩ := hc.resolve_left hct
        rw [extraKinds_iff] at he
        simp [deltaStuff, hk, hm, hct, hw]
        grind
    · have hne : ¬ (c.mtime = p.mtime ∧ c.ctime = p.ctime) :=
        fun h => hsame ⟨hk, h.1, Or.inl h.2⟩
      have hdk : p.cmd ∈ dataKinds ↔ ¬ (p.cmd.isFiledata = false ∧ p.cmd.isVssdata = false) := by
        cases p.cmd <;> decide
      have hmt : c.mtime = p.mtime → s.windows = true ∨ p.cmd ∈ extraKinds := by
        intro hm
        cases hw : s.windows
        · right
          by_cases he : p.cmd ∈ extraKinds
          · exact he
          · exact absurd ⟨hk, hm, Or.inr ⟨hw, he⟩⟩ hsame
        · exact Or.inl rfl
      have hed : p.cmd ∈ extraKinds → p.cmd ∈ dataKinds := by cases p.cmd <;> decide
      have hef : p.cmd ∈ extraKinds → p.cmd ≠ .file := by cases p.cmd <;> decide
      have hda : ¬ (p.cmd = .file) → ¬ DeltaAllowed s c p := fun h hd => h hd.2.2.2.1
      by_cases h2 : c.mtime = p.mtime ∧ c.ctime ≠ p.ctime ∧ p.cmd ∈ extraKinds
      · right; right; right
        refine ⟨?_, hsame, fun h => nolink h.1, hda (hef h2.2.2), fun _ => hed h2.2.2⟩
        have he := (extraKinds_iff _).1 h2.2.2
        simp [deltaStuff, hk, h2.1, h2.2.1]
        grind
      · have h2' : ¬ (c.mtime = p.mtime ∧ c.ctime ≠ p.ctime ∧
            (c.cmd = .encMetadata ∨ p.cmd = .encMetadata ∨ c.cmd = .efsFile ∨ p.cmd = .efsFile ∨
             c.cmd = .metadata ∨ p.cmd = .metadata ∨ c.cmd.isVssdata = true ∨ p.cmd.isVssdata = true)) := by
          rintro ⟨a, b, h⟩
          refine h2 ⟨a, b, (extraKinds_iff _).2 ?_⟩
          rw [hk] at h; grind
        have h3 : ¬ (c.mtime = p.mtime ∧ c.ctime ≠ p.ctime ∧ s.windows = false) := by
          rintro ⟨a, b, h⟩
          rcases hmt a with hw | he
          · rw [h] at hw; cases hw
          · exact h2 ⟨a, b, he⟩
        by_cases hdata : p.cmd ∈ dataKinds
        · have h4 := hdk.1 hdata
          have e : deltaStuff s rel c p =
              (if librsyncEnabled s p c = false ∨ c.cmd = .metadata ∨ p.cmd = .metadata ∨
                c.cmd.isEncrypted = true ∨ p.cmd.isEncrypted = true ∨
                c.cmd.isVssdata = true ∨ p.cmd.isVssdata = true then processNew p
              else
                let oldcompressed := match c.datapth with
                  | none => false
                  | some d => dpthIsCompressed c.compression d
                if oldcompressed = true ∧ p.compression = 0 ∨ oldcompressed = false ∧ p.compression ≠ 0 then
                  processNew p
                else .changed) := by
            unfold deltaStuff
            rw [if_neg (by simp [hk]), if_neg hne, if_neg h2', if_neg h3, if_neg h4]
            rfl
          rw [e]
          by_cases h5 : librsyncEnabled s p c = false ∨ c.cmd = .metadata ∨ p.cmd = .metadata ∨
                c.cmd.isEncrypted = true ∨ p.cmd.isEncrypted = true ∨
                c.cmd.isVssdata = true ∨ p.cmd.isVssdata = true
          · right; right; right
            rw [if_pos h5]
            refine ⟨rfl, hsame, fun h => nolink h.1, ?_, fun _ => hdata⟩
            rintro ⟨a1, a2, a3, a4, _⟩
            have := (librsyncEnabled_iff s p c).2 ⟨a1, a2⟩
            rw [this, a3, a4] at h5
            revert h5; decide
          · rw [if_neg h5]
            dsimp only
            have hfile : p.cmd = .file := by
              rw [file_iff]
              refine ⟨?_, ?_⟩
              · by_cases h : p.cmd.isFiledata = true
                · exact h
                · exfalso; apply h4; simp at h; grind
              · grind
            have hlib : s.librsync = true ∧ (s.maxSize = 0 ∨ c.size ≤ s.maxSize ∧ p.size ≤ s.maxSize) := by
              rw [← librsyncEnabled_iff]; grind
            have hoc := oldcompressed_iff c
            generalize (match c.datapth with
                  | none => false
                  | some d => dpthIsCompressed c.compression d) = oc at hoc
            by_cases h6 : oc = true ∧ p.compression = 0 ∨ oc = false ∧ p.compression ≠ 0
            · right; right; right
              rw [if_pos h6]
              refine ⟨rfl, hsame, fun h => nolink h.1, ?_, fun _ => hdata⟩
              rintro ⟨_, _, _, _, h⟩
              rw [← hoc] at h
              rcases h6 with h6 | h6
              · exact h.1 h6.1 h6.2
              · rw [h6.1] at h; exact absurd (h.2 h6.2) (by simp)
            · right; right; left
              rw [if_neg h6]
              refine ⟨rfl, hsame, hlib.1, hlib.2, hk.trans hfile, hfile, ?_⟩
              rw [← hoc]
              cases oc <;> simp at h6 ⊢ <;> exact h6
        · right; left
          have h4 : p.cmd.isFiledata = false ∧ p.cmd.isVssdata = false := by
            by_cases h : p.cmd.isFiledata = false ∧ p.cmd.isVssdata = false
            · exact h
            · exact absurd (hdk.2 h) hdata
          refine ⟨?_, hk, hsame, hdata⟩
          unfold deltaStuff
          rw [if_neg (by simp [hk]), if_neg hne, if_neg h2', if_neg h3, if_pos h4]
  · have hns : ¬ LooksSame s.windows c p := fun h => hk h.1
    by_cases hl : c.cmd = .hardLink ∧ (p.cmd = .file ∨ p.cmd = .encFile) ∧
        p.dev = c.dev ∧ p.ino = c.ino ∧ p.mtime = c.mtime ∧ (rel c p).isSome = true
    · left
      refine ⟨?_, Or.inr ⟨⟨hl.1, hl.2.1, hl.2.2.1.symm, hl.2.2.2.1.symm, hl.2.2.2.2.1.symm⟩, hl.2.2.2.2.2⟩⟩
      unfold deltaStuff
      rw [if_pos hk, if_pos hl]
    · right; right; right
      refine ⟨?_, hns, ?_, fun h => hk (h.2.2.1.trans h.2.2.2.1.symm), fun h => absurd h hk⟩
      · unfold deltaStuff
        rw [if_pos hk, if_neg hl]
      · rintro ⟨h1, h2⟩
        exact hl ⟨h1.1, h1.2.1, h1.2.2.1.symm, h1.2.2.2.1.symm, h1.2.2.2.2.symm, h2⟩

theorem deltaStuff_ne (s : Settings) (rel : Ent → Ent → Option Ent) (c p : Ent) :
    deltaStuff s rel c p ≠ .doneDeleted := by
  rcases deltaStuff_cases s rel c p with ⟨h, _⟩ | ⟨h, _⟩ | ⟨h, _⟩ | ⟨h, _⟩ <;> rw [h]
  · decide
  · decide
  · decide
  · rcases processNew_cases p with h | h <;> rw [h.1] <;> decide

end Verif
