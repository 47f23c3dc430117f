import Verif.Lemmas.Bedup

/-!
# C45: deduplication
-/

namespace Verif
open Verif Bedup

namespace Bedup

theorem readable_of_view {env : Env} {s s' : Fs} (h : Readable env s) (hv : ∀ p c, s'.view p = some c → s.view p = some c) :
    Readable env s' :=
  fun p n c hr hc => h p n c hr (hv p c hc)

theorem Unharmed.view {s₀ s : Fs} (h : Unharmed s₀ s) {p : Str} {c : Str} (hp : s₀.view p = some c) :
    s.view p = some c := by
  unfold Fs.view at *
  cases hi : s₀.at_ p with
  | none => rw [hi] at hp; cases hp
  | some i =>
    obtain ⟨j, h1, _, h3, _⟩ := h.2 p i hi
    rw [hi] at hp
    rw [h1, Option.map_some, h.1, h3]
    exact hp

theorem Unharmed.readable {env : Env} {s₀ s : Fs} (h : Unharmed s₀ s) (hn : NothingNew s₀ s) (hr : Readable env s₀) :
    Readable env s := by
  refine readable_of_view hr ?_
  intro p c hc
  cases hi : s₀.at_ p with
  | none => unfold Fs.view at hc; rw [hn p hi] at hc; cases hc
  | some i =>
    have h0 : s₀.view p = some (s₀.content i) := by simp [Fs.view, hi]
    rw [h0, ← hc, h.view h0]

/-- The states of the storage on the way, when links are made. -/
def Fair (o : Opts) (paths : List Str) (s₀ s : Fs) : Prop :=
  Unharmed s₀ s ∧ OnlyTemporary o.ext paths s₀ s ∧ WithinLinks o.maxlinks s₀ s

structure LinkInv (env : Env) (o : Opts) (paths : List Str) (s₀ : Fs) (t : St) : Prop where
  mem : MemOK env t.fs t.mem
  fair : Fair o paths s₀ t.fs
  new : NothingNew s₀ t.fs
  seen : ∀ s ∈ t.seen, Fair o paths s₀ s

/-- What remains when the run stops. -/
structure LinkEnd (env : Env) (o : Opts) (paths : List Str) (s₀ : Fs) (t : St) : Prop where
  seen : ∀ s ∈ t.seen, Fair o paths s₀ s
  tidy : (∀ p, env.unlinkOk p = true) → NothingNew s₀ t.fs
  fs : t.fs ∈ t.seen

theorem visit_eq (env : Env) (o : Opts) (t : St) (path : Str) (i : Ino) (h : t.fs.at_ path = some i)
    (hl : (t.fs.content i).length ≠ 0) :
    visit env o t path =
      (match checkLoop env o t.fs ⟨some path, i, t.fs.nlink i⟩ (some path) (t.mem (keyOf t.fs ⟨some path, i, t.fs.nlink i⟩)) with
      | .nothing p => .go (t.remember (keyOf t.fs ⟨some path, i, t.fs.nlink i⟩)
          (⟨p, i, t.fs.nlink i⟩ :: t.mem (keyOf t.fs ⟨some path, i, t.fs.nlink i⟩)))
      | .stays fs => .go (t.remember (keyOf t.fs ⟨some path, i, t.fs.nlink i⟩) fs)
      | .duplicate fs old =>
        if o.makelinks then doHardlink env o (t.remember (keyOf t.fs ⟨some path, i, t.fs.nlink i⟩) fs) path old
        else if o.deletedups then
          match (if env.unlinkOk path then t.fs.unlink path else none) with
          | none => .go (t.remember (keyOf t.fs ⟨some path, i, t.fs.nlink i⟩) fs)
          | some s => .go ((t.remember (keyOf t.fs ⟨some path, i, t.fs.nlink i⟩) fs).become s)
        else .go (t.remember (keyOf t.fs ⟨some path, i, t.fs.nlink i⟩) fs)) := by
  unfold visit
  rw [h]
  simp only [hl, if_false]
  rfl

theorem link_some {s s' : Fs} {old new : Str} (h : s.link old new = some s') :
    ∃ i, s.at_ old = some i ∧ s.at_ new = none ∧ s' = { s with
      at_ := fun p => if p = new then some i else s.at_ p,
      nlink := fun j => if j = i then s.nlink j + 1 else s.nlink j } := by
  unfold Fs.link at h
  cases ho : s.at_ old with
  | none => rw [ho] at h; cases h
  | some i =>
    rw [ho] at h
    simp only [] at h
    split at h
    · cases h
    · rename_i hn
      refine ⟨i, rfl, ?_, (Option.some.inj h).symm⟩
      cases hw : s.at_ new with
      | none => rfl
      | some _ => rw [hw] at hn; simp at hn

theorem visit_link (env : Env) (o : Opts) (paths : List Str) (s₀ : Fs) (hr : Readable env s₀) (hm : o.makelinks = true)
    (t : St) (ht : LinkInv env o paths s₀ t) (hfs : t.fs ∈ t.seen) (path : Str) (hpath : path ∈ paths) :
    (∃ t', visit env o t path = .go t' ∧ LinkInv env o paths s₀ t' ∧ t'.fs ∈ t'.seen) ∨
    (∃ t', visit env o t path = .stop t' ∧ LinkEnd env o paths s₀ t') := by
  cases hi : t.fs.at_ path with
  | none => exact Or.inl ⟨t, by unfold visit; rw [hi], ht, hfs⟩
  | some i =>
  by_cases hl : (t.fs.content i).length = 0
  · exact Or.inl ⟨t, by unfold visit; rw [hi]; simp only [hl, if_true], ht, hfs⟩
  rw [visit_eq env o t path i hi hl]
  have hrt : Readable env t.fs := ht.fair.1.readable ht.new hr
  have ho := checkLoop_spec env o t.fs hrt path ⟨some path, i, t.fs.nlink i⟩ rfl hi
    (t.mem (keyOf t.fs ⟨some path, i, t.fs.nlink i⟩)) (ht.mem.known _)
  have ha := ht.mem.after path ⟨some path, i, t.fs.nlink i⟩ rfl hi (Nat.le_refl _) ho
  cases hf : checkLoop env o t.fs ⟨some path, i, t.fs.nlink i⟩ (some path)
    (t.mem (keyOf t.fs ⟨some path, i, t.fs.nlink i⟩)) with
  | nothing p => exact Or.inl ⟨_, rfl, ⟨ha.1 p hf, ht.fair, ht.new, ht.seen⟩, hfs⟩
  | stays fs => exact Or.inl ⟨_, rfl, ⟨ha.2 fs hf, ht.fair, ht.new, ht.seen⟩, hfs⟩
  | duplicate fs old =>
    simp only [hm, if_true]
    rw [hf] at ho
    generalize hk : keyOf t.fs ⟨some path, i, t.fs.nlink i⟩ = k at *
    cases ho with
    | duplicate pre f post _ e hold hfo _ hc hne hd hlt =>
    simp only [hm, if_true] at *
    have hfm : f ∈ t.mem k := by rw [e]; simp
    obtain ⟨⟨p, hp1, hp2⟩, hp3⟩ := ht.mem.known k f hfm hfo
    rw [hold] at hp1
    cases hp1
    have hstop : LinkEnd env o paths s₀ (t.remember k (pre ++ { f with nlink := f.nlink + 1 } :: post)) :=
      ⟨ht.seen, fun _ => ht.new, hfs⟩
    unfold doHardlink
    cases hs1 : (if env.linkOk path then
        (t.remember k (pre ++ { f with nlink := f.nlink + 1 } :: post)).fs.link old (path ++ o.ext) else none) with
    | none => exact Or.inr ⟨_, rfl, hstop⟩
    | some s1 =>
      simp only []
      have hs1' : t.fs.link old (path ++ o.ext) = some s1 := by
        split at hs1
        · exact hs1
        · cases hs1
      obtain ⟨i', h1, h2, h3⟩ := link_some hs1'
      rw [hp2] at h1
      cases h1
      have hext : path ≠ path ++ o.ext := by
        intro he; rw [← he, hi] at h2; cases h2
      have hcont := ht.fair.1.1
      -- the file that was there at first
      have horig : ∃ q, s₀.at_ q = some f.id := by
        cases h0 : s₀.at_ old with
        | none => rw [ht.new old h0] at hp2; cases hp2
        | some i0 =>
          obtain ⟨j, hj1, _, _, hj4⟩ := ht.fair.1.2 old i0 h0
          rw [hp2] at hj1
          cases hj1
          exact hj4
      have hpath0 : s₀.at_ path ≠ none := by
        intro h0; rw [ht.new path h0] at hi; cases hi
      have hf1 : Fair o paths s₀ s1 := by
        refine ⟨⟨by rw [h3]; exact hcont, ?_⟩, ?_, ?_⟩
        · intro p i0 hp0
          obtain ⟨j, hj1, hj2⟩ := ht.fair.1.2 p i0 hp0
          refine ⟨j, ?_, hj2⟩
          rw [h3]
          show (if p = path ++ o.ext then some f.id else t.fs.at_ p) = some j
          rw [if_neg]
          · exact hj1
          · rintro rfl; rw [h2] at hj1; cases hj1
        · intro p h0 hp
          by_cases hpe : p = path ++ o.ext
          · exact ⟨path, hpath, hpath0, hpe⟩
          · rw [h3] at hp
            simp only [if_neg hpe] at hp
            exact absurd (ht.new p h0) hp
        · intro j
          rw [h3]
          show (if j = f.id then t.fs.nlink j + 1 else t.fs.nlink j) ≤ _ ∨
            (if j = f.id then t.fs.nlink j + 1 else t.fs.nlink j) ≤ _
          by_cases hj : j = f.id
          · rw [if_pos hj, hj]
            exact Or.inr (Nat.lt_of_le_of_lt hp3 hlt)
          · rw [if_neg hj]; exact ht.fair.2.2 j
      have hren : s1.rename (path ++ o.ext) path = some { s1 with
          at_ := fun p => if p = path ++ o.ext then none else if p = path then some f.id else s1.at_ p,
          nlink := fun k => if k = i then s1.nlink k - 1 else s1.nlink k } := by
        unfold Fs.rename
        have e1 : s1.at_ (path ++ o.ext) = some f.id := by rw [h3]; simp
        have e2 : s1.at_ path = some i := by rw [h3]; simp only [if_neg hext]; exact hi
        rw [e1, e2]
        simp only [if_neg hne]
      cases hs2 : (if env.renameOk path then s1.rename (path ++ o.ext) path else none) with
      | some s2 =>
        have hs2' : s2 = { s1 with
            at_ := fun p => if p = path ++ o.ext then none else if p = path then some f.id else s1.at_ p,
            nlink := fun k => if k = i then s1.nlink k - 1 else s1.nlink k } := by
          split at hs2
          · rw [hren] at hs2; exact (Option.some.inj hs2).symm
          · cases hs2
        have hat : ∀ p, s2.at_ p = if p = path then some f.id else t.fs.at_ p := by
          intro p
          rw [hs2', h3]
          simp only []
          by_cases hpe : p = path ++ o.ext
          · rw [if_pos hpe, if_neg (by rw [hpe]; exact hext.symm), hpe, h2]
          · rw [if_neg hpe]
            by_cases hpp : p = path
            · rw [if_pos hpp, if_pos hpp]
            · rw [if_neg hpp, if_neg hpp, if_neg hpe]
        have hcont2 : s2.content = t.fs.content := by rw [hs2', h3]
        have hnl : ∀ x, s2.nlink x ≤ s1.nlink x := by
          intro x; rw [hs2']; simp only []
          split
          · exact Nat.sub_le _ _
          · exact Nat.le_refl _
        have hnl1 : ∀ x, s1.nlink x = if x = f.id then t.fs.nlink x + 1 else t.fs.nlink x := by
          intro x; rw [h3]
        have hnew2 : NothingNew s₀ s2 := by
          intro p h0
          rw [hat, if_neg]
          · exact ht.new p h0
          · rintro rfl; exact hpath0 h0
        have hf2 : Fair o paths s₀ s2 := by
          refine ⟨⟨by rw [hcont2]; exact hcont, ?_⟩, ?_, ?_⟩
          · intro p i0 hp0
            obtain ⟨j, hj1, hj2, hj3, hj4⟩ := ht.fair.1.2 p i0 hp0
            rw [hat]
            by_cases hpp : p = path
            · rw [if_pos hpp]
              rw [hpp, hi] at hj1
              cases hj1
              refine ⟨f.id, rfl, hd.trans hj2, ?_, horig⟩
              rw [← hj3, ← hcont]
              exact hc
            · rw [if_neg hpp]
              exact ⟨j, hj1, hj2, hj3, hj4⟩
          · intro p h0 hp; exact absurd (hnew2 p h0) hp
          · intro j
            rcases hf1.2.2 j with h | h
            · exact Or.inl (Nat.le_trans (hnl j) h)
            · exact Or.inr (Nat.le_trans (hnl j) h)
        refine Or.inl ⟨_, rfl, ⟨?_, hf2, hnew2, ?_⟩, by simp [St.become]⟩
        · refine ht.mem.change e hfo (f.nlink + 1) hcont2 hi hne hc hd ?_ ?_ ?_
          · intro p hp; exact (hat p).trans (if_neg hp)
          · intro x hx
            refine Nat.le_trans (hnl x) ?_
            rw [hnl1, if_neg hx]
            exact Nat.le_refl _
          · refine Nat.le_trans (hnl _) ?_
            rw [hnl1, if_pos rfl]
            exact Nat.succ_le_succ hp3
        · intro s hs
          simp only [St.become, List.mem_cons] at hs
          rcases hs with rfl | rfl | hs
          · exact hf2
          · exact hf1
          · exact ht.seen s hs
      | none =>
        simp only []
        cases hs3 : (if env.unlinkOk (path ++ o.ext) then s1.unlink (path ++ o.ext) else none) with
        | none =>
          refine Or.inr ⟨_, rfl, ?_, ?_, by simp [St.become]⟩
          · intro s hs
            simp only [St.become, List.mem_cons] at hs
            rcases hs with rfl | hs
            · exact hf1
            · exact ht.seen s hs
          · intro hu
            rw [if_pos (hu _)] at hs3
            unfold Fs.unlink at hs3
            have e1 : s1.at_ (path ++ o.ext) = some f.id := by rw [h3]; simp
            rw [e1] at hs3
            cases hs3
        | some s2 =>
          have hs2' : s2 = { s1 with
              at_ := fun q => if q = path ++ o.ext then none else s1.at_ q,
              nlink := fun j => if j = f.id then s1.nlink j - 1 else s1.nlink j } := by
            split at hs3
            · unfold Fs.unlink at hs3
              have e1 : s1.at_ (path ++ o.ext) = some f.id := by rw [h3]; simp
              rw [e1] at hs3
              exact (Option.some.inj hs3).symm
            · cases hs3
          have hat : ∀ p, s2.at_ p = t.fs.at_ p := by
            intro p
            rw [hs2', h3]
            simp only []
            by_cases hpe : p = path ++ o.ext
            · rw [if_pos hpe, hpe, h2]
            · rw [if_neg hpe, if_neg hpe]
          have hnew2 : NothingNew s₀ s2 := by
            intro p h0; rw [hat]; exact ht.new p h0
          have hf2 : Fair o paths s₀ s2 := by
            refine ⟨⟨by rw [hs2', h3]; exact hcont, ?_⟩, ?_, ?_⟩
            · intro p i0 hp0
              rw [hat]; exact ht.fair.1.2 p i0 hp0
            · intro p h0 hp; exact absurd (hnew2 p h0) hp
            · intro j
              have hnl : s2.nlink j ≤ s1.nlink j := by
                rw [hs2']; simp only []
                split
                · exact Nat.sub_le _ _
                · exact Nat.le_refl _
              rcases hf1.2.2 j with h | h
              · exact Or.inl (Nat.le_trans hnl h)
              · exact Or.inr (Nat.le_trans hnl h)
          refine Or.inr ⟨_, rfl, ?_, fun _ => hnew2, by simp [St.become]⟩
          intro s hs
          simp only [St.become, List.mem_cons] at hs
          rcases hs with rfl | rfl | hs
          · exact hf2
          · exact hf1
          · exact ht.seen s hs

theorem visitAll_link (env : Env) (o : Opts) (paths : List Str) (s₀ : Fs) (hr : Readable env s₀) (hm : o.makelinks = true)
    (ps : List Str) : ∀ (t : St), LinkInv env o paths s₀ t → t.fs ∈ t.seen → (∀ p ∈ ps, p ∈ paths) →
    LinkEnd env o paths s₀ (visitAll env o t ps).st := by
  induction ps with
  | nil => intro t ht hfs _; exact ⟨ht.seen, fun _ => ht.new, hfs⟩
  | cons p ps ih =>
    intro t ht hfs hps
    rw [visitAll]
    rcases visit_link env o paths s₀ hr hm t ht hfs p (hps p (by simp)) with ⟨t', e, h1, h2⟩ | ⟨t', e, h1⟩
    · rw [e]; exact ih t' h1 h2 (fun q hq => hps q (by simp [hq]))
    · rw [e]; exact h1

theorem memOK_empty (env : Env) (s : Fs) : MemOK env s (fun _ => []) := by
  constructor
  · intro k f hf; cases hf
  · intro k f hf; cases hf
  · intro k; exact List.Pairwise.nil

theorem fair_refl (o : Opts) (paths : List Str) (s : Fs) : Fair o paths s s := by
  refine ⟨⟨rfl, fun p i hp => ⟨i, hp, rfl, rfl, p, hp⟩⟩, ?_, fun i => Or.inl (Nat.le_refl _)⟩
  intro p h h'; exact absurd h h'

theorem bedup_link (env : Env) (o : Opts) (s₀ : Fs) (paths : List Str) (hr : Readable env s₀)
    (hm : o.makelinks = true) : LinkEnd env o paths s₀ (bedup env o s₀ paths) := by
  refine visitAll_link env o paths s₀ hr hm paths _ ⟨memOK_empty env s₀, fair_refl o paths s₀, fun _ h => h, ?_⟩
    (by simp) (fun _ h => h)
  intro s hs
  simp only [List.mem_singleton] at hs
  rw [hs]; exact fair_refl o paths s₀

/-! ### Deleting -/

structure DelInv (env : Env) (o : Opts) (s₀ : Fs) (t : St) : Prop where
  mem : MemOK env t.fs t.mem
  good : OnlyDuplicatesRemoved s₀ t.fs
  links : WithinLinks 0 s₀ t.fs
  dry : o.deletedups = false → t.fs = s₀
  seen : ∀ s ∈ t.seen, OnlyDuplicatesRemoved s₀ s ∧ WithinLinks 0 s₀ s ∧ (o.deletedups = false → s = s₀)

theorem unlink_some {s s' : Fs} {p : Str} (h : s.unlink p = some s') :
    s'.content = s.content ∧ (∀ q, s'.at_ q = if q = p then none else s.at_ q) ∧ ∀ x, s'.nlink x ≤ s.nlink x := by
  unfold Fs.unlink at h
  cases hp : s.at_ p with
  | none => rw [hp] at h; cases h
  | some i =>
    rw [hp] at h
    have h := (Option.some.inj h).symm
    refine ⟨by rw [h], fun q => by rw [h], fun x => ?_⟩
    rw [h]; simp only []
    split
    · exact Nat.sub_le _ _
    · exact Nat.le_refl _

theorem visit_del (env : Env) (o : Opts) (s₀ : Fs) (hr : Readable env s₀) (hm : o.makelinks = false)
    (t : St) (ht : DelInv env o s₀ t) (path : Str) : ∃ t', visit env o t path = .go t' ∧ DelInv env o s₀ t' := by
  cases hi : t.fs.at_ path with
  | none => exact ⟨t, by unfold visit; rw [hi], ht⟩
  | some i =>
  by_cases hl : (t.fs.content i).length = 0
  · exact ⟨t, by unfold visit; rw [hi]; simp only [hl, if_true], ht⟩
  rw [visit_eq env o t path i hi hl]
  have hrt : Readable env t.fs := by
    refine readable_of_view hr ?_
    intro p c hc
    unfold Fs.view at hc ⊢
    rcases ht.good.2 p with h | ⟨h, _⟩
    · rw [← h, ← ht.good.1]; exact hc
    · rw [h] at hc; cases hc
  have ho := checkLoop_spec env o t.fs hrt path ⟨some path, i, t.fs.nlink i⟩ rfl hi
    (t.mem (keyOf t.fs ⟨some path, i, t.fs.nlink i⟩)) (ht.mem.known _)
  have ha := ht.mem.after path ⟨some path, i, t.fs.nlink i⟩ rfl hi (Nat.le_refl _) ho
  cases hf : checkLoop env o t.fs ⟨some path, i, t.fs.nlink i⟩ (some path)
    (t.mem (keyOf t.fs ⟨some path, i, t.fs.nlink i⟩)) with
  | nothing p => exact ⟨_, rfl, ⟨ha.1 p hf, ht.good, ht.links, ht.dry, ht.seen⟩⟩
  | stays fs => exact ⟨_, rfl, ⟨ha.2 fs hf, ht.good, ht.links, ht.dry, ht.seen⟩⟩
  | duplicate fs old =>
    simp only [hm, Bool.false_eq_true, if_false]
    rw [hf] at ho
    generalize hk : keyOf t.fs ⟨some path, i, t.fs.nlink i⟩ = k at *
    cases ho with
    | duplicate pre f post _ e hold hfo _ hc hne hd hlt =>
    simp only [hm, Bool.false_eq_true, if_false] at *
    have hfm : f ∈ t.mem k := by rw [e]; simp
    obtain ⟨⟨p, hp1, hp2⟩, hp3⟩ := ht.mem.known k f hfm hfo
    rw [hold] at hp1
    cases hp1
    have hstay : DelInv env o s₀ (t.remember k (pre ++ f :: post)) := by
      refine ⟨?_, ht.good, ht.links, ht.dry, ht.seen⟩
      rw [← e]
      exact ht.mem.set k _ (ht.mem.known k) (ht.mem.keyed k) (ht.mem.differ k)
    cases hdel : o.deletedups with
    | false => exact ⟨_, rfl, hstay⟩
    | true =>
      simp only [if_true]
      cases hs : (if env.unlinkOk path then t.fs.unlink path else none) with
      | none => exact ⟨_, rfl, hstay⟩
      | some s =>
        have hs' : t.fs.unlink path = some s := by
          split at hs
          · exact hs
          · cases hs
        obtain ⟨h1, h2, h3⟩ := unlink_some hs'
        have hpo : old ≠ path := by
          rintro rfl; rw [hi] at hp2; cases hp2; exact hne rfl
        have hgood : OnlyDuplicatesRemoved s₀ s := by
          refine ⟨h1.trans ht.good.1, ?_⟩
          intro p
          rw [h2]
          by_cases hpp : p = path
          · rw [if_pos hpp]
            refine Or.inr ⟨rfl, i, old, f.id, ?_, by rw [hpp]; exact hpo, by rw [h2, if_neg hpo]; exact hp2, hd, ?_⟩
            · rcases ht.good.2 path with h | ⟨h, _⟩
              · rw [hpp, ← h]; exact hi
              · rw [h] at hi; cases hi
            · rw [← ht.good.1]; exact hc
          · rw [if_neg hpp]
            rcases ht.good.2 p with h | ⟨h, i0, q, j, g1, g2, g3, g4, g5⟩
            · exact Or.inl h
            · by_cases hq : q = path
              · rw [hq, hi] at g3
                cases g3
                refine Or.inr ⟨h, i0, old, f.id, g1, ?_, by rw [h2, if_neg hpo]; exact hp2, hd.trans g4, ?_⟩
                · rintro rfl; rw [hp2] at h; cases h
                · rw [← g5, ← ht.good.1]; exact hc
              · exact Or.inr ⟨h, i0, q, j, g1, g2, by rw [h2, if_neg hq]; exact g3, g4, g5⟩
        have hlinks : WithinLinks 0 s₀ s := by
          intro x
          rcases ht.links x with h | h
          · exact Or.inl (Nat.le_trans (h3 x) h)
          · exact Or.inr (Nat.le_trans (h3 x) h)
        refine ⟨_, rfl, ⟨?_, hgood, hlinks, fun h => (by rw [hdel] at h; cases h), ?_⟩⟩
        · have := ht.mem.change e hfo f.nlink h1 hi hne hc hd (fun p hp => (h2 p).trans (if_neg hp))
            (fun x _ => h3 x) (Nat.le_trans (h3 _) hp3)
          exact this
        · intro s' hs'
          simp only [St.become, List.mem_cons] at hs'
          rcases hs' with rfl | hs'
          · exact ⟨hgood, hlinks, fun h => (by rw [hdel] at h; cases h)⟩
          · exact ht.seen s' hs'

theorem visitAll_del (env : Env) (o : Opts) (s₀ : Fs) (hr : Readable env s₀) (hm : o.makelinks = false)
    (ps : List Str) : ∀ (t : St), DelInv env o s₀ t → DelInv env o s₀ (visitAll env o t ps).st := by
  induction ps with
  | nil => intro t ht; exact ht
  | cons p ps ih =>
    intro t ht
    rw [visitAll]
    obtain ⟨t', e, h1⟩ := visit_del env o s₀ hr hm t ht p
    rw [e]; exact ih t' h1

theorem bedup_del (env : Env) (o : Opts) (s₀ : Fs) (paths : List Str) (hr : Readable env s₀)
    (hm : o.makelinks = false) : DelInv env o s₀ (bedup env o s₀ paths) := by
  have hg : OnlyDuplicatesRemoved s₀ s₀ := ⟨rfl, fun p => Or.inl rfl⟩
  refine visitAll_del env o s₀ hr hm paths _ ⟨memOK_empty env s₀, hg, fun _ => Or.inl (Nat.le_refl _), fun _ => rfl, ?_⟩
  intro s hs
  simp only [List.mem_singleton] at hs
  rw [hs]; exact ⟨hg, fun _ => Or.inl (Nat.le_refl _), fun _ => rfl⟩

/-! ### Which files are visited -/

theorem processDir_excludes (w f : Str) (level : Nat) (path : List Str) (es : List (Str × Tree)) :
    ∀ p ∈ processDir true w f level path es, ∃ n rest, p = path ++ n :: rest ∧
      levelExclusion level n w f = false ∧ ∀ m rest', rest = m :: rest' → levelExclusion (level + 1) m w f = false := by
  fun_induction processDir true w f level path es with
  | case1 => intro p hp; cases hp
  | case2 level path n es ih =>
    intro p hp
    rcases List.mem_append.1 hp with hp | hp
    · split at hp
      · cases hp
      · rename_i h
        simp only [List.mem_singleton] at hp
        refine ⟨n, [], hp, by simpa using h, ?_⟩
        intro m r hr; cases hr
    · exact ih p hp
  | case3 level path n es ih => exact ih
  | case4 level path n es' es ih1 ih2 =>
    intro p hp
    rcases List.mem_append.1 hp with hp | hp
    · split at hp
      · cases hp
      · rename_i h
        obtain ⟨n', rest, h1, h2, h3⟩ := ih1 p hp
        refine ⟨n, n' :: rest, by rw [h1]; simp, by simpa using h, ?_⟩
        intro m r hr
        cases hr
        exact h2
    · exact ih2 p hp

end Bedup

/-- **C45**: when duplicates are linked, at every moment of a run (so also if it is interrupted, or if a link, a
rename or a removal fails), whatever the checksums say, every path has the content it had, and leads to a file
that had this content from the start and is on the same device. The only new names are temporary. -/
theorem C45_content (env : Env) (o : Opts) (s₀ : Fs) (paths : List Str) (hr : Readable env s₀)
    (hm : o.makelinks = true) :
    ∀ s ∈ (bedup env o s₀ paths).seen, Unharmed s₀ s ∧ OnlyTemporary o.ext paths s₀ s :=
  fun s hs => ⟨((bedup_link env o s₀ paths hr hm).seen s hs).1, ((bedup_link env o s₀ paths hr hm).seen s hs).2.1⟩

/-- **C45**: what is seen at the paths when the run has ended is what was seen there before, and there is nothing
else, provided that temporary names can be removed. -/
theorem C45_view (env : Env) (o : Opts) (s₀ : Fs) (paths : List Str) (hr : Readable env s₀)
    (hm : o.makelinks = true) (hu : ∀ p, env.unlinkOk p = true) :
    ∀ p, (bedup env o s₀ paths).fs.view p = s₀.view p := by
  have h := bedup_link env o s₀ paths hr hm
  have hf := h.seen _ h.fs
  intro p
  cases hv : s₀.view p with
  | some c => exact hf.1.view hv
  | none =>
    have h0 : s₀.at_ p = none := by
      unfold Fs.view at hv
      cases h0 : s₀.at_ p with
      | none => rfl
      | some i => rw [h0] at hv; cases hv
    unfold Fs.view
    rw [h.tidy hu p h0]
    rfl

/-- **C45**: no file ever has more names than allowed, unless it had them before. -/
theorem C45_max_links (env : Env) (o : Opts) (s₀ : Fs) (paths : List Str) (hr : Readable env s₀) :
    ∀ s ∈ (bedup env o s₀ paths).seen, WithinLinks o.maxlinks s₀ s := by
  intro s hs
  cases hm : o.makelinks with
  | true => exact ((bedup_link env o s₀ paths hr hm).seen s hs).2.2
  | false =>
    intro i
    rcases ((bedup_del env o s₀ paths hr hm).seen s hs).2.1 i with h | h
    · exact Or.inl h
    · exact Or.inr (Nat.le_trans h (Nat.zero_le _))

/-- **C45**: when duplicates are deleted, at every moment, each path that is gone has its content at another. -/
theorem C45_deletion (env : Env) (o : Opts) (s₀ : Fs) (paths : List Str) (hr : Readable env s₀)
    (hm : o.makelinks = false) : ∀ s ∈ (bedup env o s₀ paths).seen, OnlyDuplicatesRemoved s₀ s :=
  fun s hs => ((bedup_del env o s₀ paths hr hm).seen s hs).1

/-- **C45**: without either option nothing is changed at all. -/
theorem C45_dry_run (env : Env) (o : Opts) (s₀ : Fs) (paths : List Str) (hr : Readable env s₀)
    (hm : o.makelinks = false) (hd : o.deletedups = false) : ∀ s ∈ (bedup env o s₀ paths).seen, s = s₀ :=
  fun s hs => ((bedup_del env o s₀ paths hr hm).seen s hs).2.2 hd

/-- **C45**: in a burp storage, the locks of the client, the backup that is being made or finished, and what is
about to be deleted are left alone, and so are the logs. -/
theorem C45_skips (working finishing : Str) (es : List (Str × Tree)) (p : List Str)
    (hp : p ∈ processDir true working finishing 0 [] es) :
    ∃ n rest, p = n :: rest ∧ n ∉ [bytes "lockfile", bytes "lockfile.bedup", working, finishing, bytes "deleteme"] ∧
      ∀ m rest', rest = m :: rest' →
        ∀ x ∈ [bytes "log", bytes "verifylog", bytes "restorelog"], ¬ x <+: m := by
  obtain ⟨n, rest, h1, h2, h3⟩ := processDir_excludes working finishing 0 [] es p hp
  refine ⟨n, rest, h1, ?_, ?_⟩
  · intro hn
    simp only [List.mem_cons, List.not_mem_nil, or_false] at hn
    unfold levelExclusion at h2
    rcases hn with e | e | e | e | e <;> simp [e] at h2
  · intro m rest' hm x hx hxm
    have h := h3 m rest' hm
    simp only [levelExclusion, Nat.zero_add, Nat.one_ne_zero, if_false, if_true, Bool.or_eq_false_iff] at h
    have hpre : x.isPrefixOf m = true := List.isPrefixOf_iff_prefix.2 hxm
    simp only [List.mem_cons, List.not_mem_nil, or_false] at hx
    rcases hx with rfl | rfl | rfl
    · rw [hpre] at h; exact absurd h.1.1 (by decide)
    · rw [hpre] at h; exact absurd h.1.2 (by decide)
    · rw [hpre] at h; exact absurd h.2 (by decide)

namespace Bedup

/-- Three files on one device, the first two alike; all checksums are the same. -/
def demoFs : Fs where
  at_ := fun p => if p = bytes "a" then some (1, 1) else if p = bytes "b" then some (1, 2) else
    if p = bytes "c" then some (1, 3) else none
  busy := fun _ => false
  content := fun i => if i = (1, 1) ∨ i = (1, 2) then bytes "x" else if i = (1, 3) then bytes "y" else []
  nlink := fun i => if i.1 = 1 ∧ i.2 ∈ [1, 2, 3] then 1 else 0

def demoEnv (n : Nat) : Env where
  md5 := fun _ => 0
  reads := fun _ => some n
  linkOk := fun _ => true
  renameOk := fun _ => true
  unlinkOk := fun _ => true

def demoPaths : List Str := [bytes "a", bytes "b", bytes "c"]

def demoOpts (links del : Bool) : Opts := ⟨links, del, 10, bytes "_tmp"⟩

/-- Everything can be read. -/
example : Readable (demoEnv 1) demoFs := by
  intro p n c hr hc
  cases hr
  simp only [Fs.view, demoFs] at hc
  split at hc
  · cases hc; decide
  · split at hc
    · cases hc; decide
    · split at hc
      · cases hc; decide
      · cases hc

/-- The duplicate is linked, and only that. -/
example : (bedup (demoEnv 1) (demoOpts true false) demoFs demoPaths).fs.at_ (bytes "b") = some (1, 1) ∧
    (bedup (demoEnv 1) (demoOpts true false) demoFs demoPaths).fs.at_ (bytes "c") = some (1, 3) ∧
    (bedup (demoEnv 1) (demoOpts true false) demoFs demoPaths).fs.nlink (1, 1) = 2 ∧
    (bedup (demoEnv 1) (demoOpts true false) demoFs demoPaths).seen.length = 3 := by decide +kernel

/-- The duplicate is deleted. -/
example : (bedup (demoEnv 1) (demoOpts false true) demoFs demoPaths).fs.at_ (bytes "b") = none ∧
    (bedup (demoEnv 1) (demoOpts false true) demoFs demoPaths).fs.at_ (bytes "a") = some (1, 1) ∧
    (bedup (demoEnv 1) (demoOpts false true) demoFs demoPaths).fs.at_ (bytes "c") = some (1, 3) := by decide +kernel

/-- With at most one name for a file nothing is linked. -/
example : (bedup (demoEnv 1) ⟨true, false, 1, bytes "_tmp"⟩ demoFs demoPaths).fs.at_ (bytes "b") = some (1, 2) := by
  decide +kernel

/-- Which files are visited. -/
example : processDir true (bytes "0000002 x") [] 0 [] [(bytes "lockfile", .reg), (bytes "0000002 x", .dir [(bytes "f", .reg)]),
    (bytes "0000001 x", .dir [(bytes "log.gz", .reg), (bytes "manifest.gz", .reg), (bytes "data", .dir [(bytes "log", .reg)])])] =
    [[bytes "0000001 x", bytes "manifest.gz"], [bytes "0000001 x", bytes "data", bytes "log"]] := by
  simp only [processDir]
  decide +kernel

end Bedup

/-- **C45** does not hold when files cannot be read to their ends: a read error is taken for the end of the
file, so files whose beginnings are the same, up to the error, are taken for the same, and one of them is lost. -/
theorem C45_read_error_violated :
    demoFs.view (bytes "c") = some (bytes "y") ∧
    (bedup (demoEnv 0) (demoOpts true false) demoFs demoPaths).fs.view (bytes "c") = some (bytes "x") := by
  decide +kernel

end Verif
