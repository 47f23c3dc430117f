import Verif.Props.RemoveMoved

namespace Verif
open Confine Remove

theorem Remove.rename_works {w : World} {s : State} {old new d c d' c'} (hr : Reliable w) (hf : Fits w s.fs)
    (h1 : locate s.fs old = .entry d c) (h2 : locate s.fs new = .entry d' c') (ho : s.fs (d ++ [c]) ≠ none)
    (h3 : ¬ d ++ [c] <+: d' ++ [c']) (h4 : ¬ d' ++ [c'] <+: d ++ [c])
    (hdir : s.fs (d ++ [c]) = some .dir → (s.fs (d' ++ [c']) = none ∨ s.fs (d' ++ [c']) = some .dir) ∧
      ∀ k, s.fs (d' ++ [c'] ++ [k]) = none)
    (hfile : s.fs (d ++ [c]) ≠ some .dir → s.fs (d' ++ [c']) ≠ some .dir) : (rename w s old new).1 = true := by
  unfold rename
  rw [if_neg (by rw [hr.calls]; simp), h1, h2]
  dsimp only
  rw [if_neg ho, if_neg (fun e : d ++ [c] = d' ++ [c'] => h3 (e ▸ List.prefix_refl _)),
    if_neg (fun h => h.elim h3 h4)]
  by_cases hx : s.fs (d ++ [c]) = some .dir
  · rw [if_pos hx]
    obtain ⟨a, b⟩ := hdir hx
    rw [if_pos]
    exact a.imp id fun e => ⟨e, (isEmpty_iff hf _).mpr b⟩
  · rw [if_neg hx, if_neg (hfile hx)]

/-- What is put aside has a place. -/
def Remove.Free (fs : FS) (t : List Name) : Prop := (fs t = none ∨ fs t = some .dir) ∧ ∀ k, fs (t ++ [k]) = none

theorem Remove.rename_aside_works {w : World} {fs : FS} {s1 : State} {d : Dirs} {base target : Str} {o : List Name}
    {n : Name} (hr : Reliable w) (L : Layout w fs d base target o n) (same1 : ∀ y, y ≠ o ++ [n] → s1.fs y = fs y)
    (dir1 : s1.fs (o ++ [n]) = some .dir) (fits1 : Fits w s1.fs) (hfree : Free fs (d.deleteme ++ [target])) :
    (rename w s1 (d.client ++ [base]) (o ++ [n] ++ [target])).1 = true := by
  have hab : ¬ d.client ++ [base] <+: o ++ [n] := L.deleteme ▸ L.apart.2.1
  have real_client : RealDir s1.fs d.client := by
    refine ⟨fun q hq => ?_, L.client.plain⟩
    by_cases e : q = o ++ [n]
    · rw [e]; exact dir1
    · rw [same1 q e]; exact L.client.dirs q hq
  have real_del : RealDir s1.fs (o ++ [n]) := by
    refine ⟨fun q hq => ?_, fun x hx => ?_⟩
    · rcases prefix_cases hq with rfl | hq
      · exact dir1
      · rw [same1 q fun e => not_below_child o n (e ▸ hq)]; exact L.outer.dirs q hq
    · rcases List.mem_append.mp hx with hx | hx
      · exact L.outer.plain x hx
      · rw [List.mem_singleton.mp hx]; exact ⟨L.plain.1, L.plain.2.1⟩
  have hb1 : s1.fs (d.client ++ [base]) = some .dir := by
    rw [same1 _ fun e => hab (e ▸ List.prefix_refl _)]; exact L.there
  have h3 := L.target_apart L.apart.2.1 []
  rw [List.append_nil, L.deleteme] at h3
  have h4 : ¬ o ++ [n] ++ [target] <+: d.client ++ [base] := by
    intro hp
    rcases prefix_cases hp with e | e
    · exact L.apart.1 (L.deleteme.trans (snoc_eq e).1)
    · exact L.apart.2.2.2.2 (L.deleteme ▸ e)
  rw [L.deleteme] at hfree
  refine rename_works hr fits1 (names_real real_client L.baseName).now
    (names_real real_del ⟨L.targetName.1, L.targetName.2.1⟩).now (by rw [hb1]; simp) h3 h4 (fun _ => ?_)
    (fun h => absurd hb1 h)
  rw [same1 _ (by simp)]
  refine ⟨hfree.1, fun k => ?_⟩
  rw [same1 _ (by simp)]
  exact hfree.2 k

theorem Remove.renameW_works {w : World} {s : State} {d : Dirs} {cname base : Str} {o : List Name} {n : Name}
    (hr : Reliable w) (L : Layout w s.fs d base (newName cname base) o n)
    (hfree : Free s.fs (d.deleteme ++ [newName cname base])) :
    (renameW w s (d.client ++ [base]) d.deleteme cname base).1 = true := by
  generalize ht : newName cname base = target at L hfree
  unfold renameW
  simp only [ht]
  have hdir : s.fs (o ++ [n]) = none ∨ s.fs (o ++ [n]) = some .dir := L.deleteme ▸ L.dir
  rw [L.deleteme, mkpath_aside (t := target) L.outer ⟨L.plain.1, L.plain.2.1⟩ hdir]
  dsimp only
  generalize hs1 : (if s.fs (o ++ [n]) = none then s.entry (o ++ [n]) (some .dir) else s) = s1
  have hod : s.fs o = some .dir := L.outer.dirs o (List.prefix_refl o)
  have same1 : ∀ y, y ≠ o ++ [n] → s1.fs y = s.fs y := by
    intro y hy
    rw [← hs1]
    split
    · exact if_neg hy
    · rfl
  have dir1 : s1.fs (o ++ [n]) = some .dir := by
    rw [← hs1]
    split
    · exact if_pos rfl
    · rename_i hx; exact hdir.resolve_left hx
  have fits1 : Fits w s1.fs := by
    rw [← hs1]
    split
    · rename_i hx
      exact L.fits.make hod (L.fits.good.names o (by rw [hod]; simp)) L.plain (by rw [hx]; simp) L.named.1
    · exact L.fits
  exact rename_aside_works hr L same1 dir1 fits1 hfree

/-- What is below something is in a directory. -/
theorem GoodFS.above {fs : FS} (h : GoodFS fs) (p : List Name) :
    ∀ x, x ≠ [] → fs (p ++ x) ≠ none → fs p = some .dir := by
  intro x
  induction x using Cache.snoc_ind with
  | h0 => intro h; exact absurd rfl h
  | h1 t n ih =>
    intro _ hx
    rw [← List.append_assoc] at hx
    have := h.tree _ _ hx
    cases t with
    | nil => rwa [List.append_nil] at this
    | cons a t => exact ih (by simp) (by rw [this]; simp)

/-- When no call fails and there is nothing under the name yet, putting a backup aside works. -/
theorem C89_aside_works (w : World) (depth : Nat) (s : State) (d : Dirs) (cname base : Str) (newest : Bool)
    (prev : Option Str) (o : List Name) (n : Name) (L : Layout w s.fs d base (newName cname base) o n)
    (hr : Reliable w) (hfree : Free s.fs (d.deleteme ++ [newName cname base]))
    (hcur : ∃ t, s.fs d.current = some (.lnk t))
    (htmp : s.fs d.currenttmp = none ∨ ∃ t, s.fs d.currenttmp = some (.lnk t)) :
    (deleteBackup w depth s d cname base newest prev true).1 = true := by
  have hW : ∀ s', recursiveDeleteW w depth s' d true = (true, s') := fun s' => if_pos rfl
  unfold deleteBackup
  dsimp only
  have hcd : ¬ d.client ++ [bytes "current"] <+: d.deleteme := L.apart.2.2.1
  have htd : ¬ d.client ++ [bytes "current.tmp"] <+: d.deleteme := L.apart.2.2.2.1
  cases newest with
  | false =>
    dsimp only
    have h1 := renameW_works hr L hfree
    generalize renameW w s (d.client ++ [base]) d.deleteme cname base = r at h1 ⊢
    obtain ⟨b, s1⟩ := r
    dsimp only at h1
    subst h1
    dsimp only
    rw [hW]
  | true =>
    cases prev with
    | none =>
      dsimp only
      have h1 := renameW_works hr L hfree
      have hA := renameW_aside L h1
      generalize renameW w s (d.client ++ [base]) d.deleteme cname base = r at h1 hA ⊢
      obtain ⟨b, s1⟩ := r
      dsimp only at h1 hA
      subst h1
      dsimp only
      have e := hA.link L (Ne.symm L.other.1) hcd []
      rw [List.append_nil] at e
      obtain ⟨t, ht⟩ := hcur
      have ht' : s1.fs (d.client ++ [bytes "current"]) = some (.lnk t) := e.trans ht
      have hu := unlink_works hr (names_real (hA.real_client L) current_plain) (by rw [ht']; simp)
        (by rw [ht']; simp)
      change (unlink w s1 d.current).1 = true at hu
      generalize unlink w s1 d.current = r at hu ⊢
      obtain ⟨b, s2⟩ := r
      dsimp only at hu
      subst hu
      dsimp only
      rw [hW]
    | some pb =>
      dsimp only
      have hn0 : Names s.fs d.currenttmp d.client (bytes "current.tmp") := names_real L.client currenttmp_plain
      have hu := unlink_step (w := w) hn0 L.fits
      have hgone : (unlink w s d.currenttmp).2.fs d.currenttmp = none := by
        rcases htmp with h | ⟨t, h⟩
        · rcases hu.1.less d.currenttmp with e | e
          · exact e.trans h
          · exact e
        · exact hu.2.1 (unlink_works hr hn0 (by rw [show s.fs (d.client ++ [bytes "current.tmp"]) = _ from h]; simp)
            (by rw [show s.fs (d.client ++ [bytes "current.tmp"]) = _ from h]; simp))
      generalize unlink w s d.currenttmp = r0 at hu hgone ⊢
      obtain ⟨b0, s0⟩ := r0
      dsimp only at hu hgone ⊢
      rw [if_neg (by rw [hr.calls]; simp)]
      have L0 : Layout w s0.fs d base (newName cname base) o n := L.only hu.1.only hu.1.fits
      have hn1 : Names s0.fs d.currenttmp d.client (bytes "current.tmp") := hn0.only hu.1.only
      unfold make
      rw [hn1.now]
      dsimp only
      rw [if_pos (show s0.fs (d.client ++ [bytes "current.tmp"]) = none from hgone)]
      dsimp only
      generalize hs1 : s0.entry (d.client ++ [bytes "current.tmp"]) (some (.lnk pb)) = s1
      have hs1o : Only d.currenttmp s0.fs s1.fs := by
        intro q hq
        rw [← hs1]
        exact if_neg fun e : q = d.client ++ [bytes "current.tmp"] => hq (e ▸ List.prefix_refl _)
      have hcdir : s0.fs d.client = some .dir := L0.client.dirs _ (List.prefix_refl _)
      have hs1f : Fits w s1.fs := by
        rw [← hs1]
        exact L0.fits.make hcdir (L0.fits.good.names _ (by rw [hcdir]; simp))
          ⟨currenttmp_plain.1, currenttmp_plain.2, by decide +kernel, by decide +kernel, by decide +kernel⟩
          (by rw [show s0.fs (d.client ++ [bytes "current.tmp"]) = none from hgone]; simp) L.named.2.2.2.1
      have L1 : Layout w s1.fs d base (newName cname base) o n := L0.only hs1o hs1f
      have hs1c : s1.fs d.currenttmp = some (.lnk pb) := by
        rw [← hs1]; exact if_pos rfl
      have hback : ∀ y, ¬ d.currenttmp <+: y → s1.fs y = s.fs y :=
        fun y hy => (hs1o y hy).trans (hu.1.only y hy)
      have hfree1 : Free s1.fs (d.deleteme ++ [newName cname base]) := by
        have ha := L.target_apart htd
        have h0 := ha []
        rw [List.append_nil] at h0
        refine ⟨by rw [hback _ h0]; exact hfree.1, fun k => ?_⟩
        rw [hback _ (ha [k])]
        exact hfree.2 k
      have h1 := renameW_works hr L1 hfree1
      have hA := renameW_aside L1 h1
      generalize renameW w s1 (d.client ++ [base]) d.deleteme cname base = r at h1 hA ⊢
      obtain ⟨b, s2⟩ := r
      dsimp only at h1 hA
      subst h1
      dsimp only
      have e1 := hA.link L1 (Ne.symm L.other.2) htd []
      have e2 := hA.link L1 (Ne.symm L.other.1) hcd []
      rw [List.append_nil] at e1 e2
      have e1 : s2.fs (d.client ++ [bytes "current.tmp"]) = some (.lnk pb) := e1.trans hs1c
      obtain ⟨t, ht⟩ := hcur
      have hnc : ¬ d.currenttmp <+: d.current := by
        have := sibling (d := d.client) (Ne.symm current_ne) []
        rw [List.append_nil] at this
        exact this
      have hnc' : ¬ d.client ++ [bytes "current"] <+: d.client ++ [bytes "current.tmp"] := by
        have := sibling (d := d.client) current_ne []
        rw [List.append_nil] at this
        exact this
      have e2 : s2.fs (d.client ++ [bytes "current"]) = some (.lnk t) :=
        e2.trans ((hback _ hnc).trans ht)
      have hrn := rename_works (s := s2) hr hA.fits (names_real (hA.real_client L1) currenttmp_plain).now
        (names_real (hA.real_client L1) current_plain).now (by rw [e1]; simp) hnc hnc'
        (fun h => by rw [e1] at h; exact absurd h (by simp)) (fun _ => by rw [e2]; simp)
      change (rename w s2 d.currenttmp d.current).1 = true at hrn
      generalize rename w s2 d.currenttmp d.current = r at hrn ⊢
      obtain ⟨b, s3⟩ := r
      dsimp only at hrn
      subst hrn
      dsimp only
      rw [hW]

/-- And so does deleting it for good. -/
theorem C89_deleted_works (w : World) (depth k : Nat) (s : State) (d : Dirs) (cname base : Str) (newest : Bool)
    (prev : Option Str) (o : List Name) (n : Name) (L : Layout w s.fs d base (newName cname base) o n)
    (hr : Reliable w) (hfree : Free s.fs (d.deleteme ++ [newName cname base]))
    (hcur : ∃ t, s.fs d.current = some (.lnk t))
    (htmp : s.fs d.currenttmp = none ∨ ∃ t, s.fs d.currenttmp = some (.lnk t))
    (hk : Shallow k s.fs) (hdepth : k + d.deleteme.length + 2 ≤ depth) :
    (deleteBackup w depth s d cname base newest prev false).1 = true := by
  have hw := C89_aside_works w depth s d cname base newest prev o n L hr hfree hcur htmp
  obtain ⟨s', hP, he⟩ := delete_put L hw
  have hsplit : deleteBackup w depth s d cname base newest prev false = recursiveDeleteW w depth s' d false := by
    have hW : ∀ s', recursiveDeleteW w depth s' d true = (true, s') := fun s' => if_pos rfl
    rw [hW] at he
    unfold deleteBackup at he ⊢
    dsimp only at he ⊢
    simp only [hW] at he
    cases newest with
    | false =>
      dsimp only at he ⊢
      generalize renameW w s (d.client ++ [base]) d.deleteme cname base = r at he ⊢
      obtain ⟨b, s1⟩ := r
      cases b with
      | false => exact absurd (congrArg Prod.fst he) (by simp)
      | true => dsimp only at he ⊢; rw [show s1 = s' from congrArg Prod.snd he]
    | true =>
      cases prev with
      | none =>
        dsimp only at he ⊢
        generalize renameW w s (d.client ++ [base]) d.deleteme cname base = r at he ⊢
        obtain ⟨b, s1⟩ := r
        cases b with
        | false => exact absurd (congrArg Prod.fst he) (by simp)
        | true =>
          dsimp only at he ⊢
          generalize unlink w s1 d.current = r at he ⊢
          obtain ⟨b, s1⟩ := r
          cases b with
          | false => exact absurd (congrArg Prod.fst he) (by simp)
          | true => dsimp only at he ⊢; rw [show s1 = s' from congrArg Prod.snd he]
      | some pb =>
        dsimp only at he ⊢
        split at he
        · exact absurd (congrArg Prod.fst he) (by simp)
        · rename_i hsy
          rw [if_neg hsy]
          generalize make (unlink w s d.currenttmp).2 d.currenttmp (.lnk pb) = r at he ⊢
          obtain ⟨b, s1⟩ := r
          cases b with
          | false => exact absurd (congrArg Prod.fst he) (by simp)
          | true =>
            dsimp only at he ⊢
            generalize renameW w s1 (d.client ++ [base]) d.deleteme cname base = r at he ⊢
            obtain ⟨b, s1⟩ := r
            cases b with
            | false => exact absurd (congrArg Prod.fst he) (by simp)
            | true =>
              dsimp only at he ⊢
              generalize rename w s1 d.currenttmp d.current = r at he ⊢
              obtain ⟨b, s1⟩ := r
              cases b with
              | false => exact absurd (congrArg Prod.fst he) (by simp)
              | true => dsimp only at he ⊢; rw [show s1 = s' from congrArg Prod.snd he]
  rw [hsplit]
  have hdep : d.client.length < k := hk _ (by rw [L.client.dirs _ (List.prefix_refl _)]; simp)
  have hshallow : Shallow depth s'.fs := by
    intro q hq
    by_cases h1 : d.client ++ [base] <+: q
    · exact absurd (hP.gone q h1) hq
    · by_cases h2 : d.deleteme ++ [newName cname base] <+: q
      · obtain ⟨x, rfl⟩ := h2
        rw [hP.there] at hq
        have := hk _ hq
        simp only [List.length_append, List.length_cons, List.length_nil] at this ⊢
        omega
      · have hlink : ∀ c : Name, d.client ++ [c] <+: q →
            (s'.fs (d.client ++ [c]) ≠ some .dir ∨ ∀ x, s'.fs (d.client ++ [c] ++ x) = s.fs (d.client ++ [c] ++ x)) →
            q.length < depth := by
          intro c hc h
          obtain ⟨x, rfl⟩ := hc
          rcases h with h | h
          · by_cases hx : x = []
            · rw [hx]
              simp only [List.length_append, List.length_cons, List.length_nil]
              omega
            · exact absurd (GoodFS.above hP.fits.good _ x hx hq) h
          · rw [h] at hq
            have := hk _ hq
            omega
        have hc := hP.current
        have htmp' : s.fs d.currenttmp ≠ some .dir := by
          rcases htmp with h | ⟨t, h⟩ <;> rw [h] <;> simp
        by_cases h4 : d.current <+: q
        · refine hlink _ h4 ?_
          unfold CurrentNow at hc
          cases newest with
          | false => exact .inr fun x => (hc x).1
          | true =>
            cases prev with
            | none => exact .inl (by rw [show s'.fs (d.client ++ [bytes "current"]) = none from hc.1]; simp)
            | some pb =>
              exact .inl (by rw [show s'.fs (d.client ++ [bytes "current"]) = some (.lnk pb) from hc.1]; simp)
        · by_cases h5 : d.currenttmp <+: q
          · refine hlink _ h5 ?_
            unfold CurrentNow at hc
            cases newest with
            | false => exact .inr fun x => (hc x).2
            | true =>
              cases prev with
              | none =>
                exact .inl (by
                  rw [show s'.fs (d.client ++ [bytes "current.tmp"]) = s.fs d.currenttmp from hc.2]; exact htmp')
              | some pb => exact .inl (by rw [show s'.fs (d.client ++ [bytes "current.tmp"]) = none from hc.2]; simp)
          · by_cases h3 : q = d.deleteme
            · rw [h3]; omega
            · rw [hP.same q h1 h2 h3 h4 h5] at hq
              have := hk _ hq
              omega
  have hreal : RealDir s'.fs o := by
    have hpre : ∀ c, ¬ d.client ++ [c] <+: d.deleteme → ∀ q, q <+: o → ¬ d.client ++ [c] <+: q :=
      fun c hc q hq hp => hc (L.deleteme ▸ (hp.trans hq).trans (List.prefix_append _ _))
    refine ⟨fun q hq => ?_, L.outer.plain⟩
    have hnd : ¬ d.deleteme <+: q := fun hp => not_below_child o n ((L.deleteme ▸ hp).trans hq)
    rw [hP.same q (hpre _ L.apart.2.1 q hq) (fun hp => hnd ((List.prefix_append _ _).trans hp))
      (fun e => hnd (e ▸ List.prefix_refl _)) (hpre _ L.apart.2.2.1 q hq) (hpre _ L.apart.2.2.2.1 q hq)]
    exact L.outer.dirs q hq
  have hn : Names s'.fs d.deleteme o n := by
    rw [L.deleteme]; exact names_real hreal ⟨L.plain.1, L.plain.2.1⟩
  have hok := (C89_works w depth s' d.deleteme o n hn hP.fits hr hshallow).1
  unfold recursiveDeleteW
  rw [if_neg (by simp)]
  generalize recursiveDelete w depth s' d.deleteme = r at hok ⊢
  obtain ⟨r, s3⟩ := r
  dsimp only at hok
  subst hok
  rfl

/-- Moving an unfinished backup out of the way works too, if one of the names is free, and its `timestamp` is
no longer there, so that it is never taken for a backup. -/
theorem C89_moved_works (w : World) (s : State) (d : Dirs) (base path : Str) (o : List Name) (n : Name)
    (L : ∀ k, k ≤ 100 → Layout w s.fs d base (suffixed path k) o n) (hr : Reliable w)
    (hfree : ∃ k, k ≤ 100 ∧ s.fs (d.deleteme ++ [suffixed path k]) = none)
    (hts : s.fs (d.client ++ [base, bytes "timestamp"]) ≠ some .dir) :
    (deletemeMove w s d (d.client ++ [base]) path).1 = true ∧
    ∃ k, k ≤ 100 ∧ s.fs (d.deleteme ++ [suffixed path k]) = none ∧
      (deletemeMove w s d (d.client ++ [base]) path).2.fs (d.deleteme ++ [suffixed path k]) = some .dir ∧
      (deletemeMove w s d (d.client ++ [base]) path).2.fs (d.deleteme ++ [suffixed path k, bytes "timestamp"]) =
        none := by
  have L0 := L 0 (Nat.zero_le _)
  have hdir : s.fs (o ++ [n]) = none ∨ s.fs (o ++ [n]) = some .dir := L0.deleteme ▸ L0.dir
  have hl : Confine.lstat s.fs (d.client ++ [base]) = some .dir := by
    rw [lstat_entry (names_real L0.client L0.baseName).now]; exact L0.there
  unfold deletemeMove
  rw [if_neg (by rw [hl]; simp), L0.deleteme, mkpathLimit_aside L0.outer ⟨L0.plain.1, L0.plain.2.1⟩ hdir]
  dsimp only
  generalize hs1 : (if s.fs (o ++ [n]) = none then s.entry (o ++ [n]) (some .dir) else s) = s1
  have hod : s.fs o = some .dir := L0.outer.dirs o (List.prefix_refl o)
  have same1 : ∀ y, y ≠ o ++ [n] → s1.fs y = s.fs y := by
    intro y hy
    rw [← hs1]
    split
    · exact if_neg hy
    · rfl
  have dir1 : s1.fs (o ++ [n]) = some .dir := by
    rw [← hs1]
    split
    · exact if_pos rfl
    · rename_i hx; exact hdir.resolve_left hx
  have fits1 : Fits w s1.fs := by
    rw [← hs1]
    split
    · rename_i hx
      exact L0.fits.make hod (L0.fits.good.names o (by rw [hod]; simp)) L0.plain (by rw [hx]; simp) L0.named.1
    · exact L0.fits
  have real_del : RealDir s1.fs (o ++ [n]) := by
    refine ⟨fun q hq => ?_, fun x hx => ?_⟩
    · rcases prefix_cases hq with rfl | hq
      · exact dir1
      · rw [same1 q fun e => not_below_child o n (e ▸ hq)]; exact L0.outer.dirs q hq
    · rcases List.mem_append.mp hx with hx | hx
      · exact L0.outer.plain x hx
      · rw [List.mem_singleton.mp hx]; exact ⟨L0.plain.1, L0.plain.2.1⟩
  have hlst : ∀ j, j ≤ 100 → Confine.lstat s1.fs (o ++ [n] ++ [suffixed path j]) =
      s.fs (o ++ [n] ++ [suffixed path j]) := by
    intro j hj
    rw [lstat_entry (names_real real_del ⟨(L j hj).targetName.1, (L j hj).targetName.2.1⟩).now,
      same1 _ (by simp)]
  have hfind : ∀ m j, j + m = 100 → (∃ i, j ≤ i ∧ i ≤ 100 ∧ s.fs (o ++ [n] ++ [suffixed path i]) = none) →
      ∃ i, i ≤ 100 ∧ freeName s1.fs (o ++ [n]) path m j = suffixed path i ∧
        s.fs (o ++ [n] ++ [suffixed path i]) = none := by
    intro m
    induction m with
    | zero =>
      rintro j hj ⟨i, h1, h2, h3⟩
      have e : i = j := by omega
      exact ⟨j, by omega, rfl, e ▸ h3⟩
    | succ m ih =>
      rintro j hj ⟨i, h1, h2, h3⟩
      unfold freeName
      rw [hlst j (by omega)]
      split
      · rename_i hx; exact ⟨j, by omega, rfl, hx⟩
      · rename_i hx
        refine ih (j + 1) (by omega) ⟨i, ?_, h2, h3⟩
        rcases Nat.lt_or_ge j i with h | h
        · exact h
        · have e : i = j := by omega
          exact absurd (e ▸ h3) hx
  obtain ⟨k0, hk0, hfree0⟩ := hfree
  rw [L0.deleteme] at hfree0
  obtain ⟨k, hk, hname, hnone⟩ := hfind 100 0 rfl ⟨k0, Nat.zero_le _, hk0, hfree0⟩
  rw [hname]
  have Lk := L k hk
  have hab : ¬ d.client ++ [base] <+: o ++ [n] := L0.deleteme ▸ L0.apart.2.1
  have real_base : RealDir s1.fs (d.client ++ [base]) := by
    refine ⟨fun q hq => ?_, fun x hx => ?_⟩
    · rcases prefix_cases hq with rfl | hq
      · rw [same1 _ fun e => hab (e ▸ List.prefix_refl _)]; exact L0.there
      · by_cases e : q = o ++ [n]
        · rw [e]; exact dir1
        · rw [same1 q e]; exact L0.client.dirs q hq
    · rcases List.mem_append.mp hx with hx | hx
      · exact L0.client.plain x hx
      · rw [List.mem_singleton.mp hx]; exact L0.baseName
  have hnt := names_real (c := bytes "timestamp") real_base (by decide +kernel)
  have hu := (unlink_step (w := w) hnt fits1)
  have hts1 : s1.fs (d.client ++ [base] ++ [bytes "timestamp"]) =
      s.fs (d.client ++ [base, bytes "timestamp"]) := by
    rw [same1 _ fun e => hab (e ▸ List.prefix_append _ _), List.append_assoc]
    rfl
  have hgone : (unlink w s1 (d.client ++ [base] ++ [bytes "timestamp"])).2.fs
      (d.client ++ [base] ++ [bytes "timestamp"]) = none := by
    by_cases hx : s1.fs (d.client ++ [base] ++ [bytes "timestamp"]) = none
    · rcases hu.1.less (d.client ++ [base] ++ [bytes "timestamp"]) with e | e
      · exact e.trans hx
      · exact e
    · exact hu.2.1 (unlink_works hr hnt hx (by rw [hts1]; exact hts))
  generalize unlink w s1 (d.client ++ [base] ++ [bytes "timestamp"]) = r at hu hgone ⊢
  obtain ⟨b, s2⟩ := r
  dsimp only at hu hgone ⊢
  have only2 : ∀ y, ¬ d.client ++ [base] ++ [bytes "timestamp"] <+: y → s2.fs y = s1.fs y := hu.1.only
  have above : ∀ y, ¬ d.client ++ [base] <+: y → s2.fs y = s1.fs y :=
    fun y hy => only2 y fun hp => hy ((List.prefix_append _ _).trans hp)
  have dir2 : s2.fs (o ++ [n]) = some .dir := (above _ hab).trans dir1
  have L2 : Layout w s2.fs d base (suffixed path k) o n := by
    refine ⟨hu.1.fits, ⟨fun q hq => ?_, Lk.client.plain⟩, Lk.baseName, ?_, Lk.other, Lk.deleteme,
      ⟨fun q hq => ?_, Lk.outer.plain⟩, Lk.plain, .inr (Lk.deleteme ▸ dir2), Lk.apart, Lk.targetName, Lk.named⟩
    · rw [above q fun hp => not_below_child _ _ (hp.trans hq)]
      exact real_base.dirs q (hq.trans (List.prefix_append _ _))
    · rw [only2 _ (not_below_child _ _)]; exact real_base.dirs _ (List.prefix_refl _)
    · rw [above q fun hp => hab ((hp.trans hq).trans (List.prefix_append _ _)),
        same1 q fun e => not_below_child o n (e ▸ hq)]
      exact Lk.outer.dirs q hq
  have hbelow : ∀ x, ¬ d.client ++ [base] <+: o ++ [n] ++ [suffixed path k] ++ x := by
    have := Lk.target_apart Lk.apart.2.1
    rwa [Lk.deleteme] at this
  have hfr : Free s2.fs (d.deleteme ++ [suffixed path k]) := by
    rw [Lk.deleteme]
    have h0 := hbelow []
    rw [List.append_nil] at h0
    refine ⟨.inl (by rw [above _ h0, same1 _ (by simp)]; exact hnone), fun j => ?_⟩
    rw [above _ (hbelow [j]), same1 _ (by simp)]
    refine Classical.byContradiction fun hx => ?_
    have := L0.fits.good.tree _ _ hx
    rw [hnone] at this
    exact absurd this (by simp)
  have hok := rename_aside_works hr L2 (s1 := s2) (fun _ _ => rfl) dir2 hu.1.fits hfr
  have hA := rename_aside L2 (s1 := s2) (fun _ _ => rfl) dir2 hu.1.fits hok
  have ht0 := hA.there []
  have ht1 := hA.there [bytes "timestamp"]
  rw [Lk.deleteme] at ht0 ht1
  rw [List.append_nil, List.append_nil] at ht0
  refine ⟨hok, k, hk, hnone, ht0.trans L2.there, ?_⟩
  have := ht1.trans hgone
  rw [List.append_assoc _ [suffixed path k]] at this
  exact this

end Verif
