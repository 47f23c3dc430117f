import Verif.Props.Remove

namespace Verif
open Confine Remove

theorem prefix_cases {a b : List Name} {n : Name} (h : a <+: b ++ [n]) : a = b ++ [n] ∨ a <+: b := by
  rcases List.prefix_concat_iff.mp (by simpa using h) with e | h
  · exact .inl e
  · exact .inr h

theorem snoc_eq {p d : List Name} {n c : Name} (e : p ++ [n] = d ++ [c]) : p = d ∧ n = c := by
  have := List.append_inj' e rfl
  exact ⟨this.1, by simpa using this.2⟩

/-- The directories stay as they are when something changes at `current.tmp` only. -/
theorem Remove.Layout.only {w : World} {fs fs' : FS} {d : Dirs} {base target : Name} {o : List Name} {n : Name}
    (h : Layout w fs d base target o n) (ho : Only d.currenttmp fs fs') (hf : Fits w fs') :
    Layout w fs' d base target o n := by
  have h1 : ¬ d.currenttmp <+: d.client := not_below_child _ _
  have h2 : ¬ d.currenttmp <+: d.client ++ [base] := fun hp => by
    rcases prefix_cases hp with e | e
    · exact h.other.2 (snoc_eq e).2.symm
    · exact h1 e
  have h3 : ¬ d.currenttmp <+: o := fun hp => h.apart.2.2.2.1 (h.deleteme ▸ hp.trans (List.prefix_append _ _))
  refine ⟨hf, realDir_only h.client ho h1, h.baseName, by rw [ho _ h2]; exact h.there, h.other, h.deleteme,
    realDir_only h.outer ho h3, h.plain, by rw [ho _ h.apart.2.2.2.1]; exact h.dir, h.apart, h.targetName,
    h.named⟩

/-- What a backup directory has become when it has been put aside. -/
structure Remove.Aside (w : World) (d : Dirs) (base target : Name) (fs fs' : FS) : Prop where
  fits : Fits w fs'
  there : ∀ x, fs' (d.deleteme ++ [target] ++ x) = fs (d.client ++ [base] ++ x)
  gone : Gone (d.client ++ [base]) fs'
  free : fs (d.deleteme ++ [target]) = none ∨ fs (d.deleteme ++ [target]) = some .dir
  empty : ∀ x, x ≠ [] → fs (d.deleteme ++ [target] ++ x) = none
  dir : fs' d.deleteme = some .dir
  same : ∀ y, ¬ d.client ++ [base] <+: y → ¬ d.deleteme ++ [target] <+: y → y ≠ d.deleteme → fs' y = fs y

/-- Putting a directory aside, once the `deleteme` directory is there. -/
theorem Remove.rename_aside {w : World} {fs : FS} {s1 : State} {d : Dirs} {base target : Str} {o : List Name}
    {n : Name} (L : Layout w fs d base target o n) (same1 : ∀ y, y ≠ o ++ [n] → s1.fs y = fs y)
    (dir1 : s1.fs (o ++ [n]) = some .dir) (fits1 : Fits w s1.fs)
    (h : (rename w s1 (d.client ++ [base]) (o ++ [n] ++ [target])).1 = true) :
    Aside w d base target fs (rename w s1 (d.client ++ [base]) (o ++ [n] ++ [target])).2.fs := by
  have hab : ¬ d.client ++ [base] <+: o ++ [n] := L.deleteme ▸ L.apart.2.1
  have real_client : RealDir s1.fs d.client := by
    refine ⟨fun q hq => ?_, L.client.plain⟩
    by_cases e : q = o ++ [n]
    · rw [e]; exact dir1
    · rw [same1 q e]; exact L.client.dirs q hq
  have real_del : RealDir s1.fs (o ++ [n]) := by
    refine ⟨fun q hq => ?_, fun x hx => ?_⟩
    · rcases prefix_cases hq with rfl | hq
      · exact dir1
      · rw [same1 q fun e => not_below_child o n (e ▸ hq)]; exact L.outer.dirs q hq
    · rcases List.mem_append.mp hx with hx | hx
      · exact L.outer.plain x hx
      · rw [List.mem_singleton.mp hx]; exact ⟨L.plain.1, L.plain.2.1⟩
  have hne : d.client ++ [base] ≠ o ++ [n] ++ [target] := fun e =>
    L.apart.1 (L.deleteme.trans (snoc_eq e).1.symm)
  obtain ⟨h1, h2, h3, h4, h5, h6⟩ := rename_spec fits1 (names_real real_client L.baseName).now
    (names_real real_del ⟨L.targetName.1, L.targetName.2.1⟩).now hne h
  rw [h1]
  have hbne : d.client ++ [base] ≠ o ++ [n] := fun e => hab (e ▸ List.prefix_refl _)
  have hb1 : s1.fs (d.client ++ [base]) = some .dir := by rw [same1 _ hbne]; exact L.there
  have below_ne : ∀ x, d.client ++ [base] ++ x ≠ o ++ [n] := fun x e => hab (e ▸ List.prefix_append _ _)
  have tne : ∀ x, o ++ [n] ++ [target] ++ x ≠ o ++ [n] := by
    intro x e
    have := congrArg List.length e
    simp at this
  refine ⟨?_, fun x => ?_, fun q hq => ?_, ?_, fun x hx => ?_, ?_, fun y hy1 hy2 hy3 => ?_⟩
  · refine fits1.moved h2 h3 h4 dir1 L.targetName (L.deleteme ▸ L.named.2.1) fun _ x k hk => ?_
    exact L.deleteme ▸ L.named.2.2.2.2 x k hk
  · rw [L.deleteme]
    show moved _ _ _ _ = _
    rw [moved_below, same1 _ (below_ne x)]
  · refine moved_away _ _ _ (fun hp => ?_) hq
    rcases Nat.le_total (d.client ++ [base]).length (o ++ [n] ++ [target]).length with hle | hle
    · exact h3 (List.prefix_of_prefix_length_le hq hp hle)
    · exact h4 (List.prefix_of_prefix_length_le hp hq hle)
  · have := h6 hb1
    have hz := same1 (o ++ [n] ++ [target]) (by simp)
    rw [hz] at this
    rw [L.deleteme]
    exact this
  · have := h5 hb1 x hx
    rw [same1 _ (tne x)] at this
    rw [L.deleteme]
    exact this
  · rw [L.deleteme]
    show moved _ _ _ _ = _
    rw [moved_other _ _ _ (not_below_child _ _) hab]
    exact dir1
  · rw [L.deleteme] at hy2 hy3
    show moved _ _ _ _ = _
    rw [moved_other _ _ _ hy2 hy1, same1 y hy3]

theorem Remove.renameW_aside {w : World} {s : State} {d : Dirs} {cname base : Str} {o : List Name} {n : Name}
    (L : Layout w s.fs d base (newName cname base) o n)
    (h : (renameW w s (d.client ++ [base]) d.deleteme cname base).1 = true) :
    Aside w d base (newName cname base) s.fs (renameW w s (d.client ++ [base]) d.deleteme cname base).2.fs := by
  generalize ht : newName cname base = target at L
  unfold renameW at h ⊢
  simp only [ht] at h ⊢
  rw [L.deleteme] at h ⊢
  have hdir : s.fs (o ++ [n]) = none ∨ s.fs (o ++ [n]) = some .dir := L.deleteme ▸ L.dir
  rw [mkpath_aside L.outer ⟨L.plain.1, L.plain.2.1⟩ hdir] at h ⊢
  dsimp only at h ⊢
  -- the state with the directory
  generalize hs1 : (if s.fs (o ++ [n]) = none then s.entry (o ++ [n]) (some .dir) else s) = s1 at h ⊢
  have hod : s.fs o = some .dir := L.outer.dirs o (List.prefix_refl o)
  have same1 : ∀ y, y ≠ o ++ [n] → s1.fs y = s.fs y := by
    intro y hy
    rw [← hs1]
    split
    · exact if_neg hy
    · rfl
  have dir1 : s1.fs (o ++ [n]) = some .dir := by
    rw [← hs1]
    split
    · exact if_pos rfl
    · rename_i hx; exact hdir.resolve_left hx
  have fits1 : Fits w s1.fs := by
    rw [← hs1]
    split
    · rename_i hx
      exact L.fits.make hod (L.fits.good.names o (by rw [hod]; simp)) L.plain (by rw [hx]; simp) L.named.1
    · exact L.fits
  exact rename_aside L same1 dir1 fits1 h

theorem Remove.Aside.real_client {w : World} {d : Dirs} {base target : Name} {fs fs' : FS} {o : List Name}
    {n : Name} (L : Layout w fs d base target o n) (h : Aside w d base target fs fs') : RealDir fs' d.client := by
  refine ⟨fun q hq => ?_, L.client.plain⟩
  by_cases e : q = d.deleteme
  · rw [e]; exact h.dir
  · rw [h.same q (fun hp => not_below_child _ _ (hp.trans hq)) (fun hp => L.apart.2.2.2.2 (hp.trans hq)) e]
    exact L.client.dirs q hq

/-- A link in the directory of the client is not touched. -/
theorem Remove.Aside.link {w : World} {d : Dirs} {base target : Name} {fs fs' : FS} {o : List Name} {n : Name}
    (L : Layout w fs d base target o n) (h : Aside w d base target fs fs') {c : Name} (hc : c ≠ base)
    (hd : ¬ d.client ++ [c] <+: d.deleteme) (x : List Name) :
    fs' (d.client ++ [c] ++ x) = fs (d.client ++ [c] ++ x) := by
  refine h.same _ (fun hp => ?_) (fun hp => ?_) fun e => hd (e ▸ List.prefix_append _ _)
  · rw [List.append_assoc] at hp
    obtain ⟨t, ht⟩ := hp
    rw [List.append_assoc] at ht
    have := List.append_cancel_left ht
    simp at this
    exact hc this.1.symm
  · rcases Nat.le_total (d.deleteme ++ [target]).length (d.client ++ [c]).length with hle | hle
    · rcases prefix_cases (List.prefix_of_prefix_length_le hp (List.prefix_append _ _) hle) with e | e
      · exact L.apart.1 (snoc_eq e).1
      · exact L.apart.2.2.2.2 e
    · rcases prefix_cases (List.prefix_of_prefix_length_le (List.prefix_append _ _) hp hle) with e | e
      · exact L.apart.1 (snoc_eq e).1.symm
      · exact hd e

/-- What there is when a backup has been put aside and the `current` link has been set. -/
structure Remove.Put (w : World) (d : Dirs) (base target : Name) (newest : Bool) (prev : Option Name)
    (fs fs' : FS) : Prop where
  fits : Fits w fs'
  there : ∀ x, fs' (d.deleteme ++ [target] ++ x) = fs (d.client ++ [base] ++ x)
  gone : Gone (d.client ++ [base]) fs'
  free : fs (d.deleteme ++ [target]) = none ∨ fs (d.deleteme ++ [target]) = some .dir
  empty : ∀ x, x ≠ [] → fs (d.deleteme ++ [target] ++ x) = none
  dir : fs' d.deleteme = some .dir
  same : ∀ y, ¬ d.client ++ [base] <+: y → ¬ d.deleteme ++ [target] <+: y → y ≠ d.deleteme →
    ¬ d.current <+: y → ¬ d.currenttmp <+: y → fs' y = fs y
  current : CurrentNow d newest prev fs fs'

theorem current_plain : isStay (bytes "current") = false ∧ isUp (bytes "current") = false := by decide +kernel
theorem currenttmp_plain : isStay (bytes "current.tmp") = false ∧ isUp (bytes "current.tmp") = false := by
  decide +kernel
theorem current_ne : bytes "current" ≠ bytes "current.tmp" := by decide +kernel

theorem sibling {d : List Name} {a b : Name} (h : a ≠ b) (x : List Name) : ¬ d ++ [a] <+: d ++ [b] ++ x := by
  rintro ⟨t, ht⟩
  rw [List.append_assoc, List.append_assoc] at ht
  have := List.append_cancel_left ht
  simp at this
  exact h this.1

/-- The way to the recursive deletion in `delete_backup`. -/
theorem Remove.delete_put {w : World} {depth : Nat} {s : State} {d : Dirs} {cname base : Str} {newest : Bool}
    {prev : Option Str} {manual : Bool} {o : List Name} {n : Name}
    (L : Layout w s.fs d base (newName cname base) o n)
    (h : (deleteBackup w depth s d cname base newest prev manual).1 = true) :
    ∃ s', Put w d base (newName cname base) newest prev s.fs s'.fs ∧
      deleteBackup w depth s d cname base newest prev manual = recursiveDeleteW w depth s' d manual := by
  have hcur : ¬ d.client ++ [bytes "current"] <+: d.deleteme := L.apart.2.2.1
  have htmp : ¬ d.client ++ [bytes "current.tmp"] <+: d.deleteme := L.apart.2.2.2.1
  unfold deleteBackup at h ⊢
  dsimp only at h ⊢
  cases newest with
  | false =>
    have hA := renameW_aside (cname := cname) L
    generalize renameW w s (d.client ++ [base]) d.deleteme cname base = r at h hA ⊢
    obtain ⟨b, s1⟩ := r
    cases b with
    | false => exact absurd h (by simp)
    | true =>
      have hA := hA rfl
      refine ⟨s1, ⟨hA.fits, hA.there, hA.gone, hA.free, hA.empty, hA.dir, fun y h1 h2 h3 _ _ => hA.same y h1 h2 h3,
        ?_⟩, rfl⟩
      exact fun x => ⟨hA.link L (Ne.symm L.other.1) hcur x, hA.link L (Ne.symm L.other.2) htmp x⟩
  | true =>
    cases prev with
    | none =>
      have hA := renameW_aside (cname := cname) L
      dsimp only at h ⊢
      generalize renameW w s (d.client ++ [base]) d.deleteme cname base = r at h hA ⊢
      obtain ⟨b, s1⟩ := r
      cases b with
      | false => exact absurd h (by simp)
      | true =>
        have hA : Aside w d base (newName cname base) s.fs s1.fs := hA rfl
        have hn := names_real (hA.real_client L) current_plain
        have hu := unlink_step (w := w) hn hA.fits
        change Step w d.current s1 (unlink w s1 d.current).2 ∧ ((unlink w s1 d.current).1 = true →
          (unlink w s1 d.current).2.fs d.current = none) ∧ _ at hu
        dsimp only at h ⊢
        generalize unlink w s1 d.current = r at h hu ⊢
        obtain ⟨b, s2⟩ := r
        cases b with
        | false => exact absurd h (by simp)
        | true =>
          have hso : ∀ y, ¬ d.current <+: y → s2.fs y = s1.fs y := hu.1.only
          have hdt : ∀ x, ¬ d.current <+: d.deleteme ++ [newName cname base] ++ x := by
            intro x hp
            rcases Nat.le_total d.current.length (d.deleteme ++ [newName cname base]).length with hle | hle
            · rcases prefix_cases (List.prefix_of_prefix_length_le hp (List.prefix_append _ _) hle) with e | e
              · exact L.apart.1 (snoc_eq e).1.symm
              · exact hcur e
            · rcases prefix_cases (List.prefix_of_prefix_length_le (List.prefix_append _ _) hp hle) with e | e
              · exact L.apart.1 (snoc_eq e).1
              · exact L.apart.2.2.2.2 e
          refine ⟨s2, ⟨hu.1.fits, fun x => (hso _ (hdt x)).trans (hA.there x), fun q hq => ?_, hA.free, hA.empty,
            (hso _ hcur).trans hA.dir, fun y h1 h2 h3 h4 _ => (hso y h4).trans (hA.same y h1 h2 h3), ?_⟩, rfl⟩
          · rcases hu.1.less q with e | e
            · exact e.trans (hA.gone q hq)
            · exact e
          · refine ⟨hu.2.1 rfl, ?_⟩
            have e2 := hA.link L (Ne.symm L.other.2) htmp []
            rw [List.append_nil] at e2
            have h9 : ¬ d.current <+: d.currenttmp := by
              have := sibling (d := d.client) current_ne []
              rw [List.append_nil] at this
              exact this
            exact (hso _ h9).trans e2
    | some pb =>
      have hn0 : Names s.fs d.currenttmp d.client (bytes "current.tmp") := names_real L.client currenttmp_plain
      have hu := unlink_step (w := w) hn0 L.fits
      dsimp only at h ⊢
      generalize unlink w s d.currenttmp = r0 at h hu ⊢
      obtain ⟨b0, s0⟩ := r0
      dsimp only at h hu ⊢
      split at h
      · exact absurd h (by simp)
      · rename_i hsy
        rw [if_neg hsy]
        have L0 : Layout w s0.fs d base (newName cname base) o n := L.only hu.1.only hu.1.fits
        have hn1 : Names s0.fs d.currenttmp d.client (bytes "current.tmp") := hn0.only hu.1.only
        unfold make at h ⊢
        rw [hn1.now] at h ⊢
        dsimp only at h ⊢
        by_cases hx : s0.fs (d.client ++ [bytes "current.tmp"]) = none
        · rw [if_pos hx] at h ⊢
          dsimp only at h ⊢
          generalize hs1 : s0.entry (d.client ++ [bytes "current.tmp"]) (some (.lnk pb)) = s1 at h ⊢
          have hs1o : Only d.currenttmp s0.fs s1.fs := by
            intro q hq
            rw [← hs1]
            exact if_neg fun e : q = d.client ++ [bytes "current.tmp"] => hq (e ▸ List.prefix_refl _)
          have hcd : s0.fs d.client = some .dir := L0.client.dirs _ (List.prefix_refl _)
          have hs1f : Fits w s1.fs := by
            rw [← hs1]
            exact L0.fits.make hcd (L0.fits.good.names _ (by rw [hcd]; simp))
              ⟨currenttmp_plain.1, currenttmp_plain.2, by decide +kernel, by decide +kernel, by decide +kernel⟩
              (by rw [hx]; simp) L.named.2.2.2.1
          have L1 : Layout w s1.fs d base (newName cname base) o n := L0.only hs1o hs1f
          have hs1c : s1.fs d.currenttmp = some (.lnk pb) := by
            rw [← hs1]; exact if_pos rfl
          have hA := renameW_aside (cname := cname) L1
          generalize renameW w s1 (d.client ++ [base]) d.deleteme cname base = r at h hA ⊢
          obtain ⟨b, s2⟩ := r
          cases b with
          | false => exact absurd h (by simp)
          | true =>
            have hA : Aside w d base (newName cname base) s1.fs s2.fs := hA rfl
            dsimp only at h ⊢
            have hrc := hA.real_client L1
            have e2 : s2.fs d.currenttmp = some (.lnk pb) := by
              have := hA.link L1 (Ne.symm L.other.2) htmp []
              rw [List.append_nil] at this
              exact this.trans hs1c
            have hren := rename_spec hA.fits (names_real hrc currenttmp_plain).now
              (names_real hrc current_plain).now (fun e => current_ne (snoc_eq e).2.symm)
            change ((rename w s2 d.currenttmp d.current).1 = true → _) at hren
            generalize hrr : rename w s2 d.currenttmp d.current = r2 at h ⊢
            have hrr1 : (rename w s2 d.currenttmp d.current).1 = r2.1 := by rw [hrr]
            obtain ⟨b2, s3⟩ := r2
            cases b2 with
            | false => exact absurd h (by simp)
            | true =>
              obtain ⟨hr1, hr2, hr3, hr4, -, -⟩ := hren hrr1
              have hr1 : s3 = { s2 with fs := moved s2.fs d.currenttmp d.current,
                                        effs := .name d.current :: .name d.currenttmp :: s2.effs } := by
                have : (rename w s2 d.currenttmp d.current).2 = s3 := by rw [hrr]
                rw [← this]; exact hr1
              have hs3 : s3.fs = moved s2.fs d.currenttmp d.current := by rw [hr1]
              have hother : ∀ y, ¬ d.current <+: y → ¬ d.currenttmp <+: y → s3.fs y = s2.fs y :=
                fun y h1 h2 => by rw [hs3]; exact moved_other _ _ _ h1 h2
              have hdt : ∀ c, ¬ d.client ++ [c] <+: d.deleteme →
                  ∀ x, ¬ d.client ++ [c] <+: d.deleteme ++ [newName cname base] ++ x := by
                intro c hc x hp
                rcases Nat.le_total (d.client ++ [c]).length (d.deleteme ++ [newName cname base]).length
                  with hle | hle
                · rcases prefix_cases (List.prefix_of_prefix_length_le hp (List.prefix_append _ _) hle) with e | e
                  · exact L.apart.1 (snoc_eq e).1.symm
                  · exact hc e
                · rcases prefix_cases (List.prefix_of_prefix_length_le (List.prefix_append _ _) hp hle) with e | e
                  · exact L.apart.1 (snoc_eq e).1
                  · exact L.apart.2.2.2.2 e
              have hback : ∀ y, ¬ d.currenttmp <+: y → s1.fs y = s.fs y :=
                fun y hy => (hs1o y hy).trans (hu.1.only y hy)
              have hsib : ∀ c, c ≠ base → ∀ x, ¬ d.client ++ [c] <+: d.client ++ [base] ++ x :=
                fun c hc x => sibling hc x
              refine ⟨s3, ⟨?_, fun x => ?_, fun q hq => ?_, ?_, fun x hx => ?_, ?_, fun y h1 h2 h3 h4 h5 => ?_, ?_, ?_⟩,
                rfl⟩
              · rw [hs3]
                refine hA.fits.moved hr2 hr3 hr4 (hrc.dirs _ (List.prefix_refl _))
                  ⟨current_plain.1, current_plain.2, by decide +kernel, by decide +kernel, by decide +kernel⟩
                  L.named.2.2.1 fun hh => ?_
                rw [e2] at hh
                exact absurd hh (by simp)
              · rw [hother _ (hdt _ hcur x) (hdt _ htmp x), hA.there x,
                  hback _ (hsib _ (Ne.symm L.other.2) x)]
              · obtain ⟨x, rfl⟩ := hq
                rw [hother _ (hsib _ (Ne.symm L.other.1) x) (hsib _ (Ne.symm L.other.2) x)]
                exact hA.gone _ (List.prefix_append _ _)
              · have := hA.free
                have ht := hdt _ htmp []
                rw [List.append_nil] at ht
                rwa [hback _ ht] at this
              · have := hA.empty x hx
                rwa [hback _ (hdt _ htmp x)] at this
              · exact (hother _ hcur htmp).trans hA.dir
              · rw [hother y h4 h5, hA.same y h1 h2 h3, hback y h5]
              · rw [hs3]
                have := moved_below s2.fs d.currenttmp d.current []
                rw [List.append_nil, List.append_nil] at this
                exact this.trans e2
              · rw [hs3]
                refine moved_away _ _ _ (fun hp => ?_) (List.prefix_refl _)
                have := sibling (d := d.client) current_ne []
                rw [List.append_nil] at this
                exact this hp
        · rw [if_neg hx] at h
          exact absurd h (by simp)

/-- With `manual_delete`, a backup that has been deleted is put aside as a whole, under the name of the client
and its own, and what has been put aside before stays. Nothing else changes but the `current` link, which
leads to the backup before it if it was the newest. -/
theorem C89_aside (w : World) (depth : Nat) (s : State) (d : Dirs) (cname base : Str) (newest : Bool)
    (prev : Option Str) (o : List Name) (n : Name) (L : Layout w s.fs d base (newName cname base) o n)
    (h : (deleteBackup w depth s d cname base newest prev true).1 = true) :
    let fs' := (deleteBackup w depth s d cname base newest prev true).2.fs
    let t := d.deleteme ++ [newName cname base]
    (∀ x, fs' (t ++ x) = s.fs (d.client ++ [base] ++ x)) ∧ Gone (d.client ++ [base]) fs' ∧
    (∀ x, x ≠ [] → s.fs (t ++ x) = none) ∧ (s.fs t = none ∨ s.fs t = some .dir) ∧
    (∀ y, ¬ d.client ++ [base] <+: y → ¬ t <+: y → y ≠ d.deleteme → ¬ d.current <+: y → ¬ d.currenttmp <+: y →
      fs' y = s.fs y) ∧
    CurrentNow d newest prev s.fs fs' := by
  obtain ⟨s', hP, he⟩ := delete_put L h
  dsimp only
  rw [he]
  exact ⟨hP.there, hP.gone, hP.empty, hP.free, hP.same, hP.current⟩

/-- Without it, a backup that has been deleted is gone, with all that was waiting to be deleted, and nothing
else changes but the `current` link. -/
theorem C89_deleted (w : World) (depth : Nat) (s : State) (d : Dirs) (cname base : Str) (newest : Bool)
    (prev : Option Str) (o : List Name) (n : Name) (L : Layout w s.fs d base (newName cname base) o n)
    (hin : ¬ d.deleteme <+: d.client) (h1 : w.fails .first d.deleteme = false)
    (h2 : w.fails .lstat d.deleteme = false)
    (h : (deleteBackup w depth s d cname base newest prev false).1 = true) :
    let fs' := (deleteBackup w depth s d cname base newest prev false).2.fs
    Gone (d.client ++ [base]) fs' ∧ Gone d.deleteme fs' ∧
    (∀ y, ¬ d.client ++ [base] <+: y → ¬ d.deleteme <+: y → ¬ d.current <+: y → ¬ d.currenttmp <+: y →
      fs' y = s.fs y) ∧
    CurrentNow d newest prev s.fs fs' := by
  obtain ⟨s', hP, he⟩ := delete_put L h
  rw [he] at h
  dsimp only
  rw [he]
  have hreal : RealDir s'.fs o := by
    have hpre : ∀ c, ¬ d.client ++ [c] <+: d.deleteme → ∀ q, q <+: o → ¬ d.client ++ [c] <+: q :=
      fun c hc q hq hp => hc (L.deleteme ▸ (hp.trans hq).trans (List.prefix_append _ _))
    refine ⟨fun q hq => ?_, L.outer.plain⟩
    have hnd : ¬ d.deleteme <+: q := fun hp => not_below_child o n ((L.deleteme ▸ hp).trans hq)
    rw [hP.same q (hpre _ L.apart.2.1 q hq) (fun hp => hnd ((List.prefix_append _ _).trans hp))
      (fun e => hnd (e ▸ List.prefix_refl _)) (hpre _ L.apart.2.2.1 q hq) (hpre _ L.apart.2.2.2.1 q hq)]
    exact L.outer.dirs q hq
  have hn : Names s'.fs d.deleteme o n := by
    rw [L.deleteme]; exact names_real hreal ⟨L.plain.1, L.plain.2.1⟩
  have hdir : s'.fs (o ++ [n]) = some .dir := L.deleteme ▸ hP.dir
  have hrest := C89_nothing_else w depth s' d.deleteme o n hn hP.fits
    (fun ⟨t, ht⟩ => by rw [hdir] at ht; exact absurd ht (by simp))
  have hsucc := C89_success w depth s' d.deleteme o n hn hP.fits h1 h2
  rw [← L.deleteme] at hrest hsucc
  unfold recursiveDeleteW at h ⊢
  rw [if_neg (by simp)] at h ⊢
  generalize recursiveDelete w depth s' d.deleteme = r at h hrest hsucc ⊢
  obtain ⟨r, s3⟩ := r
  cases r with
  | error => exact absurd h (by simp)
  | remaining => exact absurd h (by simp)
  | ok =>
    obtain ⟨ho, hless, -⟩ := hrest
    have hlink : ∀ c, ¬ d.client ++ [c] <+: d.deleteme →
        ∀ x, s3.fs (d.client ++ [c] ++ x) = s'.fs (d.client ++ [c] ++ x) := by
      intro c hc x
      refine ho _ fun hp => ?_
      rcases Nat.le_total d.deleteme.length (d.client ++ [c]).length with hle | hle
      · rcases prefix_cases (List.prefix_of_prefix_length_le hp (List.prefix_append _ _) hle) with e | e
        · exact hc (e ▸ List.prefix_refl _)
        · exact hin e
      · exact hc (List.prefix_of_prefix_length_le (List.prefix_append _ _) hp hle)
    refine ⟨fun q hq => ?_, hsucc rfl, fun y h3 h4 h5 h6 => ?_, ?_⟩
    · rcases hless q with e | e
      · exact e.trans (hP.gone q hq)
      · exact e
    · refine (ho y h4).trans (hP.same y h3 (fun hp => h4 ((List.prefix_append _ _).trans hp)) ?_ h5 h6)
      exact fun e => h4 (e ▸ List.prefix_refl _)
    · have e1 : ∀ x, s3.fs (d.current ++ x) = s'.fs (d.current ++ x) := hlink _ L.apart.2.2.1
      have e2 : ∀ x, s3.fs (d.currenttmp ++ x) = s'.fs (d.currenttmp ++ x) := hlink _ L.apart.2.2.2.1
      have e1' := e1 []
      have e2' := e2 []
      rw [List.append_nil] at e1' e2'
      have hc := hP.current
      unfold CurrentNow at hc ⊢
      dsimp only
      cases newest with
      | false => exact fun x => ⟨(e1 x).trans (hc x).1, (e2 x).trans (hc x).2⟩
      | true => cases prev <;> exact ⟨e1'.trans hc.1, e2'.trans hc.2⟩

end Verif
