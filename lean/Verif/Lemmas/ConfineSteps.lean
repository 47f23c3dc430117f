import Verif.Lemmas.Confine

namespace Verif.Confine
open Verif.PathCmp

section
variable {H Hm Hd : Prop} {fs0 : FS} {n0 : Nat} {D P : List Name}

theorem toPath_eq (p : List Name) : toPath p = renderPath p := by cases p <;> rfl

/-! ### Making the directories above -/

theorem mkpathR_canon {s : State} {c : Name} {rp : List Name} (h : Canon s.fs rp.reverse) :
    mkpathR s (c :: rp) = (true, s) := by
  unfold mkpathR
  split
  · rfl
  · rw [if_neg (by rw [lstat_canon h]; exact h.node.1)]

theorem make_nowhere {s : State} {p n} (h : locate s.fs p = .noent) : make s p n = (false, s) := by
  unfold make; rw [h]

theorem lstat_nowhere {fs : FS} {p} (h : locate fs p = .noent) : lstat fs p = none := by
  unfold lstat target; rw [h]; rfl

theorem mkpathR_spec {s : State} (hi : Inv H Hm Hd fs0 n0 D s) {p : List Name} {c : Name}
    (hp : Canon s.fs p) (hD : D <+: p) (hno : ∀ b, realpath s.fs (p ++ c :: b) = .noent)
    (rr : List Name) (hn : ∀ x ∈ c :: rr, PartName x) (x : Name) {b s'}
    (e : mkpathR s (x :: (rr ++ c :: p.reverse)) = (b, s')) :
    Inv H Hm Hd fs0 n0 D s' ∧
      (b = true → s' = s ∨ (Canon s'.fs (p ++ c :: rr.reverse) ∧ s'.fs (p ++ c :: rr.reverse) = some .dir)) := by
  have finish : ∀ (s1 : State) (d : List Name) (y : Name) (b s'), Inv H Hm Hd fs0 n0 D s1 → Canon s1.fs d →
      D <+: d → PartName y → d ++ [y] ≠ [] → mkdir s1 (d ++ [y]) = (b, s') →
      Inv H Hm Hd fs0 n0 D s' ∧ (b = true → Canon s'.fs (d ++ [y]) ∧ s'.fs (d ++ [y]) = some .dir) := by
    intro s1 d y b s' hi hc hD hy _ e
    -- a directory is never made where the path ends with `..`
    have hf : Fine True Hm Hd fs0 n0 D (d ++ [y]) s1 :=
      ⟨⟨hi.good, hi.dir, hi.outside, fun x hx => by
        have := hi.effs x hx
        cases x with
        | name p => exact this
        | data p i => exact this
        | own p =>
          rcases this with h | h
          · exact .inl h
          · exact .inr ⟨h.1, trivial⟩
        | mode p =>
          rcases this with h | h | h
          · exact .inl h
          · exact .inr (.inl ⟨h.1, trivial⟩)
          · exact .inr (.inr h), hi.next⟩, ready_snoc hc hD hy (fun _ => trivial)⟩
    have hm : make s1 (d ++ [y]) .dir = (b, s') := e
    have hm' := hm
    rcases make_spec hf hm with ⟨rfl, rfl⟩ | ⟨rfl, hf', d', c', e', ha, hs, hnx⟩
    · exact ⟨hi, by simp⟩
    · obtain ⟨h1, h2⟩ := List.append_inj' e' rfl
      subst h1
      have h2' : y = c' := by simpa using h2
      subst h2'
      refine ⟨?_, fun _ => ⟨ha.canon.snoc ha.dir ha.plain ⟨by rw [hs]; simp, by rw [hs]; simp⟩, hs⟩⟩
      -- the new state is the old one with an entry
      unfold make at hm'
      split at hm'
      · rename_i d2 c2 hl
        split at hm'
        · rename_i hnone
          injection hm' with _ hm'
          have hr : Ready True s1.fs D (d ++ [y]) := hf.2
          cases hr with
          | nowhere h => rw [hl] at h; simp at h
          | self q h _ => rw [hl] at h; simp at h
          | entry d3 c3 e3 ha3 =>
            rw [e3, ha3.locate] at hl
            injection hl with hl1 hl2
            subst hl1 hl2
            rw [← hm']
            exact hi.entry ha3 (by rw [hnone]; simp)
        · injection hm' with hm' _; simp at hm'
      · injection hm' with hm' _; simp at hm'
  induction rr generalizing x b s' with
  | nil =>
    unfold mkpathR at e
    rw [if_neg (by simp)] at e
    simp only [List.nil_append, List.reverse_cons, List.reverse_reverse, List.reverse_nil] at e ⊢
    split at e
    · rw [mkpathR_canon (by simpa using hp)] at e
      obtain ⟨h1, h2⟩ := finish s p c b s' hi hp hD (hn c (by simp)) (by simp) e
      exact ⟨h1, fun hb => .inr (h2 hb)⟩
    · injection e with e1 e2
      subst e1 e2
      exact ⟨hi, fun _ => .inl rfl⟩
  | cons y rr ih =>
    have hloc : locate s.fs (p ++ c :: (rr.reverse ++ [y])) = .noent := by
      have : p ++ c :: (rr.reverse ++ [y]) = (p ++ c :: rr.reverse) ++ [y] := by simp
      rw [this, locate_snoc, hno]
    unfold mkpathR at e
    rw [if_neg (by simp)] at e
    simp only [List.cons_append, List.reverse_cons, List.reverse_append, List.reverse_reverse,
      List.append_assoc, List.nil_append] at e ⊢
    rw [if_pos (lstat_nowhere hloc)] at e
    rcases e1 : mkpathR s (y :: (rr ++ c :: p.reverse)) with ⟨b1, s1⟩
    obtain ⟨h1, h2⟩ := ih (fun x hx => hn x (by
      rcases List.mem_cons.mp hx with rfl | hx
      · simp
      · simp [hx])) y e1
    rw [e1] at e
    cases b1 with
    | false =>
      injection e with e1 e2
      subst e1 e2
      exact ⟨h1, by simp⟩
    | true =>
      simp only at e
      rcases h2 rfl with rfl | ⟨h3, h4⟩
      · unfold mkdir at e
        rw [make_nowhere hloc] at e
        injection e with e1 e2
        subst e1 e2
        exact ⟨h1, by simp⟩
      · have heq : p ++ c :: (rr.reverse ++ [y]) = (p ++ c :: rr.reverse) ++ [y] := by simp
        rw [heq] at e ⊢
        obtain ⟨h5, h6⟩ := finish s1 _ y b s' h1 h3 (hD.trans (List.prefix_append _ _)) (hn y (by simp))
          (by simp) e
        exact ⟨h5, fun hb => .inr (h6 hb)⟩

/-- After `canonicalise` and making the directories above, all is well. -/
theorem mkpath_fine {s : State} (hi : Inv H Hm Hd fs0 n0 D s) {full : List Name}
    (hc : canonicalise s.fs D full = some P) (hn : ∀ x ∈ full, PartName x)
    (hH : full.getLast? = some [dot, dot] → H) :
    Inv H Hm Hd fs0 n0 D (mkpath s P).2 ∧ ((mkpath s P).1 = true → Ready H (mkpath s P).2.fs D P) := by
  unfold canonicalise at hc
  split at hc
  · exact absurd hc (by simp)
  · rename_i p rest hl
    obtain ⟨hp, c, t, rfl, ht, hm, hlast⟩ := canonLoop_spec hi.good.root hl (.inl rfl)
    have hm' : ∀ x ∈ c :: t, PartName x := by
      intro x hx
      rcases hm x hx with h | h
      · exact hn x (List.mem_reverse.mp h)
      · simp at h
    simp only [List.reverse_reverse, List.append_nil] at hlast
    split at hc
    · exact absurd hc (by simp)
    · rename_i hsub
      have hD : D <+: p := by
        rw [toPath_eq, toPath_eq] at hsub
        refine (isSubdir_render (hi.good.names D ?_) (hi.good.names p hp.node.1)).mp hsub
        rw [hi.dir.dirs D (List.prefix_refl D)]; simp
      have hup : ∀ x, (c :: t).getLast? = some x → isUp x = true → H := by
        intro x hx hu
        apply hH
        rw [← hlast, hx]
        simpa [isUp] using hu
      split at hc
      · injection hc with hc
        subst hc
        have hmk : mkpath s p = (true, s) := by
          unfold mkpath
          rcases List.eq_nil_or_concat p with rfl | ⟨d, y, rfl⟩
          · rfl
          · rw [List.concat_eq_append] at hp ⊢
            rw [List.reverse_append]
            exact mkpathR_canon (by simpa using hp.pre (List.prefix_append d [y]))
        rw [hmk]
        exact ⟨hi, fun _ => ready_canon hi.good hp hD⟩
      · injection hc with hc
        subst hc
        rcases ht with rfl | ht
        · have hmk : mkpath s (p ++ [c]) = (true, s) := by
            unfold mkpath
            rw [List.reverse_append]
            exact mkpathR_canon (by simpa using hp)
          rw [hmk]
          exact ⟨hi, fun _ => ready_snoc hp hD (hm' c (by simp)) (hup c rfl)⟩
        · rcases List.eq_nil_or_concat t with rfl | ⟨r, x, rfl⟩
          · have hmk : mkpath s (p ++ [c]) = (true, s) := by
              unfold mkpath
              rw [List.reverse_append]
              exact mkpathR_canon (by simpa using hp)
            rw [hmk]
            exact ⟨hi, fun _ => ready_snoc hp hD (hm' c (by simp)) (hup c rfl)⟩
          · rw [List.concat_eq_append] at *
            rcases e : mkpath s (p ++ c :: (r ++ [x])) with ⟨b, s'⟩
            have e' := e
            unfold mkpath at e'
            have hrev : (p ++ c :: (r ++ [x])).reverse = x :: (r.reverse ++ c :: p.reverse) := by simp
            rw [hrev] at e'
            obtain ⟨h1, h2⟩ := mkpathR_spec hi hp hD ht r.reverse (by
              intro y hy
              apply hm'
              simp only [List.mem_cons, List.mem_reverse, List.mem_append] at hy ⊢
              rcases hy with h | h
              · exact .inl h
              · exact .inr (.inl h)) x e'
            refine ⟨h1, fun hb => ?_⟩
            have heq : p ++ c :: (r ++ [x]) = (p ++ c :: r) ++ [x] := by simp
            simp only [List.reverse_reverse] at h2
            rcases h2 hb with rfl | ⟨h3, _⟩
            · refine .nowhere (.inl ?_)
              rw [heq, locate_snoc, ht]
            · rw [heq]
              refine ready_snoc h3 (hD.trans (List.prefix_append _ _)) (hm' x (by simp)) (hup x ?_)
              rw [← List.cons_append, List.getLast?_concat]

/-! ### Entries -/

/-- What `mkpath_fine` gives. -/
def Pathed (H Hm Hd : Prop) (fs0 : FS) (n0 : Nat) (D P : List Name) (s : State) : Prop :=
  Inv H Hm Hd fs0 n0 D (mkpath s P).2 ∧ ((mkpath s P).1 = true → Ready H (mkpath s P).2.fs D P)

theorem makeFile_spec {s b s'} (h : Fine H Hm Hd fs0 n0 D P s) (e : makeFile s P = (b, s')) :
    Fine H Hm Hd fs0 n0 D P s' ∧ (b = true → ∃ d c, P = d ++ [c] ∧ At s'.fs D d c ∧ ∃ i, n0 ≤ i ∧
      s'.fs P = some (.file i)) := by
  unfold makeFile at e
  have hf : Fine H Hm Hd fs0 n0 D P { s with next := s.next + 1 } := ⟨h.1.bump, h.2⟩
  rcases make_spec hf e with ⟨rfl, rfl⟩ | ⟨rfl, h1, d, c, h2, h3, h4, _⟩
  · exact ⟨hf, by simp⟩
  · exact ⟨h1, fun _ => ⟨d, c, h2, h3, s.next, h.1.next, h4⟩⟩

theorem At.lstat_file {fs d c n} (ha : At fs D d c) (hs : fs (d ++ [c]) = some n) (hn : ∀ t, n ≠ .lnk t) (t) :
    Confine.lstat fs (d ++ [c]) ≠ some (.lnk t) := by
  rw [ha.lstat, hs]
  intro e
  injection e with e
  exact hn t e

theorem restoreDir_fine {s : State} {m} (hp : Pathed H Hm Hd fs0 n0 D P s) :
    Inv H Hm Hd fs0 n0 D (restoreDir s P m) := by
  unfold Pathed at hp
  unfold restoreDir
  generalize mkpath s P = r at hp ⊢
  obtain ⟨b, s1⟩ := r
  obtain ⟨h1, h2⟩ := hp
  cases b with
  | false => exact h1
  | true =>
    have hf : Fine H Hm Hd fs0 n0 D P s1 := ⟨h1, h2 rfl⟩
    simp only
    split
    · rename_i hl
      exact (attribsSet_fine hf (.inr (.inr (by rw [hl]; simp)))).1.1
    · rcases e : mkdir s1 P with ⟨b, s2⟩
      rcases make_spec hf e with ⟨rfl, rfl⟩ | ⟨rfl, hf', d, c, rfl, ha, hs, _⟩
      · exact h1
      · exact (attribsSet_fine hf' (.inr (.inr (ha.lstat_file hs (by simp))))).1.1

theorem hardLink_fine {s : State} {old b s'} (h : Fine H Hm Hd fs0 n0 D P s) (e : hardLink s old P = (b, s')) :
    Fine H Hm Hd fs0 n0 D P s' := by
  unfold hardLink at e
  split at e
  · injection e with _ e; exact e ▸ h
  · injection e with _ e; exact e ▸ h
  · rename_i n _ _
    have := make_fine (n := n) h
    rw [e] at this
    exact this

theorem restoreLink_fine {s : State} {e : Entry} (hp : Pathed H Hm Hd fs0 n0 D P s)
    (hm : e.mode = .lnk ∨ Hm) : Inv H Hm Hd fs0 n0 D (restoreLink s D P e) := by
  unfold Pathed at hp
  unfold restoreLink
  generalize mkpath s P = r at hp ⊢
  obtain ⟨b, s1⟩ := r
  obtain ⟨h1, h2⟩ := hp
  cases b with
  | false => exact h1
  | true =>
    have hf : Fine H Hm Hd fs0 n0 D P s1 := ⟨h1, h2 rfl⟩
    have hu := unlink_fine hf
    simp only
    have key : ∀ b s', (if e.hard then hardLink (unlink s1 P).2 (D ++ sub e.link) P
        else make (unlink s1 P).2 P (.lnk e.link)) = (b, s') → Fine H Hm Hd fs0 n0 D P s' := by
      intro b s' h
      split at h
      · exact hardLink_fine hu h
      · have := make_fine (n := .lnk e.link) hu
        rw [h] at this
        exact this
    rcases he : (if e.hard then hardLink (unlink s1 P).2 (D ++ sub e.link) P
        else make (unlink s1 P).2 P (.lnk e.link)) with ⟨b, s2⟩
    have hk := key _ _ he
    cases b with
    | false => exact hk.1
    | true =>
      exact (attribsSet_fine hk (by
        rcases hm with h | h
        · exact .inl h
        · exact .inr (.inl h))).1.1

theorem restoreSpecial_fine {s : State} {m} (hp : Pathed H Hm Hd fs0 n0 D P s) (hm : Hm) (hs : m ≠ .sock) :
    Inv H Hm Hd fs0 n0 D (restoreSpecial s P m) := by
  unfold Pathed at hp
  unfold restoreSpecial
  generalize mkpath s P = r at hp ⊢
  obtain ⟨b, s1⟩ := r
  obtain ⟨h1, h2⟩ := hp
  cases b with
  | false => exact h1
  | true =>
    have hf : Fine H Hm Hd fs0 n0 D P s1 := ⟨h1, h2 rfl⟩
    simp only
    rw [if_neg hs]
    have key : ∀ b s', (if m = .dir ∨ m = .lnk then (false, s1) else makeFile s1 P) = (b, s') →
        Fine H Hm Hd fs0 n0 D P s' := by
      intro b s' h
      split at h
      · injection h with _ h; exact h ▸ hf
      · exact (makeFile_spec hf h).1
    rcases he : (if m = .dir ∨ m = .lnk then (false, s1) else makeFile s1 P) with ⟨b, s2⟩
    have hk := key _ _ he
    cases b with
    | true => exact (attribsSet_fine hk (.inr (.inl hm))).1.1
    | false =>
      simp only
      split
      · exact (attribsSet_fine hk (.inr (.inl hm))).1.1
      · exact hk.1

theorem restoreFile_fine {s : State} {m} (hp : Pathed H Hm Hd fs0 n0 D P s) (hd : m = .dir → Hd) :
    Inv H Hm Hd fs0 n0 D (restoreFile s P m) := by
  unfold Pathed at hp
  unfold restoreFile
  generalize mkpath s P = r at hp ⊢
  obtain ⟨b, s1⟩ := r
  obtain ⟨h1, h2⟩ := hp
  cases b with
  | false => exact h1
  | true =>
    have hf : Fine H Hm Hd fs0 n0 D P s1 := ⟨h1, h2 rfl⟩
    simp only
    split
    · rename_i hm
      have h3 := writeExisting_fine (make_fine (n := .dir) hf) (.inl (hd hm))
      unfold mkdir
      rcases he : writeExisting (make s1 P .dir).2 P with ⟨b, s2⟩
      rw [he] at h3
      cases b with
      | false => exact h3.1.1
      | true =>
        have h4 := attribsSet_fine (m := m) h3.1 (.inr (.inr (h3.2 rfl)))
        exact (attribsSet_fine h4.1 (.inr (.inr (by rw [h4.2]; exact h3.2 rfl)))).1.1
    · have hu := unlink_fine hf
      have key : ∀ s2, Fine H Hm Hd fs0 n0 D P s2 → Inv H Hm Hd fs0 n0 D
          (match makeFile s2 P with
          | (false, s) => s
          | (true, s) => attribsSet (attribsSet (writeExisting s P).2 P m) P m) := by
        intro s2 hf2
        rcases he : makeFile s2 P with ⟨b, s3⟩
        obtain ⟨h3, h4⟩ := makeFile_spec hf2 he
        cases b with
        | false => exact h3.1
        | true =>
          obtain ⟨d, c, rfl, ha, i, hi, hs⟩ := h4 rfl
          have h5 := writeExisting_fine h3 (.inr (fun j hj => by
            rw [hs] at hj
            injection hj with hj
            injection hj with hj
            rw [← hj]; exact hi))
          have hw : (writeExisting s3 (d ++ [c])).1 = true := by
            unfold writeExisting
            rw [ha.locate]
            simp only [hs]
          have h6 := attribsSet_fine (m := m) h5.1 (.inr (.inr (h5.2 hw)))
          exact (attribsSet_fine h6.1 (.inr (.inr (by rw [h6.2]; exact h5.2 hw)))).1.1
      rcases he : unlink s1 P with ⟨r, s2⟩
      rw [he] at hu
      match r with
      | some false => exact hu.1
      | some true => exact key s2 hu
      | none => exact key s2 hu

/-! ### Metadata -/

/-- With plain names, either nothing can be done at all, or the path is a real place. -/
theorem mkpath_plain {s : State} (hi : Inv H Hm Hd fs0 n0 D s) {full : List Name}
    (hc : canonicalise s.fs D full = some P) (hn : ∀ x ∈ full, PartName x)
    (hpl : ∀ x ∈ full, isStay x = false ∧ isUp x = false) :
    ((mkpath s P).1 = true ∧ ∃ d c, P = d ++ [c] ∧ At (mkpath s P).2.fs D d c) ∨
    ((mkpath s P).2 = s ∧ (locate s.fs P = .noent ∨ locate s.fs P = .err)) := by
  unfold canonicalise at hc
  split at hc
  · exact absurd hc (by simp)
  · rename_i p rest hl
    obtain ⟨hp, c, t, rfl, ht, hm, hlast⟩ := canonLoop_spec hi.good.root hl (.inl rfl)
    have hm' : ∀ x ∈ c :: t, x ∈ full := by
      intro x hx
      rcases hm x hx with h | h
      · exact List.mem_reverse.mp h
      · simp at h
    split at hc
    · exact absurd hc (by simp)
    · rename_i hsub
      have hD : D <+: p := by
        rw [toPath_eq, toPath_eq] at hsub
        refine (isSubdir_render (hi.good.names D ?_) (hi.good.names p hp.node.1)).mp hsub
        rw [hi.dir.dirs D (List.prefix_refl D)]; simp
      split at hc
      · rename_i he
        have hs := (hpl c (hm' c (by simp))).1
        rw [List.cons.injEq] at he
        rw [he.1] at hs
        simp [isStay] at hs
      · injection hc with hc
        subst hc
        have one : ∀ (s1 : State) (p : List Name) (c : Name), Canon s1.fs p → D <+: p → c ∈ full →
            (∃ d c', p ++ [c] = d ++ [c'] ∧ At s1.fs D d c') ∨
            (locate s1.fs (p ++ [c]) = .noent ∨ locate s1.fs (p ++ [c]) = .err) := by
          intro s1 p c hp hD hc
          have := ready_snoc (H := True) hp hD (hn c hc) (fun _ => trivial)
          cases this with
          | nowhere h => exact .inr h
          | entry d c' e h => exact .inl ⟨d, c', e, h⟩
          | self q h _ =>
            rw [locate_snoc, realpath_canon hp] at h
            simp only [(hpl c hc).1, (hpl c hc).2] at h
            split at h <;> simp at h
        have hsingle : t = [] → ((mkpath s (p ++ c :: t)).1 = true ∧
              ∃ d c', p ++ c :: t = d ++ [c'] ∧ At (mkpath s (p ++ c :: t)).2.fs D d c') ∨
            ((mkpath s (p ++ c :: t)).2 = s ∧
              (locate s.fs (p ++ c :: t) = .noent ∨ locate s.fs (p ++ c :: t) = .err)) := by
          intro ht
          subst ht
          have hmk : mkpath s (p ++ [c]) = (true, s) := by
            unfold mkpath
            rw [List.reverse_append]
            exact mkpathR_canon (by simpa using hp)
          rw [hmk]
          rcases one s p c hp hD (hm' c (by simp)) with h | h
          · exact .inl ⟨rfl, h⟩
          · exact .inr ⟨rfl, h⟩
        rcases ht with ht | ht
        · exact hsingle ht
        · rcases List.eq_nil_or_concat t with ht' | ⟨r, x, ht'⟩
          · exact hsingle ht'
          · rw [List.concat_eq_append] at ht'
            subst ht'
            have heq : p ++ c :: (r ++ [x]) = (p ++ c :: r) ++ [x] := by simp
            have hloc : ∀ b y, locate s.fs (p ++ c :: (b ++ [y])) = .noent := by
              intro b y
              have : p ++ c :: (b ++ [y]) = (p ++ c :: b) ++ [y] := by simp
              rw [this, locate_snoc, ht]
            have hcn := hm' c (by simp)
            have hfresh : ∀ b : List Name, b ≠ [] → s.fs (p ++ c :: b) = none := by
              intro b hb
              by_cases hne : s.fs (p ++ c :: b) = none
              · exact hne
              · exfalso
                have up : ∀ k (q r : List Name), r.length = k → r ≠ [] → s.fs (q ++ r) ≠ none →
                    s.fs q = some .dir := by
                  intro k
                  induction k with
                  | zero => intro q r hk hr; exact absurd (List.length_eq_zero_iff.mp hk) hr
                  | succ k ih =>
                    intro q r hk hr hs
                    rcases List.eq_nil_or_concat r with rfl | ⟨r', y, rfl⟩
                    · exact absurd rfl hr
                    · rw [List.concat_eq_append, ← List.append_assoc] at hs
                      have h1 := hi.good.tree _ _ hs
                      by_cases hr' : r' = []
                      · rw [hr', List.append_nil] at h1; exact h1
                      · exact ih q r' (by simpa using hk) hr' (by rw [h1]; simp)
                have hd : s.fs (p ++ [c]) = some .dir := by
                  refine up b.length (p ++ [c]) b rfl hb ?_
                  rwa [List.append_assoc, List.singleton_append]
                have hpd := hi.good.tree p c (by rw [hd]; simp)
                have hcc := hp.snoc hpd (hpl c hcn) ⟨by rw [hd]; simp, by rw [hd]; simp⟩
                have h1 := ht []
                rw [realpath_canon hcc] at h1
                simp at h1
            -- all the directories are made, or none
            have key : ∀ (rr : List Name), (∀ y ∈ rr, y ∈ full) → ∀ x : Name,
                (mkpathR s (x :: (rr ++ c :: p.reverse))).2 = s ∨
                ((mkpathR s (x :: (rr ++ c :: p.reverse))).1 = true ∧
                  ∀ b, b ≠ [] →
                    (mkpathR s (x :: (rr ++ c :: p.reverse))).2.fs (p ++ c :: (rr.reverse ++ b)) = none) := by
              intro rr
              induction rr with
              | nil =>
                intro _ x
                rw [mkpathR, if_neg (by simp)]
                simp only [List.nil_append, List.reverse_cons, List.reverse_reverse, List.reverse_nil]
                split
                · rw [mkpathR_canon (by simpa using hp)]
                  simp only
                  unfold mkdir make
                  split
                  · rename_i d' c' hl'
                    split
                    · right
                      refine ⟨rfl, fun b hb => ?_⟩
                      have hpd : s.fs p = some .dir := by
                        rw [locate_snoc, realpath_canon hp] at hl'
                        simp only at hl'
                        split at hl'
                        · assumption
                        · simp at hl'
                      rw [locate_canon hp hpd (hpl c hcn)] at hl'
                      injection hl' with h1 h2
                      subst h1 h2
                      show put _ _ _ _ = _
                      rw [put, if_neg ?_]
                      · exact hfresh b hb
                      · intro e
                        have e' := congrArg List.length e
                        have := List.length_pos_iff.mpr hb
                        simp only [List.length_append, List.length_cons, List.length_nil] at e'
                        omega
                    · exact .inl rfl
                  · exact .inl rfl
                · exact .inl rfl
              | cons y rr ih =>
                intro hrr x
                have ih' := ih (fun z hz => hrr z (List.mem_cons_of_mem _ hz)) y
                rcases e1 : mkpathR s (y :: (rr ++ c :: p.reverse)) with ⟨b1, s1⟩
                obtain ⟨h1, h2⟩ := mkpathR_spec hi hp hD ht rr (by
                  intro z hz
                  apply hn
                  rcases List.mem_cons.mp hz with rfl | hz
                  · exact hcn
                  · exact hrr z (List.mem_cons_of_mem _ hz)) y e1
                rw [e1] at ih'
                rw [mkpathR, if_neg (by simp)]
                simp only [List.cons_append, List.reverse_cons, List.reverse_append, List.reverse_reverse,
                  List.append_assoc, List.nil_append]
                rw [if_pos (lstat_nowhere (hloc rr.reverse y)), e1]
                cases b1 with
                | false =>
                  rcases ih' with h | h
                  · exact .inl h
                  · exact absurd h.1 (by simp)
                | true =>
                  simp only
                  have hsame : s1 = s → (mkdir s1 (p ++ c :: (rr.reverse ++ [y]))).2 = s := by
                    intro e
                    rw [e]
                    unfold mkdir
                    rw [make_nowhere (hloc rr.reverse y)]
                  rcases h2 rfl with e | ⟨hc1, hd1⟩
                  · exact .inl (hsame e)
                  · rcases ih' with e | ⟨_, hf⟩
                    · exact .inl (hsame e)
                    · right
                      have hq : p ++ c :: (rr.reverse ++ [y]) = (p ++ c :: rr.reverse) ++ [y] := by simp
                      have hy := hpl y (hrr y (by simp))
                      have hnone := hf [y] (by simp)
                      unfold mkdir make
                      simp only [hq] at hnone ⊢
                      rw [locate_canon hc1 hd1 hy]
                      simp only
                      rw [if_pos hnone]
                      refine ⟨rfl, fun b hb => ?_⟩
                      show put _ _ _ _ = _
                      rw [put, if_neg ?_]
                      · have := hf (y :: b) (by simp)
                        simpa using this
                      · intro e
                        have e' := congrArg List.length e
                        have := List.length_pos_iff.mpr hb
                        simp only [List.length_append, List.length_cons, List.length_nil, List.length_reverse] at e'
                        omega
            have hrev : (p ++ c :: (r ++ [x])).reverse = x :: (r.reverse ++ c :: p.reverse) := by simp
            have hk := key r.reverse (fun y hy => hm' y (by
              simp only [List.mem_reverse] at hy
              simp [hy])) x
            rcases e : mkpathR s (x :: (r.reverse ++ c :: p.reverse)) with ⟨b, s1⟩
            have hsp := mkpathR_spec hi hp hD ht r.reverse (by
              intro y hy
              apply hn
              apply hm'
              simp only [List.mem_cons, List.mem_reverse, List.mem_append] at hy ⊢
              rcases hy with h | h
              · exact .inl h
              · exact .inr (.inl h)) x e
            rw [e] at hk
            unfold mkpath
            rw [hrev, e]
            have hleft : s1 = s → (b = true ∧ ∃ d c', p ++ c :: (r ++ [x]) = d ++ [c'] ∧ At s1.fs D d c') ∨
                (s1 = s ∧ (locate s.fs (p ++ c :: (r ++ [x])) = .noent ∨
                  locate s.fs (p ++ c :: (r ++ [x])) = .err)) :=
              fun e => .inr ⟨e, .inl (hloc r x)⟩
            rcases hk with h | ⟨hb, _⟩
            · exact hleft h
            · rcases hsp.2 hb with h | ⟨h3, h4⟩
              · exact hleft h
              · left
                rw [List.reverse_reverse] at h3 h4
                have hx := hm' x (by simp)
                exact ⟨hb, p ++ c :: r, x, heq, ⟨h3, h4, hpl x hx, (hn x hx).good (hpl x hx).1,
                  hD.trans (by rw [List.append_assoc]; exact List.prefix_append _ _)⟩⟩

theorem mkpath_at {s : State} {d c} (ha : At s.fs D d c) : mkpath s (d ++ [c]) = (true, s) := by
  unfold mkpath
  rw [List.reverse_append]
  exact mkpathR_canon (by simpa using ha.canon)

theorem make_at {s : State} {d c n} (ha : At s.fs D d c) : At (make s (d ++ [c]) n).2.fs D d c := by
  unfold make
  rw [ha.locate]
  simp only
  split
  · exact ha.put _
  · exact ha

theorem restoreDir_at {s : State} {d c m} (hi : Inv H Hm Hd fs0 n0 D s) (ha : At s.fs D d c) :
    At (restoreDir s (d ++ [c]) m).fs D d c := by
  have hf : Fine H Hm Hd fs0 n0 D (d ++ [c]) s := ⟨hi, .entry d c rfl ha⟩
  unfold restoreDir
  rw [mkpath_at ha]
  simp only
  split
  · rename_i hl
    rw [(attribsSet_fine hf (.inr (.inr (by rw [hl]; simp)))).2]; exact ha
  · have h1 := make_at (n := .dir) ha
    rcases e : mkdir s (d ++ [c]) with ⟨b, s2⟩
    rcases make_spec hf e with ⟨rfl, rfl⟩ | ⟨rfl, hf', d', c', e', ha', hs, _⟩
    · exact ha
    · unfold mkdir at e
      rw [e] at h1
      simp only
      rw [(attribsSet_fine hf' (.inr (.inr (h1.lstat_file hs (by simp))))).2]; exact h1

theorem restoreMeta_tail {s : State} {acl : Bool} (hp : Pathed H Hm Hd fs0 n0 D P s)
    (hm : acl = true → Hm) : Inv H Hm Hd fs0 n0 D
      (match mkpath s P with
      | (false, s) => s
      | (true, s) => (lchown (if acl then (chmod s P).2 else s) P).2) := by
  unfold Pathed at hp
  generalize mkpath s P = r at hp ⊢
  obtain ⟨b, s1⟩ := r
  obtain ⟨h1, h2⟩ := hp
  cases b with
  | false => exact h1
  | true =>
    have hf : Fine H Hm Hd fs0 n0 D P s1 := ⟨h1, h2 rfl⟩
    simp only
    split
    · rename_i ha
      exact (lchown_fine (chmod_fine hf (.inl (hm ha))).1).1.1
    · exact (lchown_fine hf).1.1

theorem restoreDir_nowhere {s : State} {m} (h1 : (mkpath s P).2 = s)
    (h2 : locate s.fs P = .noent ∨ locate s.fs P = .err) : restoreDir s P m = s := by
  unfold restoreDir
  rcases e : mkpath s P with ⟨b, s1⟩
  rw [e] at h1
  simp only at h1
  subst h1
  cases b with
  | false => rfl
  | true =>
    have hl : lstat s1.fs P = none := by
      unfold lstat target
      rcases h2 with h | h <;> · rw [h]; rfl
    have hm : mkdir s1 P = (false, s1) := by
      unfold mkdir make
      rcases h2 with h | h <;> rw [h]
    simp [hl, hm]

theorem restoreMeta_fine {s : State} {m acl} (hi : Inv H Hm Hd fs0 n0 D s) {full : List Name}
    (hc : canonicalise s.fs D full = some P) (hn : ∀ x ∈ full, PartName x)
    (hH : full.getLast? = some [dot, dot] → H) (hm : acl = true → Hm)
    (hpl : m = .dir → ∀ x ∈ full, isStay x = false ∧ isUp x = false) :
    Inv H Hm Hd fs0 n0 D (restoreMeta s P m acl) := by
  have hp : Pathed H Hm Hd fs0 n0 D P s := mkpath_fine hi hc hn hH
  unfold restoreMeta
  by_cases hmd : m = .dir
  · simp only [hmd, if_true]
    rcases mkpath_plain hi hc hn (hpl hmd) with ⟨hb, d, c, rfl, ha⟩ | ⟨hb, hl⟩
    · have hfix : restoreDir s (d ++ [c]) .dir = restoreDir (mkpath s (d ++ [c])).2 (d ++ [c]) .dir := by
        rcases e : mkpath s (d ++ [c]) with ⟨b, s1⟩
        rw [e] at hb ha
        simp only at hb
        subst hb
        unfold restoreDir
        rw [e, mkpath_at ha]
      have hi1 : Inv H Hm Hd fs0 n0 D (restoreDir s (d ++ [c]) .dir) := restoreDir_fine hp
      have ha1 : At (restoreDir s (d ++ [c]) .dir).fs D d c := by
        rw [hfix]; exact restoreDir_at hp.1 ha
      refine restoreMeta_tail ⟨?_, fun _ => ?_⟩ hm
      · rw [mkpath_at ha1]; exact hi1
      · rw [mkpath_at ha1]; exact .entry d c rfl ha1
    · rw [restoreDir_nowhere hb hl]
      exact restoreMeta_tail hp hm
  · simp only [hmd, if_false]
    exact restoreMeta_tail hp hm

/-! ### Names in paths -/

theorem parts_mem {s : Str} (hs : NoNul s) : ∀ x ∈ parts s, PartName x := by
  induction s with
  | nil => intro x hx; simp [parts] at hx; subst hx; exact ⟨by simp, by simp [NoNul]⟩
  | cons c cs ih =>
    have hcs : NoNul cs := fun h => hs (List.mem_cons_of_mem _ h)
    intro x hx
    unfold parts at hx
    split at hx
    · rcases List.mem_cons.mp hx with rfl | hx
      · exact ⟨by simp, by simp [NoNul]⟩
      · exact ih hcs x hx
    · rename_i hc
      split at hx
      · rw [List.mem_singleton.mp hx]
        refine ⟨by simpa using fun h => hc h.symm, fun h => hs ?_⟩
        rw [List.mem_singleton.mp h]; simp
      · rename_i h t e
        rw [e] at ih
        rcases List.mem_cons.mp hx with rfl | hx
        · obtain ⟨h1, h2⟩ := ih hcs h (by simp)
          refine ⟨?_, ?_⟩
          · intro hm
            rcases List.mem_cons.mp hm with hm | hm
            · exact hc hm.symm
            · exact h1 hm
          · intro hm
            rcases List.mem_cons.mp hm with hm | hm
            · exact hs (by rw [← hm]; simp)
            · exact h2 hm
        · exact ih hcs x (List.mem_cons_of_mem _ hx)

theorem sub_mem {s : Str} (hs : NoNul s) : ∀ x ∈ sub s, PartName x := by
  have key : ∀ r : Str, NoNul r → ∀ x ∈ (if r = [] then [] else parts r), PartName x := by
    intro r hr x hx
    split at hx
    · simp at hx
    · exact parts_mem hr x hx
  unfold sub
  cases s with
  | nil => exact key _ hs
  | cons c cs =>
    refine key _ ?_
    show NoNul (if c = slash then cs else c :: cs)
    split
    · exact fun h => hs (List.mem_cons_of_mem _ h)
    · exact hs

theorem afterSlash_suffix {p q : Str} (h : afterSlash p = some q) : q <:+ p := by
  induction p with
  | nil => simp [afterSlash] at h
  | cons c cs ih =>
    unfold afterSlash at h
    split at h
    · injection h with h; rw [← h]; exact List.suffix_cons _ _
    · exact (ih h).trans (List.suffix_cons _ _)

theorem stripComponents_suffix {n p q} (h : stripComponents n p = some q) : q <:+ p := by
  induction n generalizing p with
  | zero => simp [stripComponents] at h; rw [h]; exact List.suffix_refl _
  | succ n ih =>
    cases p with
    | nil => simp [stripComponents] at h; rw [h]; exact List.suffix_refl _
    | cons c cs =>
      unfold stripComponents at h
      obtain ⟨r, h1, h2⟩ := Option.bind_eq_some_iff.mp h
      exact (ih h2).trans (afterSlash_suffix h1)

theorem strstr_mem {pat s : Str} {a b} (h : strstr pat s = some (a, b)) : ∀ x ∈ a ++ b, x ∈ s := by
  induction s generalizing a b with
  | nil =>
    unfold strstr at h
    split at h
    · injection h with h; injection h with h1 h2; subst h1 h2; simp
    · simp at h
  | cons c cs ih =>
    unfold strstr at h
    split at h
    · injection h with h
      injection h with h1 h2
      subst h1 h2
      intro x hx
      exact List.mem_of_mem_drop hx
    · obtain ⟨⟨a', b'⟩, h1, h2⟩ := Option.map_eq_some_iff.mp h
      injection h2 with h2 h3
      subst h2 h3
      intro x hx
      rcases List.mem_cons.mp hx with rfl | hx
      · simp
      · exact List.mem_cons_of_mem _ (ih h1 x hx)

theorem stripFrom_noNul {x p : Str} (h : NoNul p) : NoNul (stripFrom x p) := by
  unfold stripFrom
  split
  · exact h
  · split
    · exact h
    · rename_i a b e
      exact fun hm => h (strstr_mem e _ hm)

theorem stripped_noNul {o e e'} (h : stripped o e = some e') (hn : NoNul e.path) : NoNul e'.path := by
  unfold stripped at h
  obtain ⟨p, h1, h2⟩ := Option.map_eq_some_iff.mp h
  have hp : NoNul p := fun hm => hn ((stripComponents_suffix h1).subset hm)
  cases hs : o.stripFrom with
  | none => rw [hs] at h2; rw [← h2]; exact hp
  | some x => rw [hs] at h2; rw [← h2]; exact stripFrom_noNul hp

/-! ### A whole restore -/

theorem entryStep_inv {o : Options} {s : State} {e : Entry} (hi : Inv H Hm Hd fs0 n0 D s)
    (hnul : NoNul e.path)
    (hh : ∀ e', stripped o e = some e' → Harmless e' ∧ (EndsUp e' → H) ∧ (ThroughLink e' → Hm) ∧
      (DataDir e' → Hd)) : Inv H Hm Hd fs0 n0 D (entryStep o D s e) := by
  unfold entryStep
  split
  · exact hi
  · rename_i e' he
    obtain ⟨h1, h2, h3, h4⟩ := hh e' he
    have hnul' := stripped_noNul he hnul
    split
    · exact hi
    · rename_i P hc
      split
      · have hn : ∀ x ∈ D ++ sub e'.path, PartName x := by
          intro x hx
          rcases List.mem_append.mp hx with hx | hx
          · have := hi.good.names D (by rw [hi.dir.dirs D (List.prefix_refl D)]; simp) x hx
            exact ⟨this.2.1, this.2.2⟩
          · exact sub_mem hnul' x hx
        have hH : (D ++ sub e'.path).getLast? = some [dot, dot] → H := by
          intro h
          by_cases hs : sub e'.path = []
          · rw [hs, List.append_nil] at h
            have := (hi.dir.plain _ (List.mem_of_getLast? h)).2
            simp [isUp] at this
          · apply h2
            unfold EndsUp
            rw [← h, List.getLast?_append]
            rcases hl : (sub e'.path).getLast? with _ | z
            · exact absurd (List.getLast?_eq_none_iff.mp hl) hs
            · rfl
        have hp : Pathed H Hm Hd fs0 n0 D P s := mkpath_fine hi hc hn hH
        have hlink : isLink e'.cmd = true → Inv H Hm Hd fs0 n0 D (restoreLink s D P e') := fun hk =>
          restoreLink_fine hp (by
            by_cases hm : e'.mode = .lnk
            · exact .inl hm
            · exact .inr (h3 (.inl ⟨hk, hm⟩)))
        have hfile : isData e'.cmd = true → Inv H Hm Hd fs0 n0 D (restoreFile s P e'.mode) := fun hk =>
          restoreFile_fine hp (fun hm => h4 ⟨hk, hm⟩)
        have hmeta : isMeta e'.cmd = true → Inv H Hm Hd fs0 n0 D (restoreMeta s P e'.mode e'.acl) := fun hk =>
          restoreMeta_fine hi hc hn hH (fun ha => h3 (.inr (.inr ⟨hk, ha⟩))) (by
            intro hm x hx
            rcases List.mem_append.mp hx with hx | hx
            · exact hi.dir.plain x hx
            · exact h1.metadata hk hm x hx)
        unfold act
        cases hcmd : e'.cmd <;> simp only [] <;> first
          | exact hi
          | exact restoreDir_fine hp
          | exact hlink (by rw [hcmd]; rfl)
          | exact hfile (by rw [hcmd]; rfl)
          | exact hmeta (by rw [hcmd]; rfl)
          | exact restoreSpecial_fine hp (h3 (.inr (.inl hcmd))) (h1.socket hcmd)
      · exact hi

theorem restore_inv {o : Options} {fs : FS} {next : Nat} {es : List Entry} (hg : GoodFS fs)
    (hD : RealDir fs D) (hnul : ∀ e ∈ es, NoNul e.path)
    (hh : ∀ e ∈ es, ∀ e', stripped o e = some e' → Harmless e' ∧ (EndsUp e' → H) ∧ (ThroughLink e' → Hm) ∧
      (DataDir e' → Hd)) : Inv H Hm Hd fs next D (restore o D fs next es) := by
  unfold restore
  have h0 : Inv H Hm Hd fs next D ⟨fs, next, []⟩ := ⟨hg, hD, fun _ _ => rfl, by simp, Nat.le_refl _⟩
  revert h0
  generalize (⟨fs, next, []⟩ : State) = s
  intro h0
  induction es generalizing s with
  | nil => exact h0
  | cons e es ih =>
    rw [List.foldl_cons]
    exact ih (fun x hx => hnul x (List.mem_cons_of_mem _ hx)) (fun x hx => hh x (List.mem_cons_of_mem _ hx)) _
      (entryStep_inv h0 (hnul e (by simp)) (hh e (by simp)))

end
end Verif.Confine
