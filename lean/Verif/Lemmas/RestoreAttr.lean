import Verif.Spec.RestoreAttr

/-! # Lemmas: restored attributes -/

namespace Verif.RestoreAttr
open Verif

variable {family : Path → Path} {w : World}

/-- Nothing has become of what is not on the way to a path. -/
def Quiet (P : Path) (s s' : S) : Prop :=
  ∀ q i, s.dent q = some i → ¬ q <+: P → s'.dent q = some i ∧ s'.node i = s.node i

theorem Quiet.refl (P : Path) (s : S) : Quiet P s s := fun _ _ h _ => ⟨h, rfl⟩

theorem Quiet.trans {P : Path} {a b c : S} (h1 : Quiet P a b) (h2 : Quiet P b c) : Quiet P a c := by
  intro q i h hp
  obtain ⟨k1, k2⟩ := h1 q i h hp
  obtain ⟨k3, k4⟩ := h2 q i k1 hp
  exact ⟨k3, k4.trans k2⟩

/-- Only the file at a path has changed, and not its kind. -/
structure Local (P : Path) (s s' : S) : Prop where
  dent : s'.dent = s.dent
  fresh : s'.fresh = s.fresh
  node : ∀ i, s'.node i = s.node i ∨ s.dent P = some i
  kind : ∀ i, (s'.node i).kind = (s.node i).kind

theorem Local.refl (P : Path) (s : S) : Local P s s := ⟨rfl, rfl, fun _ => .inl rfl, fun _ => rfl⟩

theorem Local.trans {P : Path} {a b c : S} (h1 : Local P a b) (h2 : Local P b c) : Local P a c := by
  refine ⟨h2.dent.trans h1.dent, h2.fresh.trans h1.fresh, fun i => ?_, fun i => (h2.kind i).trans (h1.kind i)⟩
  rcases h2.node i with h | h
  · rcases h1.node i with k | k
    · exact .inl (h.trans k)
    · exact .inr k
  · rw [h1.dent] at h; exact .inr h

theorem isDir_iff (s : S) (p : Path) : isDir s p = true ↔ ∃ i, s.dent p = some i ∧ (s.node i).kind = .dir := by
  unfold isDir
  cases s.dent p with
  | none => exact ⟨fun h => (by cases h), fun ⟨i, h, _⟩ => (by cases h)⟩
  | some j => exact ⟨fun h => ⟨j, rfl, of_decide_eq_true h⟩, fun ⟨i, h, k⟩ => by cases h; exact decide_eq_true k⟩

/-- A state that differs only in what kinds and names do not depend on. -/
theorem good_congr {s s' : S} (hg : Good family s) (hd : s'.dent = s.dent) (hf : s'.fresh = s.fresh)
    (hk : ∀ i, (s'.node i).kind = (s.node i).kind) : Good family s' := by
  have hdir : ∀ p, isDir s' p = isDir s p := by
    intro p
    unfold isDir
    rw [hd]
    cases s.dent p with
    | none => rfl
    | some i => dsimp only; rw [hk]
  refine ⟨fun p i h => ?_, fun p h hp => ?_, ?_, fun p q i h1 h2 => ?_⟩
  · rw [hf]; exact hg.lt p i (hd ▸ h)
  · rw [hdir]; exact hg.par p (hd ▸ h) hp
  · rw [hdir]; exact hg.top
  · rw [hk]; exact hg.one p q i (hd ▸ h1) (hd ▸ h2)

theorem Local.good {P : Path} {s s' : S} (hl : Local P s s') (hg : Good family s) : Good family s' :=
  good_congr hg hl.dent hl.fresh hl.kind

theorem good_tick {s : S} (hg : Good family s) : Good family (tick s) := good_congr hg rfl rfl (fun _ => rfl)

theorem touch_dent (s : S) (p : Path) : (touch w s p).dent = s.dent ∧ (touch w s p).fresh = s.fresh := by
  unfold touch; split <;> exact ⟨rfl, rfl⟩

theorem touch_kind (s : S) (p : Path) (i : Nat) : ((touch w s p).node i).kind = (s.node i).kind := by
  unfold touch
  split
  · rename_i j _
    show (if i = j then _ else s.node i).kind = _
    split
    · rename_i h; rw [h]
    · rfl
  · rfl

theorem touch_node (s : S) (p : Path) (i : Nat) (h : s.dent p.dropLast ≠ some i) :
    (touch w s p).node i = s.node i := by
  unfold touch
  split
  · rename_i j hj
    show (if i = j then _ else s.node i) = _
    rw [if_neg (fun c : i = j => h (c ▸ hj))]
  · rfl

theorem good_touch {s : S} (p : Path) (hg : Good family s) : Good family (touch w s p) :=
  good_congr hg (touch_dent s p).1 (touch_dent s p).2 (touch_kind s p)

theorem dropLast_ne {p : Path} (h : p ≠ []) : p.dropLast ≠ p := by
  intro e
  have := congrArg List.length e
  rw [List.length_dropLast] at this
  have := List.length_pos_iff.mpr h
  omega

/-- Something is made or removed at `p`, on the way to `P`. -/
theorem quiet_at {s s' : S} {P p : Path} {o : Option Nat} (hg : Good family s) (hp : p <+: P) (hp0 : p ≠ [])
    (hpar : isDir s p.dropLast = true) (hd : s'.dent = fun q => if q = p then o else s.dent q)
    (hn : ∀ i, s'.node i = s.node i ∨ i ≥ s.fresh) : Quiet P s (touch w s' p) := by
  intro q i h hqp
  have hqp' : q ≠ p := fun e => hqp (e ▸ hp)
  refine ⟨?_, ?_⟩
  · rw [(touch_dent s' p).1, hd]
    dsimp only
    rw [if_neg hqp']; exact h
  · rw [touch_node]
    · rcases hn i with k | k
      · exact k
      · exact absurd (hg.lt q i h) (by omega)
    · rw [hd]
      dsimp only
      rw [if_neg (dropLast_ne hp0)]
      intro c
      obtain ⟨j, hj, hjd⟩ := (isDir_iff s _).mp hpar
      rw [hj] at c; cases c
      rcases hg.one q p.dropLast i h hj with e | ⟨e, _⟩
      · exact hqp (e ▸ (List.dropLast_prefix p).trans hp)
      · exact e hjd

/-- A new name for a file that is new, or one of the same family. -/
theorem good_name {s s' : S} {p : Path} {i : Nat} (hg : Good family s) (hp0 : p ≠ [])
    (hnone : s.dent p = none) (hpar : isDir s p.dropLast = true)
    (hd : s'.dent = fun q => if q = p then some i else s.dent q)
    (hn : ∀ j, j < s.fresh → (s'.node j).kind = (s.node j).kind) (hf : s.fresh ≤ s'.fresh)
    (hi : i < s'.fresh)
    (hsh : ∀ q, s.dent q = some i → (s'.node i).kind ≠ .dir ∧ family p = family q) : Good family s' := by
  have hdir : ∀ q, q ≠ p → isDir s q = true → isDir s' q = true := by
    intro q hq h
    obtain ⟨j, hj, hk⟩ := (isDir_iff s q).mp h
    refine (isDir_iff s' q).mpr ⟨j, ?_, ?_⟩
    · rw [hd]; dsimp only; rw [if_neg hq]; exact hj
    · rw [hn j (hg.lt q j hj)]; exact hk
  refine ⟨fun q j h => ?_, fun q h hq => ?_, ?_, fun q r j h1 h2 => ?_⟩
  · rw [hd] at h
    dsimp only at h
    split at h
    · cases h; exact hi
    · exact Nat.lt_of_lt_of_le (hg.lt q j h) hf
  · rw [hd] at h
    dsimp only at h
    split at h
    · rename_i e
      subst e
      exact hdir _ (dropLast_ne hq) hpar
    · have hpd := hg.par q h hq
      refine hdir _ ?_ hpd
      intro e
      rw [e] at hpd
      obtain ⟨j, hj, _⟩ := (isDir_iff s p).mp hpd
      rw [hnone] at hj; cases hj
  · exact hdir [] (fun e => hp0 e.symm) hg.top
  · rw [hd] at h1 h2
    dsimp only at h1 h2
    split at h1
    · rename_i e1
      cases h1
      split at h2
      · rename_i e2; exact .inl (e1.trans e2.symm)
      · have := hsh r h2
        exact .inr ⟨this.1, e1 ▸ this.2⟩
    · split at h2
      · rename_i e2
        cases h2
        have := hsh q h1
        exact .inr ⟨this.1, e2 ▸ this.2.symm⟩
      · rw [hn j (hg.lt q j h1)]
        exact hg.one q r j h1 h2

theorem create_spec {s : S} {P p : Path} (hg : Good family s) (hp : p <+: P) (k : Kind) (m : Nat) :
    Good family (create w s p k m).2 ∧ Quiet P s (create w s p k m).2 ∧
      ((create w s p k m).1 = true → s.dent p = none ∧
        ∃ i, (create w s p k m).2.dent p = some i ∧ ((create w s p k m).2.node i).kind = k) ∧
      ((create w s p k m).1 = false → (create w s p k m).2.dent = s.dent) ∧
      (∀ q, s.dent q ≠ none → (create w s p k m).2.dent q = s.dent q) := by
  unfold create
  split
  · exact ⟨good_tick hg, fun q i h _ => ⟨h, rfl⟩, fun c => (by cases c), fun _ => rfl, fun _ _ => rfl⟩
  · rename_i hc
    have hnone : s.dent p = none := Classical.byContradiction fun c => hc (.inr (.inl c))
    have hp0 : p ≠ [] := fun c => hc (.inr (.inr (.inl c)))
    have hpar : isDir s p.dropLast = true := by
      cases h : isDir s p.dropLast with
      | true => rfl
      | false => exact absurd (.inr (.inr (.inr h))) hc
    dsimp only
    generalize hn : (⟨k, w.uid, w.gid, m, w.now s.calls, w.now s.calls⟩ : Node) = n
    have hnode : ∀ i, i ≠ s.fresh → ({ setDent (setNode (tick s) s.fresh n) p (some s.fresh) with
        fresh := s.fresh + 1 } : S).node i = s.node i := by
      intro i hi
      show (if i = s.fresh then n else s.node i) = _
      rw [if_neg hi]
    refine ⟨good_touch p (good_name (i := s.fresh) hg hp0 hnone hpar rfl ?_ (Nat.le_succ _) (Nat.lt_succ_self _) ?_), ?_, ?_, ?_, ?_⟩
    · intro j hj
      rw [hnode j (by omega)]
    · intro q hq
      exact absurd (hg.lt q _ hq) (Nat.lt_irrefl _)
    · refine quiet_at (o := some s.fresh) hg hp hp0 hpar rfl ?_
      intro i
      by_cases h : i = s.fresh
      · exact .inr (by omega)
      · exact .inl (hnode i h)
    · intro _
      refine ⟨hnone, s.fresh, ?_, ?_⟩
      · rw [(touch_dent ..).1]
        show (if p = p then some s.fresh else _) = _
        rw [if_pos rfl]
      · rw [touch_kind]
        show (if s.fresh = s.fresh then n else _).kind = k
        rw [if_pos rfl, ← hn]
    · intro c; cases c
    · intro q hq
      rw [(touch_dent ..).1]
      show (if q = p then some s.fresh else s.dent q) = _
      rw [if_neg (fun c : q = p => hq (c ▸ hnone))]

theorem unlink_spec {s : S} {P : Path} (hg : Good family s) :
    Good family (unlink w s P).2 ∧ Quiet P s (unlink w s P).2 ∧
      ((unlink w s P).1 = true → (unlink w s P).2.dent P = none) ∧
      (∀ q, q ≠ P → (unlink w s P).2.dent q = s.dent q) := by
  unfold unlink
  split
  · exact ⟨good_tick hg, fun q i h _ => ⟨h, rfl⟩, fun c => (by cases c), fun _ _ => rfl⟩
  split
  · rename_i hnone
    exact ⟨good_tick hg, fun q i h _ => ⟨h, rfl⟩, fun _ => hnone, fun _ _ => rfl⟩
  split
  · exact ⟨good_tick hg, fun q i h _ => ⟨h, rfl⟩, fun c => (by cases c), fun _ _ => rfl⟩
  · rename_i hsome hnd
    have hp0 : P ≠ [] := fun c => hnd (c ▸ hg.top)
    have hpar := hg.par P hsome hp0
    refine ⟨good_touch P ?_, quiet_at (o := none) hg (List.prefix_refl P) hp0 hpar rfl (fun i => .inl rfl), fun _ => ?_, fun q hq => ?_⟩
    · have hdir : ∀ q, isDir s q = true → isDir (setDent (tick s) P none) q = true := by
        intro q h
        obtain ⟨j, hj, hk⟩ := (isDir_iff s q).mp h
        refine (isDir_iff _ q).mpr ⟨j, ?_, hk⟩
        show (if q = P then none else s.dent q) = _
        rw [if_neg (fun c : q = P => hnd (c ▸ h))]; exact hj
      have hsub : ∀ q i, (setDent (tick s) P none).dent q = some i → s.dent q = some i := by
        intro q i h
        change (if q = P then none else s.dent q) = _ at h
        split at h
        · cases h
        · exact h
      refine ⟨fun q i h => hg.lt q i (hsub q i h), fun q h hq => ?_, hdir _ hg.top,
        fun q r i h1 h2 => hg.one q r i (hsub q i h1) (hsub r i h2)⟩
      refine hdir _ (hg.par q ?_ hq)
      intro c
      cases hx : (setDent (tick s) P none).dent q with
      | none => exact h hx
      | some i => rw [hsub q i hx] at c; cases c
    · rw [(touch_dent ..).1]
      show (if P = P then none else _) = _
      rw [if_pos rfl]
    · rw [(touch_dent ..).1]
      show (if q = P then none else s.dent q) = _
      rw [if_neg hq]

theorem link_spec {s : S} {P t : Path} (hg : Good family s) (ht : family P = family t) :
    Good family (link w s t P).2 ∧ Quiet P s (link w s t P).2 ∧
      ((link w s t P).1 = true → ∃ i, (link w s t P).2.dent P = some i) := by
  unfold link
  split
  · exact ⟨good_tick hg, fun q i h _ => ⟨h, rfl⟩, fun c => (by cases c)⟩
  · rename_i hc
    have hnone : s.dent P = none := Classical.byContradiction fun c => hc (.inr (.inl c))
    have hp0 : P ≠ [] := fun c => hc (.inr (.inr (.inl c)))
    have hpar : isDir s P.dropLast = true := by
      cases h : isDir s P.dropLast with
      | true => rfl
      | false => exact absurd (.inr (.inr (.inr (.inl h)))) hc
    have htd : ¬ isDir s t = true := fun c => hc (.inr (.inr (.inr (.inr c))))
    cases hti : s.dent t with
    | none => exact ⟨good_tick hg, fun q i h _ => ⟨h, rfl⟩, fun c => (by cases c)⟩
    | some i =>
      dsimp only
      have hk : (s.node i).kind ≠ .dir := fun c => htd ((isDir_iff s t).mpr ⟨i, hti, c⟩)
      refine ⟨good_touch P (good_name (i := i) hg hp0 hnone hpar rfl (fun _ _ => rfl) (Nat.le_refl _) (hg.lt t i hti) ?_),
        quiet_at (o := some i) hg (List.prefix_refl P) hp0 hpar rfl (fun i => .inl rfl), fun _ => ⟨i, ?_⟩⟩
      · intro q hq
        refine ⟨hk, ht.trans ?_⟩
        rcases hg.one t q i hti hq with e | e
        · rw [e]
        · exact e.2
      · rw [(touch_dent ..).1]
        show (if P = P then some i else _) = _
        rw [if_pos rfl]

theorem mkpathR_spec {P : Path} : ∀ (rp : Path) (s : S), Good family s → rp.reverse <+: P →
    Good family (mkpathR w s rp).2 ∧ Quiet P s (mkpathR w s rp).2 ∧
      (∀ q, s.dent q ≠ none → (mkpathR w s rp).2.dent q = s.dent q) ∧
      ((mkpathR w s rp).1 = true → (mkpathR w s rp).2.dent rp.tail.reverse ≠ none)
  | [], s, hg, _ => ⟨hg, Quiet.refl _ _, fun _ _ => rfl, fun _ c => (by
      obtain ⟨i, hi, _⟩ := (isDir_iff s []).mp hg.top
      change s.dent [] = none at c
      rw [hi] at c; cases c)⟩
  | x :: rq, s, hg, hp => by
    rw [mkpathR]
    by_cases h0 : rq = []
    · rw [if_pos h0]
      refine ⟨hg, Quiet.refl _ _, fun _ _ => rfl, fun _ c => ?_⟩
      obtain ⟨i, hi, _⟩ := (isDir_iff s []).mp hg.top
      subst h0
      change s.dent [] = none at c
      rw [hi] at c; cases c
    rw [if_neg h0]
    by_cases h1 : s.dent rq.reverse = none
    · rw [if_pos h1]
      have hp' : rq.reverse <+: P := List.IsPrefix.trans (by rw [List.reverse_cons]; exact List.prefix_append ..) hp
      obtain ⟨k1, k2, k3, k4⟩ := mkpathR_spec rq s hg hp'
      generalize mkpathR w s rq = o at *
      obtain ⟨b, s1⟩ := o
      cases b with
      | false => exact ⟨k1, k2, k3, fun c => (by cases c)⟩
      | true =>
        obtain ⟨c1, c2, c3, _, c5⟩ := create_spec (w := w) (P := P) (p := rq.reverse) k1 hp' .dir w.dirMode
        refine ⟨c1, k2.trans c2, fun q hq => ?_, fun h => ?_⟩
        · have := k3 q hq
          rw [c5 q (by rw [this]; exact hq), this]
        · obtain ⟨_, i, hi, _⟩ := c3 h
          show (create w s1 rq.reverse .dir w.dirMode).2.dent rq.reverse ≠ none
          rw [hi]; exact fun c => by cases c
    · rw [if_neg h1]
      exact ⟨hg, Quiet.refl _ _, fun _ _ => rfl, fun _ => h1⟩

/-- If there is something, nothing needs to be made on the way to it. -/
theorem mkpath_there {s : S} {p : Path} (hg : Good family s) (h : s.dent p ≠ none) : mkpath w s p = (true, s) := by
  unfold mkpath
  cases hr : p.reverse with
  | nil => rfl
  | cons x rq =>
    rw [mkpathR]
    split
    · rfl
    · rename_i h0
      have hp : p = rq.reverse ++ [x] := by rw [← List.reverse_reverse (as := p), hr, List.reverse_cons]
      rw [if_neg]
      have hpar := hg.par p h (by rw [hp]; exact fun c => by simpa using congrArg List.length c)
      rw [hp, List.dropLast_concat] at hpar
      obtain ⟨i, hi, _⟩ := (isDir_iff s _).mp hpar
      rw [hi]; exact fun c => by cases c

theorem change_local (s : S) (P : Path) (f : Node → Node) (hf : ∀ n, (f n).kind = n.kind) :
    Local P s (change w s P f).2 ∧
      ((change w s P f).1 = true → ∃ i, s.dent P = some i ∧ (change w s P f).2.node i = f (s.node i)) := by
  unfold change
  split
  · exact ⟨⟨rfl, rfl, fun _ => .inl rfl, fun _ => rfl⟩, fun c => (by cases c)⟩
  · cases h : s.dent P with
    | none => exact ⟨⟨rfl, rfl, fun _ => .inl rfl, fun _ => rfl⟩, fun c => (by cases c)⟩
    | some i =>
      refine ⟨⟨rfl, rfl, fun j => ?_, fun j => ?_⟩, fun _ => ⟨i, rfl, ?_⟩⟩
      · by_cases e : j = i
        · exact .inr (e ▸ h)
        · left
          show (if j = i then _ else s.node j) = _
          rw [if_neg e]
      · show (if j = i then f (s.node i) else s.node j).kind = _
        split
        · rename_i e; rw [hf, e]
        · rfl
      · show (if i = i then f (s.node i) else _) = _
        rw [if_pos rfl]

theorem attribsSet_local (s : S) (P : Path) (st : Stat) :
    Local P s (attribsSet w s P st).2 ∧
      ((attribsSet w s P st).1 = true → ∃ i, s.dent P = some i ∧ Has ((attribsSet w s P st).2.node i) st) := by
  unfold attribsSet
  obtain ⟨a1, a2⟩ := change_local (w := w) s P (fun n => { n with uid := st.uid, gid := st.gid, mode := dropSetid n.kind n.mode })
    (fun _ => rfl)
  unfold lchown
  generalize change w s P _ = o at *
  obtain ⟨b, s1⟩ := o
  cases b with
  | false => exact ⟨a1, fun c => (by cases c)⟩
  | true =>
    obtain ⟨i, hi, hn⟩ := a2 rfl
    dsimp only at hn a1 ⊢
    have hi1 : s1.dent P = some i := a1.dent ▸ hi
    split
    · rename_i hl
      obtain ⟨b1, b2⟩ := change_local (w := w) s1 P (fun n => { n with atime := (st.atime, 0), mtime := (st.mtime, 0) })
        (fun _ => rfl)
      refine ⟨a1.trans b1, fun h => ⟨i, hi, ?_⟩⟩
      obtain ⟨j, hj, hm⟩ := b2 h
      rw [hi1] at hj; cases hj
      unfold setTimes
      rw [hm, hn]
      exact ⟨rfl, rfl, rfl, rfl, fun c => absurd hl c⟩
    · obtain ⟨c1, c2⟩ := change_local (w := w) s1 P (fun n => { n with mode := st.mode }) (fun _ => rfl)
      unfold chmod
      generalize change w s1 P _ = o at *
      obtain ⟨b, s2⟩ := o
      cases b with
      | false => exact ⟨a1.trans c1, fun c => (by cases c)⟩
      | true =>
        obtain ⟨j, hj, hm⟩ := c2 rfl
        rw [hi1] at hj; cases hj
        dsimp only at hm c1 ⊢
        have hi2 : s2.dent P = some i := c1.dent ▸ hi1
        obtain ⟨b1, b2⟩ := change_local (w := w) s2 P (fun n => { n with atime := (st.atime, 0), mtime := (st.mtime, 0) })
          (fun _ => rfl)
        refine ⟨(a1.trans c1).trans b1, fun h => ⟨i, hi, ?_⟩⟩
        obtain ⟨j, hj, hm'⟩ := b2 h
        rw [hi2] at hj; cases hj
        unfold setTimes
        rw [hm', hm, hn]
        exact ⟨rfl, rfl, rfl, rfl, fun _ => rfl⟩

end Verif.RestoreAttr
