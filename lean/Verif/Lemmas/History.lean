import Verif.Spec.History

namespace Verif
open Verif.History

variable {C D S K : Type}

/-! ### Restoring -/

theorem findUp_passed (d : Str) (l : List (Backup C D K)) :
    ∀ passed, findUp d passed l = (findUp d [] l).map (fun r => (r.1 ++ passed, r.2)) := by
  induction l with
  | nil => intro passed; rfl
  | cons b bs ih =>
    intro passed
    cases h : b.data d with
    | some c => simp [findUp, h]
    | none =>
      simp only [findUp, h]
      rw [ih (b :: passed), ih [b]]
      cases findUp d [] bs <;> simp

theorem applyDown_append (L : Librsync C D S) (d : Str) (p q : List (Backup C D K)) :
    ∀ c, applyDown L d (p ++ q) c =
      match applyDown L d p c with
      | .content c' => applyDown L d q c'
      | .missing => .missing
      | .patchFailed => .patchFailed := by
  induction p with
  | nil => intro c; rfl
  | cons b bs ih =>
    intro c
    cases h : b.delta d with
    | none => simp only [List.cons_append, applyDown, h]; exact ih c
    | some dl =>
      simp only [List.cons_append, applyDown, h]
      cases L.patch c dl with
      | none => rfl
      | some c' => exact ih c'

/-- Restoring from the first backup of a list: the file itself, or what restoring from the next one
gives, with the reverse delta applied if there is one. -/
theorem restoreFile_cons (L : Librsync C D S) (b : Backup C D K) (bs : List (Backup C D K)) (d : Str) :
    restoreFile L (b :: bs) d =
      match b.data d with
      | some c => .content c
      | none =>
        match restoreFile L bs d with
        | .content c =>
          match b.delta d with
          | none => .content c
          | some dl => match L.patch c dl with
            | none => .patchFailed
            | some c' => .content c'
        | .missing => .missing
        | .patchFailed => .patchFailed := by
  cases h : b.data d with
  | some c => simp [restoreFile, findUp, h, applyDown]
  | none =>
    simp only [restoreFile, findUp, h]
    rw [findUp_passed]
    cases h2 : findUp d [] bs with
    | none => rfl
    | some r =>
      obtain ⟨p, c⟩ := r
      simp only [Option.map_some]
      rw [applyDown_append]
      cases applyDown L d p c with
      | content c' =>
        simp only [applyDown]
        cases b.delta d with
        | none => rfl
        | some dl => simp only; cases L.patch c' dl <;> rfl
      | missing => rfl
      | patchFailed => rfl

theorem restoreFile_nil (L : Librsync C D S) (d : Str) :
    restoreFile L ([] : List (Backup C D K)) d = .missing := rfl

/-- If a restore succeeds, more backups at the end of the list do not change it. -/
theorem restoreFile_append {L : Librsync C D S} {d : Str} (q : List (Backup C D K)) :
    ∀ {p : List (Backup C D K)} {c : C}, restoreFile L p d = .content c →
      restoreFile L (p ++ q) d = .content c := by
  intro p
  induction p with
  | nil => intro c h; rw [restoreFile_nil] at h; cases h
  | cons b bs ih =>
    intro c h
    rw [List.cons_append, restoreFile_cons]
    rw [restoreFile_cons] at h
    cases hb : b.data d with
    | some x => rw [hb] at h; exact h
    | none =>
      rw [hb] at h
      simp only at h ⊢
      cases hr : restoreFile L bs d with
      | content x => rw [ih hr]; rw [hr] at h; exact h
      | missing => rw [hr] at h; cases h
      | patchFailed => rw [hr] at h; cases h

/-- A restore sees a suffix only through what restoring from that suffix gives. -/
theorem restoreFile_congr {L : Librsync C D S} {d : Str} {q q' : List (Backup C D K)}
    (hq : ∀ c, restoreFile L q d = .content c → restoreFile L q' d = .content c) :
    ∀ {p : List (Backup C D K)} {c : C}, restoreFile L (p ++ q) d = .content c →
      restoreFile L (p ++ q') d = .content c := by
  intro p
  induction p with
  | nil => intro c h; exact hq c h
  | cons b bs ih =>
    intro c h
    rw [List.cons_append, restoreFile_cons] at h ⊢
    cases hb : b.data d with
    | some x => rw [hb] at h; exact h
    | none =>
      rw [hb] at h
      simp only at h ⊢
      cases hr : restoreFile L (bs ++ q) d with
      | content x => rw [ih hr]; rw [hr] at h; exact h
      | missing => rw [hr] at h; cases h
      | patchFailed => rw [hr] at h; cases h

/-! ### The loop over the manifest -/

theorem jiggleAll_frame {L : Librsync C D S} {hard : Bool} :
    ∀ {es : List (K × Str)} {st st' : Str → Slot C D} {ks : List K},
      jiggleAll L hard es st = some (st', ks) → ∀ d, d ∉ es.map Prod.snd → st' d = st d := by
  intro es
  induction es with
  | nil =>
    intro st st' ks h d _
    simp only [jiggleAll, Option.some.injEq, Prod.mk.injEq] at h
    rw [h.1]
  | cons e es ih =>
    obtain ⟨k, d0⟩ := e
    intro st st' ks h d hd
    simp only [List.map_cons, List.mem_cons, not_or] at hd
    simp only [jiggleAll] at h
    cases hj : jiggle L hard (st d0) with
    | none => rw [hj] at h; cases h
    | some r =>
      obtain ⟨s, del⟩ := r
      rw [hj] at h
      simp only at h
      cases ha : jiggleAll L hard es (put st d0 s) with
      | none => rw [ha] at h; cases h
      | some r2 =>
        obtain ⟨st2, ks2⟩ := r2
        rw [ha] at h
        simp only [Option.some.injEq, Prod.mk.injEq] at h
        rw [← h.1, ih ha d hd.2]
        simp [put, hd.1]

theorem jiggleAll_spec {L : Librsync C D S} {hard : Bool} :
    ∀ {es : List (K × Str)} {st st' : Str → Slot C D} {ks : List K},
      (es.map Prod.snd).Nodup → (es.map Prod.fst).Nodup →
      jiggleAll L hard es st = some (st', ks) →
      (∀ k ∈ ks, k ∈ es.map Prod.fst) ∧
      ∀ k d, (k, d) ∈ es → ∃ del, jiggle L hard (st d) = some (st' d, del) ∧ (k ∈ ks ↔ del = true) := by
  intro es
  induction es with
  | nil =>
    intro st st' ks _ _ h
    simp only [jiggleAll, Option.some.injEq, Prod.mk.injEq] at h
    rw [← h.2]
    exact ⟨by simp, by simp⟩
  | cons e es ih =>
    obtain ⟨k0, d0⟩ := e
    intro st st' ks hnd hnk h
    simp only [List.map_cons, List.nodup_cons] at hnd hnk
    simp only [jiggleAll] at h
    cases hj : jiggle L hard (st d0) with
    | none => rw [hj] at h; cases h
    | some r =>
      obtain ⟨s, del⟩ := r
      rw [hj] at h
      simp only at h
      cases ha : jiggleAll L hard es (put st d0 s) with
      | none => rw [ha] at h; cases h
      | some r2 =>
        obtain ⟨st2, ks2⟩ := r2
        rw [ha] at h
        simp only [Option.some.injEq, Prod.mk.injEq] at h
        obtain ⟨hst, hks⟩ := h
        subst hst
        obtain ⟨hsub, hrest⟩ := ih hnd.2 hnk.2 ha
        refine ⟨?_, ?_⟩
        · intro k hk
          rw [← hks] at hk
          simp only [List.map_cons, List.mem_cons]
          split at hk
          · rcases List.mem_cons.1 hk with rfl | hk
            · exact Or.inl rfl
            · exact Or.inr (hsub k hk)
          · exact Or.inr (hsub k hk)
        · intro k d hkd
          rcases List.mem_cons.1 hkd with heq | hmem
          · simp only [Prod.mk.injEq] at heq
            obtain ⟨rfl, rfl⟩ := heq
            refine ⟨del, ?_, ?_⟩
            · rw [hj, jiggleAll_frame ha d hnd.1]
              simp [put]
            · rw [← hks]
              have hnot : k ∉ ks2 := fun hc => hnk.1 (hsub k hc)
              cases del <;> simp [hnot]
          · obtain ⟨del2, h1, h2⟩ := hrest k d hmem
            have hd : d ≠ d0 := by
              intro hc
              exact hnd.1 (hc ▸ List.mem_map.2 ⟨(k, d), hmem, rfl⟩)
            have hk : k ≠ k0 := by
              intro hc
              exact hnk.1 (hc ▸ List.mem_map.2 ⟨(k, d), hmem, rfl⟩)
            refine ⟨del2, ?_, ?_⟩
            · simpa [put, hd] using h1
            · rw [← hks]
              cases del <;> simp [hk, h2]

theorem jiggleAll_some {L : Librsync C D S} {hard : Bool} :
    ∀ {es : List (K × Str)} {st : Str → Slot C D}, (es.map Prod.snd).Nodup →
      (∀ k d, (k, d) ∈ es → jiggle L hard (st d) ≠ none) →
      ∃ r, jiggleAll L hard es st = some r := by
  intro es
  induction es with
  | nil => intro st _ _; exact ⟨_, rfl⟩
  | cons e es ih =>
    obtain ⟨k0, d0⟩ := e
    intro st hnd h
    simp only [List.map_cons, List.nodup_cons] at hnd
    cases hj : jiggle L hard (st d0) with
    | none => exact absurd hj (h k0 d0 (by simp))
    | some r =>
      obtain ⟨s, del⟩ := r
      have : ∀ k d, (k, d) ∈ es → jiggle L hard (put st d0 s d) ≠ none := by
        intro k d hkd
        have hd : d ≠ d0 := by
          intro hc
          exact hnd.1 (hc ▸ List.mem_map.2 ⟨(k, d), hkd, rfl⟩)
        simpa [put, hd] using h k d (List.mem_cons_of_mem _ hkd)
      obtain ⟨r2, hr2⟩ := ih hnd.2 this
      obtain ⟨st2, ks2⟩ := r2
      exact ⟨_, by simp only [jiggleAll, hj, hr2]; rfl⟩

/-! ### The invariant -/

/-- The backups up to and including the first hardlinked archive. -/
def uptoHard : List (Dated C D K) → List (Dated C D K)
  | [] => []
  | x :: xs => if x.b.hard then [x] else x :: uptoHard xs

/-- Each backup restores what was wanted, and without looking beyond the next hardlinked archive. -/
def Good (L : Librsync C D S) : List (Dated C D K) → Prop
  | [] => True
  | x :: xs =>
    (∀ k d, (k, d) ∈ x.b.man → ∃ c, x.want k = some c ∧
      restoreFile L ((uptoHard (x :: xs)).map Dated.b) d = .content c) ∧
    (∀ k, x.want k ≠ none → ∃ d, (k, d) ∈ x.b.man) ∧ Good L xs

/-- The newest backup has no reverse deltas unless it is a hardlinked archive. -/
def NoDelta (H : List (Dated C D K)) : Prop :=
  ∀ x, H.getLast? = some x → x.b.hard = false → ∀ d, x.b.delta d = none

theorem uptoHard_prefix (H : List (Dated C D K)) : uptoHard H <+: H := by
  induction H with
  | nil => exact List.prefix_rfl
  | cons x xs ih =>
    unfold uptoHard
    split
    · exact ⟨xs, rfl⟩
    · obtain ⟨t, ht⟩ := ih
      exact ⟨t, by rw [List.cons_append, ht]⟩

theorem uptoHard_stop {o : List (Dated C D K)} {h : Dated C D K} (hh : h.b.hard = true)
    (r r' : List (Dated C D K)) : uptoHard (o ++ h :: r) = uptoHard (o ++ h :: r') := by
  induction o with
  | nil => simp [uptoHard, hh]
  | cons x xs ih => simp only [List.cons_append, uptoHard, ih]

theorem Good.restore {L : Librsync C D S} {x : Dated C D K} {xs : List (Dated C D K)}
    (h : Good L (x :: xs)) {k : K} {d : Str} (hk : (k, d) ∈ x.b.man) :
    ∃ c, x.want k = some c ∧ restoreFile L ((x :: xs).map Dated.b) d = .content c := by
  obtain ⟨c, hc, hr⟩ := h.1 k d hk
  refine ⟨c, hc, ?_⟩
  obtain ⟨t, ht⟩ := uptoHard_prefix (x :: xs)
  rw [← ht, List.map_append]
  exact restoreFile_append _ hr

theorem Good.suffix {L : Librsync C D S} {o n : List (Dated C D K)} (h : Good L (o ++ n)) :
    Good L n := by
  induction o with
  | nil => exact h
  | cons x xs ih => exact ih h.2.2

/-- Removing the backup after a hardlinked archive. -/
theorem Good.remove {L : Librsync C D S} {h : Dated C D K} (hh : h.b.hard = true) :
    ∀ {o : List (Dated C D K)} {r r' : List (Dated C D K)}, Good L (o ++ h :: r) → Good L r' →
      Good L (o ++ h :: r') := by
  intro o
  induction o with
  | nil =>
    intro r r' hg hr'
    obtain ⟨h1, h2, _⟩ := hg
    refine ⟨?_, h2, hr'⟩
    have : uptoHard (h :: r') = uptoHard (h :: r) := uptoHard_stop (o := []) hh r' r
    rw [this]; exact h1
  | cons x xs ih =>
    intro r r' hg hr'
    rw [List.cons_append] at hg ⊢
    obtain ⟨h1, h2, h3⟩ := hg
    refine ⟨?_, h2, ih h3 hr'⟩
    have : uptoHard (x :: (xs ++ h :: r')) = uptoHard (x :: (xs ++ h :: r)) :=
      uptoHard_stop (o := x :: xs) hh r' r
    rw [this]; exact h1

theorem uptoHard_congr {L : Librsync C D S} {q q' : List (Dated C D K)} {d : Str}
    (hq : ∀ c, restoreFile L ((uptoHard q).map Dated.b) d = .content c →
      restoreFile L ((uptoHard q').map Dated.b) d = .content c) :
    ∀ {o : List (Dated C D K)} {c : C},
      restoreFile L ((uptoHard (o ++ q)).map Dated.b) d = .content c →
      restoreFile L ((uptoHard (o ++ q')).map Dated.b) d = .content c := by
  intro o
  induction o with
  | nil => intro c h; exact hq c h
  | cons x xs ih =>
    intro c h
    simp only [List.cons_append, uptoHard] at h ⊢
    cases hx : x.b.hard with
    | true => rw [hx] at h; exact h
    | false =>
      rw [hx] at h
      simp only [Bool.false_eq_true, if_false, List.map_cons] at h ⊢
      exact restoreFile_congr (p := [x.b]) (fun c hc => ih hc) h

/-- Replacing the end of a history by one that restores at least as much. -/
theorem Good.replace {L : Librsync C D S} {q q' : List (Dated C D K)}
    (hq : ∀ d c, restoreFile L ((uptoHard q).map Dated.b) d = .content c →
      restoreFile L ((uptoHard q').map Dated.b) d = .content c) (hg' : Good L q') :
    ∀ {o : List (Dated C D K)}, Good L (o ++ q) → Good L (o ++ q') := by
  intro o
  induction o with
  | nil => intro _; exact hg'
  | cons x xs ih =>
    intro hg
    obtain ⟨h1, h2, h3⟩ := hg
    refine ⟨?_, h2, ih h3⟩
    intro k d hk
    obtain ⟨c, hc, hr⟩ := h1 k d hk
    exact ⟨c, hc, uptoHard_congr (hq d) (o := x :: xs) hr⟩

/-! ### One backup -/

/-- The directories at the start of phase 4. -/
def startSlot (cur : Option (Dated C D K)) (inc : Incoming C D K) (d : Str) : Slot C D :=
  { old := cur.bind (fun x => x.b.data d)
    rev := if (cur.map (fun x => x.b.hard)).getD false then none
           else cur.bind (fun x => x.b.delta d)
    fwd := inc.fwd d, tmp := inc.tmp d, rel := inc.rel d }

/-- Every file of the newest backup is in its own data directory. -/
theorem Good.own {L : Librsync C D S} {x : Dated C D K} (h : Good L [x]) {k : K} {d : Str}
    (hk : (k, d) ∈ x.b.man) : ∃ c, x.want k = some c ∧ x.b.data d = some c := by
  obtain ⟨c, hc, hr⟩ := h.restore hk
  refine ⟨c, hc, ?_⟩
  rw [List.map_cons, List.map_nil, restoreFile_cons] at hr
  cases hd : x.b.data d with
  | some y => rw [hd] at hr; simp only [Got.content.injEq] at hr; rw [hr]
  | none => rw [hd] at hr; simp [restoreFile_nil] at hr

/-- What `jiggle` does with an entry that arrived properly. -/
theorem jiggle_arrives {L : Librsync C D S} (hL : L.Sound) {cur : Option (Dated C D K)}
    (hcur : ∀ x, cur = some x → Good L [x]) {inc : Incoming C D K} {want : K → Option C}
    (ha : Arrives L cur inc want) {hard : Bool}
    {k : K} {d : Str} (hk : (k, d) ∈ inc.man) :
    ∃ s del, jiggle L hard (startSlot cur inc d) = some (s, del) ∧
      (del = false → ∃ c, want k = some c ∧ s.fin = some c) ∧ (del = true → want k = none) := by
  rcases ha.2.2.2 k d hk with ⟨x, a, fd, rfl, hx, hxa, hfd, hcase⟩ | ⟨c, hf, ht, hw⟩ |
      ⟨x, rfl, hx, hf, ht, hw⟩ | ⟨c, hf, ht, hn, hr, hw⟩
  · obtain ⟨c0, hc0, hd⟩ := (hcur x rfl).own hx
    rw [hc0] at hxa
    cases hxa
    rcases hcase with ⟨c, rfl, hw⟩ | ⟨hp, hw⟩
    · have hp := hL a c
      cases hard
      · exact ⟨_, _, by simp only [jiggle, startSlot, hfd, Option.bind_some, hd, hp]; rfl,
          fun _ => ⟨c, hw, rfl⟩, by simp⟩
      · exact ⟨_, _, by simp only [jiggle, startSlot, hfd, Option.bind_some, hd, hp]; rfl,
          fun _ => ⟨c, hw, rfl⟩, by simp⟩
    · exact ⟨_, _, by simp only [jiggle, startSlot, hfd, Option.bind_some, hd, hp]; rfl,
          by simp, fun _ => hw⟩
  · exact ⟨_, _, by simp only [jiggle, startSlot, hf, ht]; rfl, fun _ => ⟨c, hw, rfl⟩, by simp⟩
  · obtain ⟨c0, hc0, hd⟩ := (hcur x rfl).own hx
    exact ⟨_, _, by simp only [jiggle, startSlot, hf, ht, Option.bind_some, hd]; rfl,
      fun _ => ⟨c0, by rw [hw, hc0], rfl⟩, by simp⟩
  · have hold : cur.bind (fun x => x.b.data d) = none := by
      cases cur with
      | none => rfl
      | some x => exact hn x rfl
    exact ⟨_, _, by simp only [jiggle, startSlot, hf, ht, hold, hr]; rfl,
      fun _ => ⟨c, hw, rfl⟩, by simp⟩

/-- The content that the previous backup had under `d` can still be got from the two. -/
theorem jiggle_keeps {L : Librsync C D S} (hL : L.Sound) {s s' : Slot C D} {del : Bool} {a : C}
    (hrev : s.rev = none) (hfin : s.fin = none) (ho : s.old = some a)
    (h : jiggle L false s = some (s', del)) :
    s'.old = some a ∨
    (s'.old = none ∧ ∃ c, s'.fin = some c ∧
      ((s'.rev = none ∧ c = a) ∨ ∃ dl, s'.rev = some dl ∧ L.patch c dl = some a)) := by
  cases hf : s.fwd with
  | some fd =>
    cases hp : L.patch a fd with
    | none =>
      simp only [jiggle, hfin, hf, ho, hp, Option.some.injEq, Prod.mk.injEq] at h
      obtain ⟨rfl, _⟩ := h
      exact Or.inl rfl
    | some c =>
      simp only [jiggle, hfin, hf, ho, hp, Bool.false_eq_true, if_false, Option.some.injEq,
        Prod.mk.injEq] at h
      obtain ⟨rfl, _⟩ := h
      exact Or.inr ⟨rfl, c, rfl, Or.inr ⟨_, rfl, hL c a⟩⟩
  | none =>
    cases ht : s.tmp with
    | some c =>
      simp only [jiggle, hfin, hf, ht, Option.some.injEq, Prod.mk.injEq] at h
      obtain ⟨rfl, _⟩ := h
      exact Or.inl ho
    | none =>
      simp only [jiggle, hfin, hf, ht, ho, Bool.false_eq_true, if_false, Option.some.injEq,
        Prod.mk.injEq] at h
      obtain ⟨rfl, _⟩ := h
      exact Or.inr ⟨rfl, a, rfl, Or.inl ⟨hrev, rfl⟩⟩

theorem jiggle_hard_old {L : Librsync C D S} {s s' : Slot C D} {del : Bool}
    (h : jiggle L true s = some (s', del)) : s'.old = s.old := by
  unfold jiggle at h
  cases hfin : s.fin with
  | some c => simp only [hfin, Option.some.injEq, Prod.mk.injEq] at h; rw [← h.1]
  | none =>
    simp only [hfin] at h
    cases hf : s.fwd with
    | some fd =>
      simp only [hf] at h
      cases ho : s.old with
      | none => simp only [ho] at h; cases h
      | some a =>
        simp only [ho] at h
        cases hp : L.patch a fd with
        | none =>
          simp only [hp, Option.some.injEq, Prod.mk.injEq] at h
          rw [← h.1]
        | some c =>
          simp only [hp, if_true, Option.some.injEq, Prod.mk.injEq] at h
          rw [← h.1]
    | none =>
      simp only [hf] at h
      cases ht : s.tmp with
      | some c =>
        simp only [ht, Option.some.injEq, Prod.mk.injEq] at h
        rw [← h.1]
      | none =>
        simp only [ht] at h
        cases ho : s.old with
        | some a =>
          simp only [ho, if_true, Option.some.injEq, Prod.mk.injEq] at h
          rw [← h.1]
        | none =>
          simp only [ho] at h
          cases hr : s.rel with
          | none => simp only [hr] at h; cases h
          | some c =>
            simp only [hr, Option.some.injEq, Prod.mk.injEq] at h
            rw [← h.1]

section
variable [DecidableEq K]

omit [DecidableEq K] in
theorem startSlot_eq (cur : Option (Dated C D K)) (inc : Incoming C D K) :
    (fun d => ({ old := (cur.map Dated.b).bind (fun b => b.data d)
                 rev := if ((cur.map Dated.b).map Backup.hard).getD false then none
                        else (cur.map Dated.b).bind (fun b => b.delta d)
                 fwd := inc.fwd d, tmp := inc.tmp d, rel := inc.rel d } : Slot C D)) =
      startSlot cur inc := by
  funext d
  cases cur <;> rfl

omit [DecidableEq K] in
theorem curHard_eq (cur : Option (Dated C D K)) :
    ((cur.map Dated.b).map Backup.hard).getD false = (cur.map (fun x => x.b.hard)).getD false := by
  cases cur <;> rfl

/-- A properly arrived backup always gets finished. -/
theorem finish_some {L : Librsync C D S} (hL : L.Sound) {H : List (Dated C D K)}
    (hcur : ∀ x, H.getLast? = some x → Good L [x]) {inc : Incoming C D K} {want : K → Option C}
    (ha : Arrives L H.getLast? inc want) (bno : Nat) (hard : Bool) :
    ∃ l, finish L bno hard inc (H.map Dated.b) = some l := by
  have hj : ∃ r, jiggleAll L ((H.getLast?.map (fun x => x.b.hard)).getD false) inc.man
      (startSlot H.getLast? inc) = some r := by
    refine jiggleAll_some ha.2.1 ?_
    intro k d hk
    obtain ⟨s, del, h, _⟩ := jiggle_arrives hL hcur ha
      (hard := (H.getLast?.map (fun x => x.b.hard)).getD false) hk
    rw [h]; simp
  obtain ⟨⟨st, ks⟩, hj⟩ := hj
  unfold finish
  simp only [List.getLast?_map]
  rw [startSlot_eq, curHard_eq, hj]
  cases H.getLast? with
  | none => exact ⟨_, rfl⟩
  | some x => exact ⟨_, rfl⟩

omit [DecidableEq K] in
theorem zipWith_mk (H : List (Dated C D K)) :
    List.zipWith Dated.mk (H.map Dated.b) (H.map Dated.want) = H := by
  induction H with
  | nil => rfl
  | cons x xs ih => simp only [List.map_cons, List.zipWith_cons_cons, ih]

/-- What `finish` makes of a history: the new backup is added, and the one before it may change. -/
theorem finish_shape {L : Librsync C D S} {H : List (Dated C D K)} {inc : Incoming C D K}
    {bno : Nat} {hard : Bool} {want : K → Option C} {l : List (Backup C D K)}
    (h : finish L bno hard inc (H.map Dated.b) = some l) :
    ∃ st ks, jiggleAll L ((H.getLast?.map (fun x => x.b.hard)).getD false) inc.man
        (startSlot H.getLast? inc) = some (st, ks) ∧
      List.zipWith Dated.mk l (H.map Dated.want ++ [want]) =
        (match H.getLast? with
        | none => []
        | some x => H.dropLast ++
            [if x.b.hard then x
             else ⟨{ x.b with data := fun d => (st d).old, delta := fun d => (st d).rev }, x.want⟩]) ++
        [⟨{ bno := bno, hard := hard, man := inc.man.filter (fun e => !ks.contains e.1)
            data := fun d => (st d).fin, delta := fun _ => none }, want⟩] := by
  unfold finish at h
  simp only [List.getLast?_map] at h
  rw [startSlot_eq, curHard_eq] at h
  cases hj : jiggleAll L ((H.getLast?.map (fun x => x.b.hard)).getD false) inc.man
      (startSlot H.getLast? inc) with
  | none => rw [hj] at h; cases h
  | some r =>
    obtain ⟨st, ks⟩ := r
    refine ⟨st, ks, rfl, ?_⟩
    rw [hj] at h
    simp only at h
    rcases List.eq_nil_or_concat H with rfl | ⟨H0, x, rfl⟩
    · simp only [List.getLast?_nil, Option.map_none, Option.some.injEq] at h
      subst h
      simp
    · simp only [List.concat_eq_append, List.getLast?_append, List.getLast?_singleton,
        Option.some_or, Option.map_some, Option.some.injEq, Option.getD_some] at h ⊢
      subst h
      simp only [List.map_append, List.map_cons, List.map_nil, List.dropLast_concat,
        List.append_assoc]
      rw [List.zipWith_append (by simp), zipWith_mk]
      cases hx : x.b.hard <;> simp

/-- The invariant is kept by a backup. -/
theorem good_backup {L : Librsync C D S} (hL : L.Sound) {H : List (Dated C D K)}
    (hg : Good L H) (hn : NoDelta H) {inc : Incoming C D K} {bno : Nat} {hard : Bool}
    {want : K → Option C} {l : List (Backup C D K)} (ha : Arrives L H.getLast? inc want)
    (h : finish L bno hard inc (H.map Dated.b) = some l) :
    Good L (List.zipWith Dated.mk l (H.map Dated.want ++ [want])) ∧
    NoDelta (List.zipWith Dated.mk l (H.map Dated.want ++ [want])) := by
  obtain ⟨st, ks, hj, hz⟩ := finish_shape (want := want) h
  rw [hz]
  obtain ⟨_, hspec⟩ := jiggleAll_spec ha.2.1 ha.1 hj
  have hcur : ∀ x, H.getLast? = some x → Good L [x] := by
    intro x hx
    obtain ⟨H0, rfl⟩ := List.getLast?_eq_some_iff.1 hx
    exact hg.suffix
  -- the new backup
  have hnew : Good L [(⟨⟨bno, hard, inc.man.filter (fun e => !ks.contains e.1), fun d => (st d).fin,
      fun _ => none⟩, want⟩ : Dated C D K)] := by
    have hone : ∀ (y : Dated C D K), uptoHard [y] = [y] := by
      intro y; unfold uptoHard; split <;> simp [uptoHard]
    refine ⟨?_, ?_, trivial⟩
    · intro k d hk
      simp only [List.mem_filter, Bool.not_eq_true', List.contains_eq_mem,
        decide_eq_false_iff_not] at hk
      obtain ⟨s, del, hs, hf, _⟩ := jiggle_arrives hL hcur ha
        (hard := (H.getLast?.map (fun x => x.b.hard)).getD false) hk.1
      obtain ⟨del', hs', hdel⟩ := hspec k d hk.1
      rw [hs] at hs'
      simp only [Option.some.injEq, Prod.mk.injEq] at hs'
      obtain ⟨rfl, rfl⟩ := hs'
      have : del = false := by
        cases del
        · rfl
        · exact absurd (hdel.2 rfl) hk.2
      obtain ⟨c, hw, hc⟩ := hf this
      refine ⟨c, hw, ?_⟩
      rw [hone, List.map_cons, restoreFile_cons]
      simp only [hc]
    · intro k hk
      obtain ⟨⟨k', d⟩, hkd, rfl⟩ := List.mem_map.1 (ha.2.2.1 k hk)
      refine ⟨d, ?_⟩
      simp only [List.mem_filter, Bool.not_eq_true', List.contains_eq_mem,
        decide_eq_false_iff_not]
      refine ⟨hkd, ?_⟩
      intro hmem
      obtain ⟨s, del, hs, _, hf⟩ := jiggle_arrives hL hcur ha
        (hard := (H.getLast?.map (fun x => x.b.hard)).getD false) hkd
      obtain ⟨del', hs', hdel⟩ := hspec k' d hkd
      rw [hs] at hs'
      simp only [Option.some.injEq, Prod.mk.injEq] at hs'
      obtain ⟨rfl, rfl⟩ := hs'
      exact hk (hf (hdel.1 hmem))
  refine ⟨?_, ?_⟩
  · -- all of them
    rcases List.eq_nil_or_concat H with rfl | ⟨H0, x, rfl⟩
    · simpa using hnew
    · simp only [List.concat_eq_append, List.getLast?_append, List.getLast?_singleton,
        Option.some_or, List.dropLast_concat, List.append_assoc, List.singleton_append] at hg hj hspec hcur ha hn ⊢
      refine Good.replace (q := [x]) ?_ ?_ hg
      · -- the previous backup restores what it did
        intro d c hr
        cases hx : x.b.hard with
        | true =>
          simp only [uptoHard, hx, if_true] at hr ⊢
          exact hr
        | false =>
          have hq : uptoHard [x] = [x] := by simp [uptoHard, hx]
          rw [hq, List.map_cons, List.map_nil, restoreFile_cons] at hr
          cases hd : x.b.data d with
          | none => rw [hd] at hr; simp [restoreFile_nil] at hr
          | some a =>
            rw [hd] at hr
            simp only [Got.content.injEq] at hr
            subst hr
            have hdel := hn x (by simp) hx
            have hkeep : (st d).old = some a ∨
                ((st d).old = none ∧ ∃ c, (st d).fin = some c ∧
                  (((st d).rev = none ∧ c = a) ∨
                    ∃ dl, (st d).rev = some dl ∧ L.patch c dl = some a)) := by
              by_cases hm : d ∈ inc.man.map Prod.snd
              · obtain ⟨⟨k, d'⟩, hkd, rfl⟩ := List.mem_map.1 hm
                obtain ⟨del, hs, _⟩ := hspec k d' hkd
                simp only [Option.map_some, hx, Option.getD_some] at hs
                refine jiggle_keeps hL ?_ ?_ ?_ hs
                · simp [startSlot, hx, hdel]
                · rfl
                · simp [startSlot, hd]
              · left
                rw [jiggleAll_frame hj d hm]
                simp [startSlot, hd]
            have hu : ∀ n : Dated C D K, uptoHard [n] = [n] := by
              intro n; unfold uptoHard; split <;> simp [uptoHard]
            simp only [Bool.false_eq_true, if_false, uptoHard.eq_2 _ [_], hu, List.map_cons,
              List.map_nil]
            rw [restoreFile_cons]
            rcases hkeep with ho | ⟨ho, c, hc, hcase⟩
            · simp only [ho]
            · simp only [ho]
              rw [restoreFile_cons]
              simp only [hc]
              rcases hcase with ⟨hrv, rfl⟩ | ⟨dl, hrv, hp⟩
              · simp only [hrv]
              · simp only [hrv, hp]
      · refine ⟨?_, ?_, hnew⟩
        · -- each entry of the previous backup
          intro k d hk
          have hk' : (k, d) ∈ x.b.man := by
            cases hx : x.b.hard <;> simpa [hx] using hk
          obtain ⟨c, hw, hd⟩ := (hcur x rfl).own hk'
          refine ⟨c, by cases hx : x.b.hard <;> simpa [hx] using hw, ?_⟩
          cases hx : x.b.hard with
          | true =>
            simp only [if_true, uptoHard, hx, List.map_cons]
            rw [restoreFile_cons, hd]
          | false =>
            have hdel := hn x (by simp) hx
            have hkeep : (st d).old = some c ∨
                ((st d).old = none ∧ ∃ c', (st d).fin = some c' ∧
                  (((st d).rev = none ∧ c' = c) ∨
                    ∃ dl, (st d).rev = some dl ∧ L.patch c' dl = some c)) := by
              by_cases hm : d ∈ inc.man.map Prod.snd
              · obtain ⟨⟨k, d'⟩, hkd, rfl⟩ := List.mem_map.1 hm
                obtain ⟨del, hs, _⟩ := hspec k d' hkd
                simp only [Option.map_some, hx, Option.getD_some] at hs
                refine jiggle_keeps hL ?_ ?_ ?_ hs
                · simp [startSlot, hx, hdel]
                · rfl
                · simp [startSlot, hd]
              · left
                rw [jiggleAll_frame hj d hm]
                simp [startSlot, hd]
            have hu : ∀ n : Dated C D K, uptoHard [n] = [n] := by
              intro n; unfold uptoHard; split <;> simp [uptoHard]
            simp only [Bool.false_eq_true, if_false, uptoHard.eq_2 _ [_], hu, List.map_cons,
              List.map_nil]
            rw [restoreFile_cons]
            rcases hkeep with ho | ⟨ho, c', hc, hcase⟩
            · simp only [ho]
            · simp only [ho]
              rw [restoreFile_cons]
              simp only [hc]
              rcases hcase with ⟨hrv, rfl⟩ | ⟨dl, hrv, hp⟩
              · simp only [hrv]
              · simp only [hrv, hp]
        · intro k hk
          have hk' : x.want k ≠ none := by
            cases hx : x.b.hard <;> simpa [hx] using hk
          obtain ⟨d, hd⟩ := (hcur x rfl).2.1 k hk'
          exact ⟨d, by cases hx : x.b.hard <;> simpa [hx] using hd⟩
  · intro x hx _ d
    rw [List.getLast?_append] at hx
    simp only [List.getLast?_singleton, Option.some_or, Option.some.injEq] at hx
    rw [← hx]

end

/-! ### Deletions -/

/-- Backup numbers increase. -/
def Ordered (H : List (Dated C D K)) : Prop := H.Pairwise (fun a b => a.b.bno < b.b.bno)

theorem filter_bno {o n : List (Dated C D K)} {x : Dated C D K} (h : Ordered (o ++ x :: n)) :
    (o ++ x :: n).filter (fun y => y.b.bno ≠ x.b.bno) = o ++ n := by
  unfold Ordered at h
  rw [List.pairwise_append, List.pairwise_cons] at h
  obtain ⟨_, ⟨h2, _⟩, h3⟩ := h
  rw [List.filter_append, List.filter_cons]
  have e1 : o.filter (fun y => decide (y.b.bno ≠ x.b.bno)) = o := by
    rw [List.filter_eq_self]
    intro y hy
    have := h3 y hy x (by simp)
    simp only [decide_eq_true_eq]; omega
  have e2 : n.filter (fun y => decide (y.b.bno ≠ x.b.bno)) = n := by
    rw [List.filter_eq_self]
    intro y hy
    have := h2 y hy
    simp only [decide_eq_true_eq]; omega
  rw [e1, e2]
  simp

theorem split_bu {H : List (Dated C D K)} {older newer : List Retention.Bu} {b : Retention.Bu}
    (h : H.map (fun x => x.b.bu) = older ++ b :: newer) :
    ∃ o x n, H = o ++ x :: n ∧ o.map (fun x => x.b.bu) = older ∧ x.b.bu = b ∧
      n.map (fun x => x.b.bu) = newer := by
  obtain ⟨o, r, rfl, h1, h2⟩ := List.map_eq_append_iff.1 h
  obtain ⟨x, n, rfl, h3, h4⟩ := List.map_eq_cons_iff.1 h2
  exact ⟨o, x, n, rfl, h1, h3, h4⟩

theorem good_delete {L : Librsync C D S} {H : List (Dated C D K)} (hg : Good L H) (hn : NoDelta H)
    (ho : Ordered H) {bno : Nat}
    (hd : ∃ b ∈ H.map (fun x => x.b.bu), b.bno = bno ∧ Deletable (H.map (fun x => x.b.bu)) b) :
    Good L (H.filter (fun x => x.b.bno ≠ bno)) ∧ NoDelta (H.filter (fun x => x.b.bno ≠ bno)) ∧
    Ordered (H.filter (fun x => x.b.bno ≠ bno)) ∧
    (∃ o x n, H = o ++ x :: n ∧ H.filter (fun x => x.b.bno ≠ bno) = o ++ n) := by
  obtain ⟨b, _, rfl, older, newer, he, hold⟩ := hd
  obtain ⟨o, x, n, rfl, rfl, rfl, rfl⟩ := split_bu he
  have hf := filter_bno ho
  have hf' : (o ++ x :: n).filter (fun y => decide (y.b.bno ≠ x.b.bu.bno)) = o ++ n := hf
  rw [hf']
  refine ⟨?_, ?_, ?_, o, x, n, rfl, rfl⟩
  · rcases hold with hnil | ⟨h, hlast, hh⟩
    · have : o = [] := by simpa using hnil
      subst this
      exact hg.2.2
    · rcases List.eq_nil_or_concat o with rfl | ⟨o', y, rfl⟩
      · simp at hlast
      · simp only [List.concat_eq_append, List.append_assoc, List.singleton_append] at hg ⊢
        have hy : y.b.hard = true := by
          simp only [List.concat_eq_append, List.map_append, List.map_cons, List.map_nil,
            List.getLast?_append, List.getLast?_singleton, Option.some_or, Option.some.injEq] at hlast
          rw [← hlast] at hh; exact hh
        exact Good.remove hy hg (Good.suffix (o := o' ++ [y, x]) (by simpa using hg))
  · intro y hy hyh
    cases n with
    | cons z zs =>
      apply hn y _ hyh
      rw [List.getLast?_append] at hy ⊢
      simp only [List.getLast?_cons_cons] at hy ⊢
      exact hy
    | nil =>
      rw [List.append_nil] at hy
      rcases hold with hnil | ⟨h, hlast, hh⟩
      · have : o = [] := by simpa using hnil
        subst this
        simp at hy
      · rw [List.getLast?_map, hy] at hlast
        simp only [Option.map_some, Option.some.injEq] at hlast
        rw [← hlast] at hh
        have : y.b.hard = true := hh
        rw [this] at hyh; cases hyh
  · unfold Ordered at ho ⊢
    exact ho.sublist (by simp)

section
variable [DecidableEq K]

theorem ordered_backup {L : Librsync C D S} {H : List (Dated C D K)} (ho : Ordered H)
    {inc : Incoming C D K} {bno : Nat} {hard : Bool} {want : K → Option C}
    {l : List (Backup C D K)} (hb : ∀ x ∈ H, x.b.bno < bno)
    (h : finish L bno hard inc (H.map Dated.b) = some l) :
    Ordered (List.zipWith Dated.mk l (H.map Dated.want ++ [want])) := by
  obtain ⟨st, ks, _, hz⟩ := finish_shape (want := want) h
  rw [hz]
  unfold Ordered at ho ⊢
  rcases List.eq_nil_or_concat H with rfl | ⟨H0, x, rfl⟩
  · simp
  · simp only [List.concat_eq_append] at ho hb ⊢
    simp only [List.getLast?_append, List.getLast?_singleton, Option.some_or,
      List.dropLast_concat, List.append_assoc, List.singleton_append]
    rw [List.pairwise_append] at ho ⊢
    have hx : x.b.bno < bno := hb x (by simp)
    refine ⟨ho.1, ?_, ?_⟩
    · cases x.b.hard <;> simp [hx]
    · intro a ha y hy
      have hax := ho.2.2 a ha x (by simp)
      simp only [List.mem_cons, List.not_mem_nil, or_false] at hy
      rcases hy with rfl | rfl
      · cases x.b.hard <;> simpa using hax
      · exact hb a (by simp [ha])

theorem reachable_inv {L : Librsync C D S} (hL : L.Sound) {H : List (Dated C D K)}
    (h : Reachable L H) : Good L H ∧ NoDelta H ∧ Ordered H := by
  induction h with
  | empty => exact ⟨trivial, fun x hx => (by cases hx), List.Pairwise.nil⟩
  | backup _ ha hb _ hf ih =>
    obtain ⟨h1, h2⟩ := good_backup hL ih.1 ih.2.1 ha hf
    exact ⟨h1, h2, ordered_backup ih.2.2 hb hf⟩
  | delete _ hd ih =>
    obtain ⟨h1, h2, h3, _⟩ := good_delete ih.1 ih.2.1 ih.2.2 hd
    exact ⟨h1, h2, h3⟩

theorem reachable_pos {L : Librsync C D S} {H : List (Dated C D K)}
    (h : Reachable L H) : ∀ x ∈ H, 0 < x.b.bno := by
  induction h with
  | empty => intro x hx; cases hx
  | @backup H bno hard inc want l _ _ _ hp hf ih =>
    obtain ⟨st, ks, _, hz⟩ := finish_shape (want := want) hf
    rw [hz]
    intro x hx
    rcases List.mem_append.1 hx with hx | hx
    · cases hl : H.getLast? with
      | none => rw [hl] at hx; cases hx
      | some y =>
        rw [hl] at hx
        have hy := ih y (List.mem_of_getLast? hl)
        rcases List.mem_append.1 hx with hx | hx
        · exact ih x (List.dropLast_subset H hx)
        · simp only [List.mem_cons, List.not_mem_nil, or_false] at hx
          subst hx
          cases y.b.hard <;> simpa using hy
    · simp only [List.mem_cons, List.not_mem_nil, or_false] at hx
      subst hx
      exact hp
  | delete _ _ ih => intro x hx; exact ih x (List.mem_filter.1 hx).1

end

/-! ### The backup with a given number -/

theorem dropWhile_bno {o n : List (Dated C D K)} {x : Dated C D K} (h : Ordered (o ++ x :: n)) :
    (o ++ x :: n).dropWhile (fun y => decide (y.b.bno ≠ x.b.bno)) = x :: n := by
  unfold Ordered at h
  rw [List.pairwise_append] at h
  obtain ⟨_, _, h3⟩ := h
  induction o with
  | nil => simp
  | cons y ys ih =>
    have := h3 y (by simp) x (by simp)
    rw [List.cons_append, List.dropWhile_cons_of_pos (by simp only [decide_eq_true_eq]; omega)]
    exact ih (List.pairwise_append.2 ⟨(List.pairwise_cons.1 ‹_›).2, ‹_›,
      fun a ha => h3 a (List.mem_cons_of_mem _ ha)⟩ |> fun h => (List.pairwise_append.1 h).1)
      (fun a ha => h3 a (List.mem_cons_of_mem _ ha))

end Verif
