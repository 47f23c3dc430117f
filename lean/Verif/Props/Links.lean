import Verif.Lemmas.Links

/-!
# C28: the link to the current backup, power cuts and recovery
-/

namespace Verif
open Verif.Links

/-- C28, first part. Whatever the server was doing when it was cut off, and after any number of cuts, the
next look at the leftovers goes through and leaves `current` naming a complete backup, the newest one, if
there is any. Not covered: the two cuts of a deletion in `BadCut`. -/
theorem C28_current_after_recovery_partial {s : State} (hs : Reach s) (h del : Bool) :
    ∃ s', run (recover s h del) s = some s' ∧ CurrentSound s' := by
  have hi := reach_inv hs
  obtain ⟨s', h1, h2, h3⟩ := recover_run (h := h) (del := del) hi
  exact ⟨s', h1, sound_of (recover_inv hi (run_cut h1)).1 h2 h3⟩

/-- C28, second part. Wherever a job is cut off, each complete backup stays on disc, unless the job is
its deletion. -/
theorem C28_nothing_lost_partial {s s' : State} {ops : List Op} {m : Nat} (hs : Reach s)
    (hj : Job s ops) (hc : Cut ops s s') (hm : Stored s m)
    (hd : ∀ p q, ops ≠ deleteBackup m p q) : Stored s' m := by
  have hi := reach_inv hs
  cases hj with
  | new n h h1 h2 h3 hn => exact (new_inv hi h1 h2 h3 hn hc).2 m hm
  | resume n h h1 h2 h3 => exact (resume_inv hi h2 hc).2 m hm
  | delete b p q h1 h2 h3 hb hp hq =>
    refine delete_keeps hi h1 hm ?_ hc
    intro e
    subst e
    exact hd p q rfl
  | recover h del => exact (recover_inv hi hc).2 m hm

/-- C28, third part. The recovery puts back in its place each complete backup that is on disc. -/
theorem C28_recovered_in_place_partial {s s' : State} {m : Nat} (hs : Reach s) (h del : Bool)
    (hr : run (recover s h del) s = some s') (hm : Stored s m) : CompleteIn s' m := by
  have hi := reach_inv hs
  have hk := recover_inv hi (run_cut hr)
  obtain ⟨s1, h1, h2, h3⟩ := recover_run (h := h) (del := del) hi
  rw [hr] at h1
  cases h1
  rcases hk.2 m hm with hc | ⟨hc, hd, -⟩
  · exact hc
  · obtain ⟨d, hd'⟩ := h2 m hc
    rw [hd] at hd'
    cases hd'

/-- C28, what is left of an interrupted backup. After a recovery with nothing to finish, a backup is still
marked as in progress only if its directory is there and its scan was completed, so that it can be resumed;
and then only if the settings did not ask for it to be deleted. -/
theorem C28_leftover_resumable_partial {s s' : State} {h del : Bool} (hf : s.finishing = none)
    (hr : run (recover s h del) s = some s') {n : Nat} (hw : s'.working = some n) :
    s.working = some n ∧ del = false ∧ ∃ d, s'.dirs n = some d ∧ d.stage ≠ .created := by
  unfold recover at hr
  simp only [hf] at hr
  cases hsw : s.working with
  | none =>
    simp only [hsw] at hr
    exfalso
    cases ht : s.currenttmp with
    | none => simp only [ht, run, Option.some.injEq] at hr; subst hr; simp [hsw] at hw
    | some t =>
      simp only [ht, recoverCurrenttmp] at hr
      split at hr
      · simp only [run, exec, ht, Option.some.injEq] at hr; subst hr; simp [hsw] at hw
      · split at hr
        · simp only [run, exec, ht, Option.some.injEq] at hr; subst hr; simp [hsw] at hw
        · split at hr <;>
          · simp only [run, exec, ht, Option.some.injEq] at hr; subst hr; simp [hsw] at hw
  | some m =>
    simp only [hsw] at hr
    cases hd : s.dirs m with
    | none => simp only [hd, run, exec, hsw, Option.some.injEq] at hr; subst hr; simp at hw
    | some d =>
      simp only [hd] at hr
      split at hr
      · simp [workingDelete, run, exec, hd, hsw, upd] at hr
        subst hr
        simp at hw
      · rename_i hx
        simp only [run, Option.some.injEq] at hr
        subst hr
        rw [hsw] at hw
        cases hw
        refine ⟨rfl, ?_, d, hd, ?_⟩
        · cases del <;> simp_all
        · intro h; simp [h] at hx

theorem cut_of_take {ops : List Op} {s s' : State} {k : Nat} (h : run (ops.take k) s = some s') :
    Cut ops s s' := by
  induction ops generalizing s k with
  | nil => simp only [List.take_nil, run, Option.some.injEq] at h; subst h; exact .here
  | cons o os ih =>
    cases k with
    | zero => simp only [List.take_zero, run, Option.some.injEq] at h; subst h; exact .here
    | succ k =>
      simp only [List.take_succ_cons, run] at h
      cases he : exec o s with
      | none => simp [he] at h
      | some s1 => simp only [he] at h; exact .step he (ih h)

/-- One complete backup. -/
def exOne : State :=
  { current := some 1, dirs := fun m => if m = 1 then some ⟨.complete, false⟩ else none }

theorem exOne_reach : Reach exOne := by
  have hj : Job {} (newBackup {} 1 false) :=
    .new 1 false rfl rfl rfl (by intro m d h; simp at h)
  refine .job .start hj (cut_of_take (k := 8) ?_) ?_
  · simp only [newBackup, finish, phase4, run, exec, upd, exOne, List.cons_append, List.nil_append,
      List.take, if_true, Option.some.injEq, State.mk.injEq, true_and]
    funext m
    simp only [upd]
    grind
  · rintro ⟨b, p, h, -⟩
    have := congrArg List.length h
    cases p <;> simp [newBackup, finish, phase4, deleteBackup] at this

theorem reach_any {s : State} (h : Reach s) : ReachAny s := by
  induction h with
  | start => exact .start
  | job h hj hc hx ih => exact .job ih hj hc

/-- Two complete backups. -/
def exTwo : State :=
  { current := some 2, dirs := fun m => if m = 1 ∨ m = 2 then some ⟨.complete, false⟩ else none }

theorem exTwo_reach : Reach exTwo := by
  have hj : Job exOne (newBackup exOne 2 false) :=
    .new 2 false rfl rfl rfl (by intro m d h; simp [exOne] at h; omega)
  refine .job exOne_reach hj (cut_of_take (k := 11) ?_) ?_
  · simp [newBackup, finish, phase4, run, exec, upd, exTwo, exOne, hasHard]
    funext m
    simp only [upd]
    grind
  · rintro ⟨b, p, h, -⟩
    have := congrArg List.length h
    cases p <;> simp [newBackup, finish, phase4, deleteBackup, exOne, hasHard] at this

/-- The hypotheses are met where there is something to recover: the first backup, cut off in phase 4 of
the second one, between moving the first backup away and renaming its replacement. -/
def exCut : State :=
  { current := some 1, finishing := some 2, dup := some ⟨.complete, false⟩,
    dirs := fun m => if m = 2 then some ⟨.complete, false⟩ else none }

theorem exCut_reach : Reach exCut := by
  have hj : Job exOne (newBackup exOne 2 false) :=
    .new 2 false rfl rfl rfl (by intro m d h; simp [exOne] at h; omega)
  refine .job exOne_reach hj (cut_of_take (k := 9) ?_) ?_
  · simp [newBackup, finish, phase4, run, exec, upd, exCut, exOne, hasHard]
    funext m
    simp only [upd]
    grind
  · rintro ⟨b, p, h, -⟩
    have := congrArg List.length h
    cases p <;> simp [newBackup, finish, phase4, deleteBackup, exOne, hasHard] at this

example : Reach exCut ∧ exCut.dirs 1 = none ∧ Stored exCut 1 ∧
    ∃ s', run (recover exCut false false) exCut = some s' ∧ s'.current = some 2 ∧ CompleteIn s' 1 := by
  have h1 : Stored exCut 1 := Or.inr ⟨rfl, rfl, _, rfl, rfl⟩
  refine ⟨exCut_reach, rfl, h1, ?_⟩
  have h2 : (run (recover exCut false false) exCut).map (·.current) = some (some 2) := by decide
  cases h3 : run (recover exCut false false) exCut with
  | none => simp [h3] at h2
  | some s' =>
    refine ⟨s', rfl, by simpa [h3] using h2, ?_⟩
    exact C28_recovered_in_place_partial exCut_reach false false h3 h1

/-- The only backup has been moved away, and `current` is still there. -/
def exGone : State := { current := some 1 }

/-- After that, the next backup has gone through its first three phases. -/
def exStuck : State :=
  { current := some 1, finishing := some 2,
    dirs := fun m => if m = 2 then some ⟨.ready, false⟩ else none }

theorem exStuck_reach : ReachAny exStuck := by
  have hd : Job exOne (deleteBackup 1 none none) := by
    refine .delete 1 none none rfl (fun _ => rfl) (by simp [exOne]) ⟨⟨_, rfl⟩, by simp [exOne],
      by simp [exOne]⟩ ?_ ?_
    · rintro m ⟨⟨d, h⟩, -⟩
      simp [exOne] at h
      omega
    · rintro m ⟨⟨d, h⟩, -⟩
      simp [exOne] at h
      omega
  have h1 : ReachAny exGone := by
    refine .job (reach_any exOne_reach) hd (cut_of_take (k := 1) ?_)
    simp [deleteBackup, run, exec, upd, exOne, exGone]
    funext m
    simp only [upd]
    grind
  have hj : Job exGone (newBackup exGone 2 false) :=
    .new 2 false rfl rfl rfl (by intro m d h; simp [exGone] at h)
  refine .job h1 hj (cut_of_take (k := 5) ?_)
  simp [newBackup, finish, phase4, run, exec, upd, exStuck, exGone, hasHard]
  funext m
  simp only [upd]
  grind

/-- Nothing can be done any more in a state: every job leaves it as it is. -/
def Stuck (s : State) : Prop := ∀ ops s', Job s ops → Cut ops s s' → s' = s

theorem stuck_of {s : State} {n c : Nat} (h1 : s.finishing = some n) (h2 : s.current = some c)
    (h3 : s.dirs c = none) (h4 : s.dup = none) : Stuck s := by
  intro ops s' hj hc
  cases hj with
  | new n h a => simp [h1] at a
  | resume n h a => simp [h1] at a
  | delete b p q a => simp [h1] at a
  | recover h del =>
    simp only [recover, h1, finish, phase4, h2, h3, hasHard, h4, Option.isNone_none, if_true,
      Bool.false_eq_true, if_false, List.cons_append, List.nil_append] at hc
    rcases cut_cons hc with rfl | ⟨s1, e1, hc⟩
    · rfl
    · simp [exec, h2, h3] at e1

/-- C28 does not hold for a deletion of the only backup that is cut off when the directory has been moved
away: `current` then points to nothing, which nothing notices, and the next backup can never be finished.
Its data has been received, but every attempt to go on fails, and so does everything else. -/
theorem C28_only_backup_deleted_violated :
    ∃ s, ReachAny s ∧ (∃ d, s.dirs 2 = some d ∧ d.stage = .ready) ∧ s.finishing = some 2 ∧ Stuck s :=
  ⟨exStuck, exStuck_reach, ⟨_, rfl, rfl⟩, rfl, stuck_of (n := 2) (c := 1) rfl rfl rfl rfl⟩

/-- Two complete backups, and a third that has been interrupted and is to be resumed. -/
def exThird : State :=
  { current := some 2, working := some 3, dirs := fun m =>
      if m = 1 ∨ m = 2 then some ⟨.complete, false⟩ else if m = 3 then some ⟨.scanned, false⟩ else none }

/-- After that, the deletion of the second is cut off. -/
def exThirdCut : State :=
  { current := some 2, currenttmp := some 1, working := some 3, dirs := fun m =>
      if m = 1 then some ⟨.complete, false⟩ else if m = 3 then some ⟨.scanned, false⟩ else none }

/-- After that, the third backup is resumed. -/
def exThirdStuck : State :=
  { current := some 2, currenttmp := some 1, finishing := some 3, dirs := fun m =>
      if m = 1 then some ⟨.complete, false⟩ else if m = 3 then some ⟨.ready, false⟩ else none }

theorem exThirdStuck_reach : ReachAny exThirdStuck := by
  have h1 : ReachAny exThird := by
    have hj : Job exTwo (newBackup exTwo 3 false) :=
      .new 3 false rfl rfl rfl (by intro m d h; simp [exTwo] at h; omega)
    refine .job (reach_any exTwo_reach) hj (cut_of_take (k := 3) ?_)
    simp [newBackup, finish, phase4, run, exec, upd, exTwo, exThird, hasHard]
    funext m
    simp only [upd]
    grind
  have h2 : ReachAny exThirdCut := by
    have hj : Job exThird (deleteBackup 2 (some 1) none) := by
      refine .delete 2 (some 1) none rfl (by simp [exThird]) ?_
        ⟨⟨_, rfl⟩, by simp [exThird], by simp [exThird]⟩
        ⟨⟨⟨_, rfl⟩, by simp [exThird], by simp [exThird]⟩, by decide, ?_⟩ ?_
      · intro n hn
        simp only [exThird, Option.some.injEq] at hn
        subst hn
        exact ⟨_, rfl⟩
      · rintro m - hm
        omega
      · rintro m ⟨⟨d, h⟩, h3, -⟩
        simp only [exThird, ne_eq, Option.some.injEq] at h h3
        grind
    refine .job h1 hj (cut_of_take (k := 2) ?_)
    simp [deleteBackup, run, exec, upd, exThird, exThirdCut]
    funext m
    simp only [upd]
    grind
  have hj : Job exThirdCut (resumeBackup exThirdCut 3 false) :=
    .resume 3 false rfl rfl ⟨_, rfl, by decide⟩
  refine .job h2 hj (cut_of_take (k := 2) ?_)
  simp [resumeBackup, finish, phase4, run, exec, upd, exThirdCut, exThirdStuck, hasHard]
  funext m
  simp only [upd]
  grind

/-- C28 does not hold for a deletion of the current backup that is cut off while an interrupted backup
waits to be resumed, since the leftover of the deletion is not looked at then: `current` points to nothing
although there is a complete backup, and nothing can be done any more. -/
theorem C28_delete_beside_interrupted_violated :
    ∃ s, ReachAny s ∧ CompleteIn s 1 ∧ s.current = some 2 ∧ s.dirs 2 = none ∧ Stuck s :=
  ⟨exThirdStuck, exThirdStuck_reach, ⟨_, rfl, rfl⟩, rfl, rfl,
    stuck_of (n := 3) (c := 2) rfl rfl rfl rfl⟩

example : exThird.finishing = none ∧ run (recover exThird false false) exThird = some exThird ∧
    exThird.working = some 3 := ⟨rfl, rfl, rfl⟩

end Verif
