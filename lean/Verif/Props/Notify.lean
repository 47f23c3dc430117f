import Verif.Spec.Notify

/-!
# C83: scripts and notifications on the server
-/

namespace Verif
open Verif RunAction Notify

namespace Notify

theorem scripts_append (a b : List Ev) : scripts (a ++ b) = scripts a ++ scripts b := by
  induction a with
  | nil => rfl
  | cons x l ih => cases x <;> simp [scripts, ih]

theorem scripts_did (l : List Effect) : scripts (l.map Ev.did) = [] := by
  induction l with
  | nil => rfl
  | cons x l ih => simpa [scripts] using ih

theorem scripts_mem {cmd : List Str} {l : List Ev} : cmd ∈ scripts l ↔ Ev.script cmd ∈ l := by
  induction l with
  | nil => simp [scripts]
  | cons x l ih => cases x <;> simp [scripts, ih]

theorem runList_nb (c : Conf) (e : Env) (buf : Str) (r : Bool) : Effect.backedUp r ∉ (runList c e buf).1 := by
  unfold runList; split
  · simp
  · split <;> simp

theorem runDiff_nb (c : Conf) (e : Env) (buf : Str) (r : Bool) : Effect.backedUp r ∉ (runDiff c e buf).1 := by
  unfold runDiff; split
  · simp
  · split <;> simp

theorem runRestore_nb (c : Conf) (e : Env) (buf : Str) (r : Bool) : Effect.backedUp r ∉ (runRestore c e buf).1 := by
  unfold runRestore
  split
  · simp
  · rename_i isR _ _ _ _
    cases isR <;> cases e.restoreFile <;> simp <;> repeat' (first | split | simp)

theorem runDelete_nb (c : Conf) (buf : Str) (r : Bool) : Effect.backedUp r ∉ (runDelete c buf).1 := by
  unfold runDelete; split <;> simp

/-- Nothing that begins one way begins the other. -/
theorem backup_not (buf : Str) (h : begins buf (bytes "backup") = true) (p : Str) (hp : p.head? ≠ some 98)
    (hne : p ≠ []) : begins buf p = false := by
  cases p with
  | nil => exact absurd rfl hne
  | cons b p =>
    cases buf with
    | nil => rfl
    | cons a l =>
      have h1 : a = 98 := by
        have : bytes "backup" = 98 :: [97, 99, 107, 117, 112] := by decide +kernel
        rw [begins, this] at h
        simp only [List.isPrefixOf, Bool.and_eq_true, beq_iff_eq] at h
        exact h.1.symm
      have hb : b ≠ 98 := fun h => hp (by rw [h]; rfl)
      rw [begins, h1, List.isPrefixOf]
      simp [hb]

theorem backup_dispatch (c : Conf) (e : Env) (buf : Str) (h : begins buf (bytes "backup") = true) :
    dispatch c e buf = (match e.lock with
    | .notGot => ([.saidError (bytes "another instance is already running")], 1)
    | .error => ([.saidError (bytes "problem with lock file on server")], -1)
    | .got => match e.rubble with
      | .error => ([.locked, .recovered], -1)
      | .finalising => ([.locked, .recovered], 1)
      | .ok resume =>
        if c.maxParallel ≠ 0 ∧ e.working ≥ c.maxParallel then
          ([.locked, .recovered, .said (bytes "max parallel backups")], 0)
        else
          (.locked :: .recovered :: (runBackup c e resume buf).1, (runBackup c e resume buf).2)) := by
  have k := fun p hp hne => backup_not buf h p hp hne
  unfold dispatch
  rw [k (bytes "list ") (by decide +kernel) (by decide +kernel),
    k (bytes "listb ") (by decide +kernel) (by decide +kernel),
    k (bytes "diff ") (by decide +kernel) (by decide +kernel),
    k (bytes "delete ") (by decide +kernel) (by decide +kernel),
    k (bytes "restore ") (by decide +kernel) (by decide +kernel),
    k (bytes "verify ") (by decide +kernel) (by decide +kernel),
    k (bytes "Delete ") (by decide +kernel) (by decide +kernel), h]
  rfl

theorem dispatch_nb (c : Conf) (e : Env) (buf : Str) (r : Bool) (h : Effect.backedUp r ∈ (dispatch c e buf).1) :
    begins buf (bytes "backup") = true := by
  cases hb : begins buf (bytes "backup") with
  | true => rfl
  | false =>
    exfalso
    unfold dispatch at h
    split at h
    · exact runList_nb _ _ _ _ h
    · split at h
      · exact runDiff_nb _ _ _ _ h
      · split at h
        · simp at h
        · split at h
          · simp at h; exact runRestore_nb _ _ _ _ h
          · split at h
            · simp at h
            · rename_i hn
              have hd : begins buf (bytes "Delete ") = true := by
                rw [hb] at hn; simpa using hn
              rw [hd] at h
              split at h
              · simp at h
              · simp at h
              · split at h
                · simp at h
                · simp at h
                · simp at h; exact runDelete_nb _ _ _ h

/-- How a backup comes to be begun. -/
theorem backed (c : Conf) (e : Env) (gen : Bool) (buf : Str) (r : Bool)
    (h : Effect.backedUp r ∈ (runAction c e gen buf).1) :
    e.mkpath = true ∧ gen = true ∧ begins buf (bytes "backup") = true ∧ e.lock = .got ∧ e.rubble = .ok r ∧
      ¬(c.maxParallel ≠ 0 ∧ e.working ≥ c.maxParallel) ∧ c.superClient = false ∧
      ((begins buf (bytes "backupphase1timed") = true ∧ e.timer = some true ∧
          begins buf (bytes "backupphase1timedcheck") = false) ∨
        (begins buf (bytes "backupphase1timed") = false ∧ c.canForceBackup = true)) ∧
      (runAction c e gen buf) = (.wroteCreated :: .loggedCommand :: .locked :: .recovered ::
        ((if begins buf (bytes "backupphase1timed") then [Effect.ranTimer] else []) ++
          [.said (if r then bytes "resume" else bytes "ok"), .backedUp r]), 0) := by
  unfold runAction at h ⊢
  cases hm : e.mkpath with
  | false => simp [hm] at h
  | true =>
    cases gen with
    | false => simp [hm] at h
    | true =>
      simp [hm] at h
      have hb := dispatch_nb c e buf r h
      rw [backup_dispatch c e buf hb] at h ⊢
      cases hl : e.lock with
      | notGot => simp [hl] at h
      | error => simp [hl] at h
      | got =>
        cases hr : e.rubble with
        | error => simp [hl, hr] at h
        | finalising => simp [hl, hr] at h
        | ok q =>
          simp only [hl, hr] at h ⊢
          by_cases hx : c.maxParallel ≠ 0 ∧ e.working ≥ c.maxParallel
          · rw [if_pos hx] at h; simp at h
          · rw [if_neg hx] at h ⊢
            simp only [List.mem_cons, reduceCtorEq, false_or] at h
            unfold runBackup at h ⊢
            cases hs : c.superClient with
            | true => simp [hs] at h
            | false =>
              cases hk : e.seedOk <;> cases hse : e.sent <;>
                cases ht : begins buf (bytes "backupphase1timed") <;>
                cases htc : begins buf (bytes "backupphase1timedcheck") <;>
                cases hf : c.canForceBackup <;>
                rcases htm : e.timer with _ | _ | _ <;>
                simp [hs, hk, hse, ht, htc, hf, htm] at h ⊢ <;> simp_all

theorem began_iff (l : List Effect) : begun l = true ↔ ∃ r, Effect.backedUp r ∈ l := by
  unfold begun
  simp only [Bool.or_eq_true, List.contains_iff_mem]
  constructor
  · rintro (h | h)
    · exact ⟨_, h⟩
    · exact ⟨_, h⟩
  · rintro ⟨r, h⟩
    cases r
    · exact Or.inr h
    · exact Or.inl h

/-- What is notified is done by scripts alone. -/
theorem runScript_did (o : Option Str) (a u : List Str) (e : Effect) : Ev.did e ∉ runScript o a u := by
  cases o <;> simp [runScript]

theorem maybeNotify_did (s : Settings) (w : World) (st : Int) (a b c d : Str) (e : Effect) :
    Ev.did e ∉ maybeNotify s w st a b c d := by
  unfold maybeNotify
  simp only []
  split
  · exact runScript_did _ _ _ _
  · split
    · exact runScript_did _ _ _ _
    · simp

/-- Notifying adds to what is done without it. -/
theorem actionServer_evs (c : Conf) (e : Env) (s : Settings) (w : World) (gen : Bool) (buf : Str) :
    ∃ n, (actionServer c e s w gen buf).evs = (runAction c e gen buf).1.map Ev.did ++ n ∧ ∀ x, Ev.did x ∉ n := by
  unfold actionServer
  simp only []
  repeat' split
  all_goals first
    | exact ⟨[], (List.append_nil _).symm, by simp⟩
    | exact ⟨_, rfl, fun x => maybeNotify_did _ _ _ _ _ _ _ x⟩

theorem began_actionServer (c : Conf) (e : Env) (s : Settings) (w : World) (gen : Bool) (buf : Str) :
    Began (actionServer c e s w gen buf).evs ↔ ∃ r, Effect.backedUp r ∈ (runAction c e gen buf).1 := by
  obtain ⟨n, hn, hd⟩ := actionServer_evs c e s w gen buf
  unfold Began
  rw [hn]
  simp [hd]

/-- After a backup was begun. -/
theorem actionServer_began (c : Conf) (e : Env) (s : Settings) (w : World) (gen : Bool) (buf : Str)
    (h : Began (actionServer c e s w gen buf).evs) :
    actionServer c e s w gen buf = ⟨(runAction c e gen buf).1.map Ev.did ++
      (if w.backupRet ≠ 0 ∧ s.failoversSetting ∧ w.failoversLeft then []
        else maybeNotify s w w.backupRet w.clientDir w.current (bytes "log") (bytes "backup")), w.backupRet, 0⟩ := by
  obtain ⟨r, hr⟩ := (began_actionServer c e s w gen buf).1 h
  have hbegun := (began_iff _).2 ⟨r, hr⟩
  obtain ⟨hm, hg, hb, hl, hru, hmax, _, ht, heq⟩ := backed c e gen buf r hr
  have hdel := backup_not buf hb (bytes "Delete ") (by decide +kernel) (by decide +kernel)
  have htimer : timerRet e (runAction c e gen buf).1 = 0 := by
    unfold timerRet
    rcases ht with ⟨_, ht, _⟩ | ⟨ht, _⟩
    · rw [ht]; split <;> rfl
    · rw [heq, ht]; simp
  subst hg
  unfold actionServer
  simp only [hm, hb, hl, hru, hdel, hbegun, htimer, Bool.and_self, Bool.true_or, if_true,
    Bool.false_eq_true, if_false, if_neg hmax]
  by_cases hh : w.backupRet ≠ 0 ∧ s.failoversSetting = true ∧ w.failoversLeft = true
  · rw [if_pos hh, if_pos hh, List.append_nil]
  · rw [if_neg hh, if_neg hh]; rfl

theorem flag_zero (n : Int) : flag n = if decide (n ≠ 0) then bytes "1" else bytes "0" := by
  unfold flag; by_cases h : n = 0 <;> simp [h]

theorem serverScript_head (s : Settings) (w : World) (kind action script : Str) (user : List Str) (notify : Bool)
    (ret timer : Int) : ∃ q, (serverScript s w kind action script user notify ret timer).1 =
      Ev.script (cmdline (told s script kind action (decide (ret ≠ 0)) (decide (timer ≠ 0))) user) :: q ∧
      ∀ x, Ev.did x ∈ q → ∃ m, x = .saidError m := by
  unfold serverScript told
  rw [← flag_zero, ← flag_zero]
  simp only []
  split
  · exact ⟨[], rfl, by simp⟩
  · refine ⟨_, rfl, ?_⟩
    intro x hx
    rcases List.mem_cons.1 hx with hx | hx
    · injection hx with hx
      exact ⟨_, hx⟩
    · simp only [List.append_eq, List.nil_append] at hx
      split at hx
      · exact absurd hx (runScript_did _ _ _ _)
      · simp at hx

theorem serverScript_ret (s : Settings) (w : World) (kind action script : Str) (user : List Str) (notify : Bool)
    (ret timer : Int) : (serverScript s w kind action script user notify ret timer).2 = 0 ↔
      w.scriptRet (cmdline (told s script kind action (decide (ret ≠ 0)) (decide (timer ≠ 0))) user) = 0 := by
  unfold serverScript told
  rw [← flag_zero, ← flag_zero]
  simp only []
  split
  · rename_i h; simp [h]
  · rename_i h; simp [h]

theorem serverScript_ok (s : Settings) (w : World) (kind action script : Str) (user : List Str) (notify : Bool)
    (ret timer : Int) (h : (serverScript s w kind action script user notify ret timer).2 = 0) :
    (serverScript s w kind action script user notify ret timer).1 =
      [Ev.script (cmdline (told s script kind action (decide (ret ≠ 0)) (decide (timer ≠ 0))) user)] := by
  have h' := (serverScript_ret s w kind action script user notify ret timer).1 h
  unfold serverScript told at *
  rw [← flag_zero, ← flag_zero] at *
  simp only [h', if_true]

end Notify

/-- C83: when the script to be run first fails, nothing is done about the request but to say so. -/
theorem C83_pre_stops (c : Conf) (e : Env) (s : Settings) (w : World) (gen : Bool) (buf script : Str)
    (hs : s.pre = some script)
    (hf : w.scriptRet (cmdline (told s script (bytes "pre") (actionFrom buf) false false) s.preArgs) ≠ 0) :
    ∀ x, Ev.did x ∈ (child c e s w gen buf).1 → ∃ m, x = .saidError m := by
  intro x hx
  have hp2 : (serverScript s w (bytes "pre") (actionFrom buf) script s.preArgs s.preNotify 0 0).2 ≠ 0 := by
    intro h; exact hf ((serverScript_ret _ _ _ _ _ _ _ _ _).1 h)
  have hx' : Ev.did x ∈ (serverScript s w (bytes "pre") (actionFrom buf) script s.preArgs s.preNotify 0 0).1 ∨
      ∃ k scr u n r t, Ev.did x ∈ (serverScript s w k (actionFrom buf) scr u n r t).1 := by
    unfold child runPre at hx
    simp only [hs, if_neg hp2, List.append_nil] at hx
    split at hx
    · exact Or.inl hx
    · split at hx
      · exact Or.inl hx
      · rcases List.mem_append.1 hx with hx | hx
        · exact Or.inl hx
        · exact Or.inr ⟨_, _, _, _, _, _, hx⟩
  have key : ∀ k scr u n r t, Ev.did x ∈ (serverScript s w k (actionFrom buf) scr u n r t).1 →
      ∃ m, x = .saidError m := by
    intro k scr u n r t h
    obtain ⟨q, hq, hd⟩ := serverScript_head s w k (actionFrom buf) scr u n r t
    rw [hq] at h
    simp only [List.mem_cons, reduceCtorEq, false_or] at h
    exact hd x h
  rcases hx' with h | ⟨_, _, _, _, _, _, h⟩
  · exact key _ _ _ _ _ _ h
  · exact key _ _ _ _ _ _ h

/-- C83: unless the first script fails, what happens is that script, then what was asked for, and then, if there
is a script to be run last, and the action succeeded or it is to be run in any case, that script. It is told
whether the action failed and whether the timer conditions were met. What follows its start is the report of
its own failure. -/
theorem C83_course (c : Conf) (e : Env) (s : Settings) (w : World) (gen : Bool) (buf : Str)
    (hp : ∀ script, s.pre = some script →
      w.scriptRet (cmdline (told s script (bytes "pre") (actionFrom buf) false false) s.preArgs) = 0) :
    let a := actionServer c e s w gen buf
    let first := (s.pre.toList.map fun script =>
      Ev.script (cmdline (told s script (bytes "pre") (actionFrom buf) false false) s.preArgs))
    ∃ last, (child c e s w gen buf).1 = first ++ a.evs ++ last ∧
      (∀ script, s.post = some script → a.ret = 0 ∨ s.postRunOnFail = true →
        last.head? = some (Ev.script (cmdline (told s script (bytes "post") (actionFrom buf) (decide (a.ret ≠ 0))
          (decide (a.timer ≠ 0))) s.postArgs))) ∧
      (s.post = none ∨ (a.ret ≠ 0 ∧ s.postRunOnFail = false) → last = []) ∧
      ∀ x, Ev.did x ∈ last → ∃ m, x = .saidError m := by
  intro a first
  have hpre : runPre s w (actionFrom buf) = (first, 0) := by
    unfold runPre
    cases h : s.pre with
    | none => simp [first, h]
    | some script =>
      have h2 := (serverScript_ret s w (bytes "pre") (actionFrom buf) script s.preArgs s.preNotify 0 0).2 (hp script h)
      have h1 := serverScript_ok s w (bytes "pre") (actionFrom buf) script s.preArgs s.preNotify 0 0 h2
      simp only [first, h, Option.toList, List.map]
      rw [Prod.ext_iff]
      exact ⟨h1, h2⟩
  unfold child
  simp only []
  rw [hpre]
  simp only [if_true]
  cases hpo : s.post with
  | none => exact ⟨[], by simp [a], by simp, by simp, by simp⟩
  | some script =>
    simp only []
    by_cases hr : a.ret ≠ 0 ∧ (!s.postRunOnFail) = true
    · rw [if_pos hr]
      refine ⟨[], by simp [a], ?_, by simp, by simp⟩
      intro _ _ h
      rcases h with h | h
      · exact absurd h hr.1
      · rw [h] at hr; simp at hr
    · rw [if_neg hr]
      obtain ⟨q, hq, hd⟩ := serverScript_head s w (bytes "post") (actionFrom buf) script s.postArgs s.postNotify
        a.ret a.timer
      refine ⟨_, rfl, ?_, ?_, ?_⟩
      · intro scr h _
        injection h with h
        subst h
        rw [hq]; rfl
      · rintro (h | ⟨h1, h2⟩)
        · cases h
        · exact absurd ⟨h1, by simp [h2]⟩ hr
      · intro x hx
        rw [hq] at hx
        simp only [List.mem_cons, reduceCtorEq, false_or] at hx
        exact hd x hx

/-- C83: when a backup that was begun fails, the script for failures is run once, unless failures are not to be
told of while there are other servers to try, and no other script. -/
theorem C83_failure_told (c : Conf) (e : Env) (s : Settings) (w : World) (gen : Bool) (buf script : Str)
    (hb : Began (actionServer c e s w gen buf).evs) (hr : w.backupRet ≠ 0) (hs : s.failure = some script)
    (hh : ¬ Hushed s w) :
    scripts (actionServer c e s w gen buf).evs =
      [([script, s.cname, w.clientDir, w.current, bytes "log", bytes "backup", bytes "0"] ++ s.failureArgs).take 63] := by
  rw [actionServer_began c e s w gen buf hb, if_neg (fun h => hh h.2), scripts_append, scripts_did]
  unfold maybeNotify
  simp [hr, hs, runScript, scripts, cmdline]

/-- C83: when a backup that was begun succeeds, the script for successes is run once if the settings ask for it,
told of how many warnings there were, and no other script. -/
theorem C83_success_told (c : Conf) (e : Env) (s : Settings) (w : World) (gen : Bool) (buf script : Str)
    (hb : Began (actionServer c e s w gen buf).evs) (hr : w.backupRet = 0) (hs : s.success = some script) :
    scripts (actionServer c e s w gen buf).evs = if Wanted s w then
      [([script, s.cname, w.clientDir, w.current, bytes "log", bytes "backup", BackupNumber.decimal w.warnings] ++
        s.successArgs).take 63] else [] := by
  rw [actionServer_began c e s w gen buf hb, if_neg (fun h => h.1 hr), scripts_append, scripts_did]
  unfold maybeNotify
  have hw : ((s.warningsOnly && decide (w.warnings > 0)) || (s.changesOnly && decide (w.changed > 0)) ||
      (!s.warningsOnly && !s.changesOnly)) = true ↔ Wanted s w := by
    unfold Wanted
    cases s.warningsOnly <;> cases s.changesOnly <;> simp
  simp only [hr, ne_eq, not_true_eq_false, if_false, List.nil_append]
  by_cases h : Wanted s w
  · rw [if_pos (hw.2 h), if_pos h]; simp [hs, runScript, scripts, cmdline]
  · rw [if_neg (fun k => h (hw.1 k)), if_neg h]; rfl

/-- C83: what a backup comes to is what is returned: a script to be run last is told so. -/
theorem C83_outcome (c : Conf) (e : Env) (s : Settings) (w : World) (gen : Bool) (buf : Str)
    (hb : Began (actionServer c e s w gen buf).evs) :
    (actionServer c e s w gen buf).ret = w.backupRet ∧ (actionServer c e s w gen buf).timer = 0 := by
  rw [actionServer_began c e s w gen buf hb]; exact ⟨rfl, rfl⟩

namespace Notify

theorem maybeNotify_head {s : Settings} {w : World} {st : Int} {a b c d : Str} {cmd : List Str}
    (h : cmd ∈ scripts (maybeNotify s w st a b c d)) :
    (st ≠ 0 ∧ cmd.head? = s.failure) ∨ (st = 0 ∧ cmd.head? = s.success) := by
  unfold maybeNotify at h
  simp only [] at h
  split at h
  · rename_i h0
    refine Or.inl ⟨h0, ?_⟩
    cases hf : s.failure with
    | none => simp [hf, runScript, scripts] at h
    | some f => simp [hf, runScript, scripts, cmdline] at h; rw [h]; rfl
  · rename_i h0
    refine Or.inr ⟨Decidable.of_not_not h0, ?_⟩
    split at h
    · cases hf : s.success with
      | none => simp [hf, runScript, scripts] at h
      | some f => simp [hf, runScript, scripts, cmdline] at h; rw [h]; rfl
    · simp [scripts] at h

/-- Which notifications there are. -/
theorem actionServer_head {c : Conf} {e : Env} {s : Settings} {w : World} {gen : Bool} {buf : Str} {cmd : List Str}
    (h : cmd ∈ scripts (actionServer c e s w gen buf).evs) :
    ((actionServer c e s w gen buf).ret ≠ 0 ∧ cmd.head? = s.failure) ∨
    ((actionServer c e s w gen buf).ret = 0 ∧ cmd.head? = s.success) := by
  unfold actionServer at h ⊢
  simp only [] at h ⊢
  have key : ∀ (l : List Effect) (n : List Ev), cmd ∈ scripts (l.map Ev.did ++ n) → cmd ∈ scripts n := by
    intro l n h; rwa [scripts_append, scripts_did] at h
  have none' : ∀ (l : List Effect), cmd ∈ scripts (l.map Ev.did) → False := by
    intro l h; rw [scripts_did] at h; cases h
  split at h <;> rename_i h1
  · rw [if_pos h1]
    split at h <;> rename_i h2
    · exact absurd h (none' _)
    · have := maybeNotify_head (key _ _ h)
      simpa using this
    · split at h <;> rename_i h3
      · exact absurd h (none' _)
      · have := maybeNotify_head (key _ _ h)
        simpa using this
      · split at h <;> rename_i h4
        · exact absurd h (none' _)
        · rw [if_neg h4]
          split at h <;> rename_i h5
          · exact absurd h (none' _)
          · rw [if_neg h5]
            generalize (if begun (runAction c e gen buf).1 = true then w.backupRet else (runAction c e gen buf).2) = ret at *
            split at h <;> rename_i h6
            · exact absurd h (none' _)
            · rw [if_neg h6]
              split at h <;> rename_i h7
              · rw [if_pos h7]; exact maybeNotify_head (key _ _ h)
              · rw [if_neg h7]
                split at h <;> rename_i h8
                · rw [if_pos h8]; exact maybeNotify_head (key _ _ h)
                · exact absurd h (none' _)
  · exact absurd h (none' _)

/-- A backup that is neither refused nor begun is an error. -/
theorem runBackup_err (c : Conf) (e : Env) (r : Bool) (buf : Str) (hsuper : c.superClient = false)
    (hcheck : begins buf (bytes "backupphase1timedcheck") = false)
    (hforce : begins buf (bytes "backupphase1timed") = true ∨ c.canForceBackup = true)
    (ht : begins buf (bytes "backupphase1timed") = true → e.timer ≠ some false)
    (hn : Effect.backedUp r ∉ (runBackup c e r buf).1) : (runBackup c e r buf).2 ≠ 0 := by
  unfold runBackup at hn ⊢
  cases hk : e.seedOk <;> cases hse : e.sent <;>
    cases ht' : begins buf (bytes "backupphase1timed") <;>
    cases hf : c.canForceBackup <;>
    rcases htm : e.timer with _ | _ | _ <;>
    simp [hsuper, hk, hse, ht', hcheck, hf, htm] at hn hforce ht ⊢

end Notify

/-- C83: the script for failures is not run when all went well. -/
theorem C83_no_false_alarm (c : Conf) (e : Env) (s : Settings) (w : World) (gen : Bool) (buf script : Str)
    (hne : s.success ≠ some script)
    (cmd : List Str) (hc : cmd ∈ scripts (actionServer c e s w gen buf).evs) (hh : cmd.head? = some script) :
    (actionServer c e s w gen buf).ret ≠ 0 := by
  rcases actionServer_head hc with h | h
  · exact h.1
  · exact absurd (h.2.symm.trans hh) hne

/-- C83 in part: what the script for successes is told is true, if it was not just a check of the timer, and the
backup was not refused. -/
theorem C83_success_true_partial (c : Conf) (e : Env) (s : Settings) (w : World) (gen : Bool) (buf script : Str)
    (hne : s.failure ≠ some script)
    (hsuper : c.superClient = false) (hcheck : begins buf (bytes "backupphase1timedcheck") = false)
    (hforce : begins buf (bytes "backupphase1timed") = true ∨ c.canForceBackup = true)
    (cmd : List Str) (hc : cmd ∈ scripts (actionServer c e s w gen buf).evs) (hh : cmd.head? = some script) :
    Began (actionServer c e s w gen buf).evs ∧ w.backupRet = 0 := by
  have hret : (actionServer c e s w gen buf).ret = 0 := by
    rcases actionServer_head hc with h | h
    · exact absurd (h.2.symm.trans hh) hne
    · exact h.1
  by_cases hb : Began (actionServer c e s w gen buf).evs
  · refine ⟨hb, ?_⟩
    rw [actionServer_began c e s w gen buf hb] at hret
    exact hret
  · exfalso
    have hnb : ¬ ∃ r, Effect.backedUp r ∈ (runAction c e gen buf).1 :=
      fun h => hb ((began_actionServer c e s w gen buf).2 h)
    have hbegun : begun (runAction c e gen buf).1 = false := by
      cases h : begun (runAction c e gen buf).1 with
      | false => rfl
      | true => exact absurd ((began_iff _).1 h) hnb
    have none' : ∀ (l : List Effect), cmd ∈ scripts (l.map Ev.did) → False := by
      intro l h; rw [scripts_did] at h; cases h
    unfold actionServer at hc hret
    simp only [hbegun, Bool.false_eq_true, if_false] at hc hret
    split at hc <;> rename_i h1
    · rw [if_pos h1] at hret
      split at hc <;> rename_i h2
      · exact none' _ hc
      · rw [h2] at hret; simp at hret
      · rw [h2] at hret
        simp only [] at hc hret
        split at hc <;> rename_i h3
        · exact none' _ hc
        · rw [h3] at hret; simp at hret
        · rename_i r
          rw [h3] at hret
          simp only [] at hc hret
          split at hc <;> rename_i h4
          · exact none' _ hc
          · rw [if_neg h4] at hret
            split at hc <;> rename_i h5
            · exact none' _ hc
            · rw [if_neg h5] at hret
              have hbk : begins buf (bytes "backup") = true := by
                simp only [Bool.and_eq_true, Bool.or_eq_true] at h1
                rcases h1.2 with h | h
                · exact h
                · exact absurd h h4
              have hmk : e.mkpath = true ∧ gen = true := by
                simp only [Bool.and_eq_true] at h1; exact h1.1
              have hrun : runAction c e gen buf = (.wroteCreated :: .loggedCommand :: .locked :: .recovered ::
                  (runBackup c e r buf).1, (runBackup c e r buf).2) := by
                unfold runAction
                rw [backup_dispatch c e buf hbk, h2, h3, hmk.1, hmk.2]
                simp only [if_neg h5]
                rfl
              have hz : (runBackup c e r buf).2 = 0 := by
                have : (runAction c e gen buf).2 = 0 := by
                  split at hret
                  · exact hret
                  · split at hret
                    · exact hret
                    · split at hret <;> exact hret
                rw [hrun] at this; exact this
              by_cases htm : begins buf (bytes "backupphase1timed") = true → e.timer ≠ some false
              · refine runBackup_err c e r buf hsuper hcheck hforce htm ?_ hz
                intro h
                exact hnb ⟨r, by rw [hrun]; simp [h]⟩
              · have htm' : begins buf (bytes "backupphase1timed") = true ∧ e.timer = some false := by
                  refine ⟨?_, ?_⟩
                  · cases hx : begins buf (bytes "backupphase1timed") with
                    | true => rfl
                    | false => exact absurd (fun h => by rw [hx] at h; cases h) htm
                  · exact Decidable.of_not_not fun h => htm fun _ => h
                have ht1 : timerRet e (runAction c e gen buf).1 = 1 := by
                  unfold timerRet
                  rw [hrun, htm'.2]
                  unfold runBackup
                  simp [hsuper, htm'.1, htm'.2]
                rw [ht1] at hc
                simp only [(by decide : ¬((1 : Int) < 0)), (by decide : ¬((1 : Int) = 0)), if_false] at hc
                split at hc
                · exact none' _ hc
                · exact none' _ hc
    · exact none' _ hc

/-- C83: when the timer conditions are not met, nobody is notified, and a script to be run last is told so. -/
theorem C83_not_met (c : Conf) (e : Env) (s : Settings) (w : World) (buf : Str) (q : Bool)
    (hb : begins buf (bytes "backupphase1timed") = true) (hm : e.mkpath = true) (hl : e.lock = .got)
    (hr : e.rubble = .ok q) (hmax : ¬(c.maxParallel ≠ 0 ∧ e.working ≥ c.maxParallel)) (hs : c.superClient = false)
    (ht : e.timer = some false) :
    scripts (actionServer c e s w true buf).evs = [] ∧ (actionServer c e s w true buf).timer ≠ 0 ∧
      ¬ Began (actionServer c e s w true buf).evs := by
  have hbk : begins buf (bytes "backup") = true := by
    unfold begins at hb ⊢
    rw [List.isPrefixOf_iff_prefix] at hb ⊢
    exact List.IsPrefix.trans (by decide +kernel) hb
  have hdel := backup_not buf hbk (bytes "Delete ") (by decide +kernel) (by decide +kernel)
  have hrun : runAction c e true buf = ([.wroteCreated, .loggedCommand, .locked, .recovered, .ranTimer,
      .said (bytes "timer conditions not met")], 0) := by
    unfold runAction
    rw [backup_dispatch c e buf hbk, hl, hr, hm]
    simp only [if_neg hmax, runBackup, hs, hb, ht]
    rfl
  have hne : ¬ Began (actionServer c e s w true buf).evs := by
    rw [began_actionServer, hrun]; simp
  have hx : actionServer c e s w true buf = ⟨(runAction c e true buf).1.map Ev.did, 0, 1⟩ := by
    unfold actionServer
    rw [hrun]
    simp [hm, hbk, hl, hr, hdel, hmax, begun, timerRet, ht]
  refine ⟨?_, ?_, hne⟩
  · rw [hx]; exact scripts_did _
  · rw [hx]; exact (by decide : (1 : Int) ≠ 0)

/-- C83: trouble with the lock or with what an interrupted backup has left is notified. -/
theorem C83_trouble_told (c : Conf) (e : Env) (s : Settings) (w : World) (buf script : Str)
    (hb : begins buf (bytes "backup") = true) (hm : e.mkpath = true) (hs : s.failure = some script) :
    (e.lock = .error → scripts (actionServer c e s w true buf).evs =
      [([script, s.cname, [], bytes "error in get_lock_sdirs()", [], bytes "backup", bytes "0"] ++
        s.failureArgs).take 63]) ∧
    (e.lock = .got → e.rubble = .error → scripts (actionServer c e s w true buf).evs =
      [([script, s.cname, [], bytes "error in check_for_rubble()", [], bytes "backup", bytes "0"] ++
        s.failureArgs).take 63]) := by
  have hn : notifyStr buf = bytes "backup" := by unfold notifyStr; rw [if_pos hb]
  refine ⟨fun hl => ?_, fun hl hr => ?_⟩
  · unfold actionServer
    simp only [hm, hb, hl, hn, Bool.and_self, Bool.true_or, if_true]
    rw [scripts_append, scripts_did]
    simp [maybeNotify, runScript, hs, scripts, cmdline]
  · unfold actionServer
    simp only [hm, hb, hl, hr, hn, Bool.and_self, Bool.true_or, if_true]
    rw [scripts_append, scripts_did]
    simp [maybeNotify, runScript, hs, scripts, cmdline]

/-- C83: a timer script that cannot be run is notified, unless failures are not to be told of. -/
theorem C83_timer_told (c : Conf) (e : Env) (s : Settings) (w : World) (buf script : Str) (q : Bool)
    (hb : begins buf (bytes "backupphase1timed") = true) (hm : e.mkpath = true) (hl : e.lock = .got)
    (hr : e.rubble = .ok q) (hmax : ¬(c.maxParallel ≠ 0 ∧ e.working ≥ c.maxParallel)) (hs : c.superClient = false)
    (ht : e.timer = none) (hf : s.failure = some script) (hh : ¬ Hushed s w) :
    scripts (actionServer c e s w true buf).evs =
      [([script, s.cname, [], bytes "error running timer script", [], bytes "backup", bytes "0"] ++
        s.failureArgs).take 63] ∧ (actionServer c e s w true buf).ret ≠ 0 := by
  have hbk : begins buf (bytes "backup") = true := by
    unfold begins at hb ⊢
    rw [List.isPrefixOf_iff_prefix] at hb ⊢
    exact List.IsPrefix.trans (by decide +kernel) hb
  have hdel := backup_not buf hbk (bytes "Delete ") (by decide +kernel) (by decide +kernel)
  have hrun : runAction c e true buf = ([.wroteCreated, .loggedCommand, .locked, .recovered, .ranTimer], -1) := by
    unfold runAction
    rw [backup_dispatch c e buf hbk, hl, hr, hm]
    simp only [if_neg hmax, runBackup, hs, hb, ht]
    rfl
  have hx : actionServer c e s w true buf = ⟨(runAction c e true buf).1.map Ev.did ++
      maybeNotify s w (-1) [] (bytes "error running timer script") [] (bytes "backup"), -1, -1⟩ := by
    unfold actionServer
    rw [hrun]
    have hh' : ¬((-1 : Int) ≠ 0 ∧ s.failoversSetting = true ∧ w.failoversLeft = true) := fun h => hh h.2
    simp only [hm, hbk, hl, hr, hdel, begun, timerRet, ht, Bool.and_self, Bool.true_or, if_true,
      Bool.false_eq_true, if_false, if_neg hmax]
    have e1 : ([Effect.wroteCreated, .loggedCommand, .locked, .recovered, .ranTimer].contains (.backedUp true) ||
      [Effect.wroteCreated, .loggedCommand, .locked, .recovered, .ranTimer].contains (.backedUp false)) = false := by
      decide
    have e2 : [Effect.wroteCreated, .loggedCommand, .locked, .recovered, .ranTimer].contains .ranTimer = true := by
      decide
    simp only [e1, e2, Bool.false_eq_true, if_false, if_true, if_neg hh']
    rfl
  refine ⟨?_, ?_⟩
  · rw [hx]
    show scripts (_ ++ _) = _
    rw [scripts_append, scripts_did]
    simp [maybeNotify, runScript, hf, scripts, cmdline]
  · rw [hx]; exact (by decide : (-1 : Int) ≠ 0)

/-- C83: a script before or after the request that fails is notified with what it printed, if that is asked for,
unless it is about a backup and failures are not to be told of. -/
theorem C83_script_failed (s : Settings) (w : World) (kind action script f : Str) (user : List Str) (notify : Bool)
    (ret timer : Int) (hf : s.failure = some f)
    (hr : w.scriptRet (cmdline (told s script kind action (decide (ret ≠ 0)) (decide (timer ≠ 0))) user) ≠ 0) :
    scripts (serverScript s w kind action script user notify ret timer).1 =
      (told s script kind action (decide (ret ≠ 0)) (decide (timer ≠ 0)) ++ user).take 63 ::
        (if notify = true ∧ ¬ (bytes "backup" <+: action ∧ s.failoversSetting = true ∧ w.failoversLeft = true) then
          [([f, s.cname, [], w.output (cmdline (told s script kind action (decide (ret ≠ 0)) (decide (timer ≠ 0))) user),
            [], [], []] ++ s.failureArgs).take 63] else []) ∧
    (serverScript s w kind action script user notify ret timer).2 ≠ 0 := by
  refine ⟨?_, fun h => hr ((serverScript_ret _ _ _ _ _ _ _ _ _).1 h)⟩
  have hbq : begins action (bytes "backup") = true ↔ bytes "backup" <+: action := by
    unfold begins; exact List.isPrefixOf_iff_prefix
  simp only [← hbq]
  unfold serverScript
  unfold told at hr ⊢
  rw [← flag_zero, ← flag_zero] at hr ⊢
  simp only [if_neg hr]
  cases notify <;> cases begins action (bytes "backup") <;> cases s.failoversSetting <;> cases w.failoversLeft <;>
    simp [scripts, runScript, hf, cmdline]

/-- C83: a request that finds the client locked, or its last backup still being finished, counts as failed, without
the scripts for failures. -/
theorem C83_busy (c : Conf) (e : Env) (s : Settings) (w : World) (buf : Str)
    (hb : begins buf (bytes "backup") = true ∨ begins buf (bytes "Delete ") = true) (hm : e.mkpath = true)
    (hl : e.lock = .notGot ∨ (e.lock = .got ∧ e.rubble = .finalising)) :
    (actionServer c e s w true buf).ret ≠ 0 ∧ (actionServer c e s w true buf).timer = 0 ∧
      scripts (actionServer c e s w true buf).evs = [] := by
  have hbb : (begins buf (bytes "backup") || begins buf (bytes "Delete ")) = true := by
    rcases hb with h | h <;> simp [h]
  rcases hl with hl | ⟨hl, hr⟩
  · unfold actionServer
    simp only [hm, hl, hbb, Bool.and_self, if_true]
    exact ⟨by decide, trivial, scripts_did _⟩
  · unfold actionServer
    simp only [hm, hl, hr, hbb, Bool.and_self, if_true]
    exact ⟨by decide, trivial, scripts_did _⟩

/-- C83: what scripts are told is asked for: a backup, a timed backup, or else the first word of the request. -/
theorem C83_action :
    actionFrom (bytes "backupphase1") = bytes "backup" ∧
    actionFrom (bytes "backupphase1timed") = bytes "backup_timed" ∧
    ∀ word rest : Str, space ∉ word → word ≠ bytes "backupphase1" → word ≠ bytes "backupphase1timed" →
      actionFrom word = word ∧ actionFrom (word ++ space :: rest) = word := by
  refine ⟨by decide +kernel, by decide +kernel, fun word rest hs h1 h2 => ?_⟩
  have hw : ∀ l : Str, (word ++ l).takeWhile (· ≠ space) = word ++ l.takeWhile (· ≠ space) := by
    intro l
    rw [List.takeWhile_append_of_pos]
    intro x hx
    simp only [decide_eq_true_eq]
    intro h; rw [h] at hx; exact hs hx
  have hsp : ∀ t : Str, space ∉ t → word ++ space :: rest ≠ t := by
    intro t ht h
    exact ht (by rw [← h]; simp)
  constructor
  · unfold actionFrom
    rw [if_neg h1, if_neg h2]
    have := hw []
    simpa using this
  · unfold actionFrom
    rw [if_neg (hsp _ (by decide +kernel)), if_neg (hsp _ (by decide +kernel)), hw]
    simp

end Verif
