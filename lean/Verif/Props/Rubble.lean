import Verif.Spec.Rubble

/-!
# C29: what happens to an interrupted backup
-/

namespace Verif
open Verif.Rubble

theorem matchLoop_nil {old inc : Str} :
    matchLoop old inc = [] ↔ inc = old ∨ ∃ k, 4096 * k < old.length ∧ inc = old.take (4096 * k) := by
  induction hn : old.length using Nat.strongRecOn generalizing old inc with
  | _ n ih =>
    rw [matchLoop]
    by_cases h : old = []
    · subst h
      simp
    · have hpos : 0 < old.length := List.length_pos_iff.mpr h
      rw [dif_neg h]
      simp only
      have hlen : (old.take 4096).length = min 4096 old.length := by simp
      by_cases h1 : inc.length < (old.take 4096).length
      · rw [if_pos h1]
        constructor
        · intro e
          exact Or.inr ⟨0, by omega, by simpa using e⟩
        · rintro (e | ⟨k, hk, e⟩)
          · subst e; simp only [List.length_take] at h1; omega
          · cases k with
            | zero => simpa using e
            | succ k =>
              exfalso
              rw [e] at h1
              simp only [List.length_take] at h1
              omega
      · rw [if_neg h1]
        by_cases h2 : old.take 4096 ≠ inc.take (old.take 4096).length
        · rw [if_pos h2]
          constructor
          · intro e
            subst e
            simp only [List.take_nil, ne_eq, List.length_nil] at h1 h2
            omega
          · rintro (e | ⟨k, hk, e⟩)
            · subst e
              exfalso
              apply h2
              rw [hlen]
              rcases Nat.le_total 4096 inc.length with h3 | h3
              · rw [Nat.min_eq_left h3]
              · rw [Nat.min_eq_right h3, List.take_of_length_le h3, List.take_length]
            · cases k with
              | zero => simpa using e
              | succ k =>
                exfalso
                apply h2
                have : 4096 ≤ old.length := by omega
                rw [hlen, Nat.min_eq_left this, e, List.take_take, Nat.min_eq_left (by omega)]
        · rw [if_neg h2]
          have h2' : old.take 4096 = inc.take (old.take 4096).length := Decidable.not_not.mp h2
          rw [ih (old.drop 4096).length (by simp only [List.length_drop]; omega) rfl]
          have hsplit : inc = old.take 4096 ++ inc.drop (old.take 4096).length := by
            conv => lhs; rw [← List.take_append_drop (old.take 4096).length inc, ← h2']
          generalize inc.drop (old.take 4096).length = r at hsplit ⊢
          subst hsplit
          constructor
          · rintro (e | ⟨k, hk, e⟩)
            · left
              rw [e, List.take_append_drop]
            · right
              simp only [List.length_drop] at hk
              refine ⟨k + 1, by omega, ?_⟩
              rw [e, show 4096 * (k + 1) = 4096 + 4096 * k by omega, List.take_add]
          · rintro (e | ⟨k, hk, e⟩)
            · left
              exact List.append_cancel_left (e.trans (List.take_append_drop 4096 old).symm)
            · cases k with
              | zero =>
                have := congrArg List.length e
                simp only [List.length_append, hlen, Nat.mul_zero, List.take_zero, List.length_nil] at this
                omega
              | succ k =>
                right
                refine ⟨k, by simp only [List.length_drop]; omega, ?_⟩
                rw [show 4096 * (k + 1) = 4096 + 4096 * k by omega, List.take_add] at e
                exact List.append_cancel_left e

theorem incexcMatches_iff {l : Leftover} {s : Settings} :
    incexcMatches l.incexc s.incexc = true ↔ SameSettings l s ∨ SettingsCutOff l s := by
  unfold incexcMatches SameSettings SettingsCutOff
  cases h : l.incexc with
  | none => simp
  | some old =>
    simp only [List.isEmpty_iff, matchLoop_nil, reduceCtorEq, Option.some.injEq, false_or]
    constructor
    · rintro (e | ⟨k, h1, h2⟩)
      · exact Or.inl e.symm
      · exact Or.inr ⟨old, k, rfl, h1, h2⟩
    · rintro (e | ⟨o, k, rfl, h1, h2⟩)
      · exact Or.inl e.symm
      · exact Or.inr ⟨k, h1, h2⟩

theorem phase1_iff {l : Leftover} : phase1Incomplete l = true ↔ ¬ ScanCompleted l := by
  unfold phase1Incomplete ScanCompleted
  cases l.phase1tmp <;> cases l.phase1data <;> cases l.changed <;> cases l.unchanged <;> simp

/-- C29, when to resume. A working directory whose `resumed` and `log` files can be written is resumed
exactly when the scan had completed, the method is to resume, there is an attempt left, the client that is
connected is the one that was backed up, and the settings are the same, or are the old ones cut off at a
multiple of 4096 bytes. -/
theorem C29_resume_iff_partial {l : Leftover} {s : Settings} (he : l.exists_ = true)
    (ha : l.appendable = true) (hl : l.logOpens = true) :
    recoverWorking l s = .resume ↔
      ScanCompleted l ∧ s.method = .resume ∧ AttemptsLeft l s ∧ s.superClient = false ∧
        (SameSettings l s ∨ SettingsCutOff l s) := by
  have hm : byMethod l s s.method = .resume ↔
      s.method = .resume ∧ s.superClient = false ∧ (SameSettings l s ∨ SettingsCutOff l s) := by
    unfold byMethod workingResume
    cases s.method <;> simp [hl]
    cases s.superClient <;> simp [incexcMatches_iff]
    by_cases h : SameSettings l s <;> by_cases h' : SettingsCutOff l s <;> simp [h, h']
  have hd : byMethod l s .delete ≠ .resume := by simp [byMethod]
  unfold recoverWorking
  rw [he]
  simp only [Bool.not_true, Bool.false_eq_true, if_false]
  by_cases h1 : ScanCompleted l
  · have h1' : phase1Incomplete l = false := by
      have := not_congr (phase1_iff (l := l))
      simpa [h1] using this
    rw [h1']
    simp only [Bool.false_eq_true, if_false]
    by_cases h2 : 0 < s.maxResumeAttempts
    · rw [if_pos h2]
      simp only [appended, ha, if_true]
      by_cases h3 : s.maxResumeAttempts < ((l.resumed.getD 0 + 1 : Nat) : Int)
      · rw [if_pos h3]
        have : ¬ AttemptsLeft l s := by
          unfold AttemptsLeft
          push_cast at h3
          omega
        simp [hd, this]
      · rw [if_neg h3, hm]
        have : AttemptsLeft l s := by
          unfold AttemptsLeft
          push_cast at h3
          omega
        simp [h1, this]
    · rw [if_neg h2, hm]
      have : AttemptsLeft l s := Or.inl (by omega)
      simp [h1, this]
  · rw [if_pos (phase1_iff.mpr h1)]
    simp [hd, h1]

/-- C29, when to delete. It is deleted exactly when the scan had not completed, or no attempt is left, or
the method is to delete, or it is to resume for the client itself and the settings have changed. -/
theorem C29_delete_iff_partial {l : Leftover} {s : Settings} (he : l.exists_ = true)
    (ha : l.appendable = true) (hl : l.logOpens = true) :
    recoverWorking l s = .deleted ↔
      ¬ ScanCompleted l ∨ ¬ AttemptsLeft l s ∨ s.method = .delete ∨
        (s.method = .resume ∧ s.superClient = false ∧ ¬ SameSettings l s ∧ ¬ SettingsCutOff l s) := by
  have hm : byMethod l s s.method = .deleted ↔ s.method = .delete ∨
      (s.method = .resume ∧ s.superClient = false ∧ ¬ SameSettings l s ∧ ¬ SettingsCutOff l s) := by
    unfold byMethod workingResume
    cases s.method <;> simp [hl]
    cases s.superClient <;> simp [incexcMatches_iff]
  have hd : byMethod l s .delete = .deleted := by simp [byMethod]
  unfold recoverWorking
  rw [he]
  simp only [Bool.not_true, Bool.false_eq_true, if_false]
  by_cases h1 : ScanCompleted l
  · have h1' : phase1Incomplete l = false := by
      have := not_congr (phase1_iff (l := l))
      simpa [h1] using this
    rw [h1']
    simp only [Bool.false_eq_true, if_false]
    by_cases h2 : 0 < s.maxResumeAttempts
    · rw [if_pos h2]
      simp only [appended, ha, if_true]
      by_cases h3 : s.maxResumeAttempts < ((l.resumed.getD 0 + 1 : Nat) : Int)
      · rw [if_pos h3]
        have : ¬ AttemptsLeft l s := by
          unfold AttemptsLeft
          push_cast at h3
          omega
        simp [hd, this]
      · rw [if_neg h3, hm]
        have : AttemptsLeft l s := by
          unfold AttemptsLeft
          push_cast at h3
          omega
        simp [h1, this]
    · rw [if_neg h2, hm]
      have : AttemptsLeft l s := Or.inl (by omega)
      simp [h1, this]
  · rw [if_pos (phase1_iff.mpr h1)]
    simp [hd, h1]

/-- C29, an incomplete scan is never built upon, whatever else is the case. -/
theorem C29_incomplete_scan_deleted {l : Leftover} {s : Settings} (he : l.exists_ = true)
    (h : ¬ ScanCompleted l) : recoverWorking l s = .deleted := by
  unfold recoverWorking
  rw [he]
  simp only [Bool.not_true, Bool.false_eq_true, if_false]
  rw [if_pos (phase1_iff.mpr h)]
  simp [byMethod]

/-- A sequence of connections, each of which finds the same interrupted backup and has it resumed: the
lines of the file `resumed` afterwards. -/
inductive Resumed (s : Settings) : Leftover → Nat → Leftover → Prop where
  | zero (l) : Resumed s l 0 l
  | succ {l k l1 l2} (h : Resumed s l k l1) (ha : l1.appendable = true)
      (hr : recoverWorking l1 s = .resume) (h2 : l2.resumed = appended l1) : Resumed s l (k + 1) l2

/-- C29, the limit. However often a backup is interrupted again, it is resumed at most as many times as the
limit says. -/
theorem C29_attempts_bounded {s : Settings} {l l' : Leftover} {k : Nat} (h : Resumed s l k l')
    (hs : 0 < s.maxResumeAttempts) (h0 : l.resumed = none) : (k : Int) ≤ s.maxResumeAttempts := by
  have key : l'.resumed.getD 0 = k ∧ (k : Int) ≤ s.maxResumeAttempts := by
    induction h with
    | zero => exact ⟨by rw [h0]; rfl, by omega⟩
    | @succ k l1 l2 h ha hr h2 ih =>
      obtain ⟨ih1, ih2⟩ := ih
      have happ : appended l1 = some (k + 1) := by
        unfold appended
        rw [if_pos ha, ih1]
      refine ⟨by rw [h2, happ]; rfl, ?_⟩
      unfold recoverWorking at hr
      rw [happ] at hr
      simp only [hs, if_true] at hr
      by_cases h3 : s.maxResumeAttempts < ((k + 1 : Nat) : Int)
      · rw [if_pos h3] at hr
        simp only [byMethod, if_true] at hr
        split at hr
        · simp at hr
        · split at hr <;> simp at hr
      · omega
  exact key.2

/-- Hypotheses are met: an interrupted backup that is resumed, then not any more. -/
def exLeft (n : Option Nat) : Leftover :=
  { exists_ := true, phase1tmp := false, phase1data := true, changed := true, unchanged := false,
    resumed := n, appendable := true, incexc := none, logOpens := true }
def exRubbleSettings : Settings :=
  { method := .resume, maxResumeAttempts := 2, superClient := false, incexc := bytes "include = /home" }

example : recoverWorking (exLeft none) exRubbleSettings = .resume ∧
    recoverWorking (exLeft (some 1)) exRubbleSettings = .resume ∧
    recoverWorking (exLeft (some 2)) exRubbleSettings = .deleted := by decide

example : Resumed exRubbleSettings (exLeft none) 2 (exLeft (some 2)) :=
  .succ (.succ (.zero _) rfl (by decide) (l2 := exLeft (some 1)) rfl) rfl (by decide) rfl

/-- C29 does not hold for settings that have become empty, or that are cut off at a multiple of 4096
bytes: the interrupted backup is resumed although its settings were others. -/
theorem C29_settings_violated (l : Leftover) (s : Settings) (he : l.exists_ = true)
    (ha : l.appendable = true) (hl : l.logOpens = true) (h1 : ScanCompleted l) (h2 : s.method = .resume)
    (h3 : AttemptsLeft l s) (h4 : s.superClient = false) (h5 : SettingsCutOff l s) :
    recoverWorking l s = .resume ∧ ¬ SameSettings l s := by
  refine ⟨(C29_resume_iff_partial he ha hl).mpr ⟨h1, h2, h3, h4, Or.inr h5⟩, ?_⟩
  obtain ⟨old, k, e, hk, hs⟩ := h5
  rintro (h | h)
  · rw [e] at h; cases h
  · rw [e] at h
    cases h
    have := congrArg List.length hs
    simp only [List.length_take] at this
    omega

/-- Such settings: the client's include lines have been removed. -/
example : SettingsCutOff { exLeft none with incexc := some (bytes "include = /home") }
    { exRubbleSettings with incexc := [] } := ⟨_, 0, rfl, by decide, rfl⟩

/-- C29, the log of a backup that was being finished. Its repair reports failure whenever it has something
to repair, and then the recovery is given up; but the next time there is nothing left to repair. -/
theorem C29_log_repaired_second_time (l : Log) :
    (fixLogFinishing (fixLogFinishing l).1).2 = true ∧
      ((fixLogFinishing l).2 = false ↔ l.gz = true) := by
  obtain ⟨a, b⟩ := l
  cases a <;> cases b <;> decide

end Verif
