import Verif.Lemmas.Exchange

/-!
# C98: the second phase of a backup with both sides at work
-/

namespace Verif
open Transfer Exchange
open Interrupt hiding Sys Step Run Inv

/-- C98 (files the server asks for and what becomes of them: any, see `JobFine`; a delta that breaks off is left
out, see `C50_delta_read_error_violated`): whatever the timing, and however little the network and the buffers hold,
neither side ever meets a message that it does not expect; and once the server has finished, it has saved exactly
the files that were sent to their end, in the order in which it asked for them, each with its own kind, path,
attributes, contents, end marker and data path. -/
theorem C98_outcome_partial (room : Room) (jobs : List (Ask × Ans)) (hj : ∀ j ∈ jobs, JobFine j) (n : Nat) (s : Sys)
    (h : Steps room n (begin_ jobs) s) :
    s.verdict ≠ .error ∧ s.cli.mode ≠ .failed ∧
      (s.verdict = .done → s.srv.saved.map shown = expected jobs) := by
  have hi := inv_steps room jobs hj h (inv_begin jobs hj)
  refine ⟨hi.ok, ?_, hi.done⟩
  intro hf
  have := hi.cli
  rw [finalMode_failed _ hf] at this
  exact absurd this (by decide)

/-- C98: the server has finished only after the client has read and answered all of the requests. -/
theorem C98_all_answered_partial (room : Room) (jobs : List (Ask × Ans)) (hj : ∀ j ∈ jobs, JobFine j) (n : Nat)
    (s : Sys) (h : Steps room n (begin_ jobs) s) (hd : s.verdict = .done) :
    s.todo = [] ∧ s.cur = [] ∧ s.out = [] ∧ s.down = [] ∧ s.cli.mode = .over ∧ s.cli.pend = [] ∧ s.cout = [] ∧
      s.up = [] := by
  have hi := inv_steps room jobs hj h (inv_begin jobs hj)
  have ht := hi.none hd
  unfold toTake at ht
  obtain ⟨h1, h2⟩ := List.append_eq_nil_iff.1 ht
  obtain ⟨h2, h3⟩ := List.append_eq_nil_iff.1 h2
  have ho : s.cli.mode = .over := by
    by_cases ho : s.cli.mode = .over
    · exact ho
    · exact absurd h3 (future_ne _ _ hi.cli ho)
  have hr := finalMode_over _ ho _ hi.cli
  rw [hr] at h3
  unfold toRead at hr
  obtain ⟨h4, h5⟩ := List.append_eq_nil_iff.1 hr
  obtain ⟨h5, h6⟩ := List.append_eq_nil_iff.1 h5
  have hm : s.mode ≠ .asking := by
    intro hm
    simp [hm] at h6
  exact ⟨(hi.last hm).2, (hi.last hm).1, h5, h4, ho, h3, h2, h1⟩

namespace Exchange

/-- What is left to be done for the rest of the files. -/
def ansWork (a : Ans) : Nat :=
  3 * (a.warns.length + 5 + match a.body with | some b => b.1.length | none => 0)

/-- What the client has left to do, other than what it has to write. -/
def modeWork : CMode → Nat
  | .idle => 3
  | .munch => 3
  | .delta _ after _ => 3 + 3 * (after.length + 1)
  | .over => 0
  | .failed => 0

/-- A number that gets less with each step. -/
def work (s : Sys) : Nat :=
  (s.todo.map (fun a => 1 + 3 * (askMsgs a).length)).sum + 3 * s.cur.length +
  (match s.mode with | .asking => 4 | .ending => 3 | .ended => 0) + 2 * s.out.length + s.down.length +
  3 * s.cli.pend.length + 2 * s.cout.length + s.up.length + (s.cli.ans.map ansWork).sum + modeWork s.cli.mode

theorem announce_length (r : Req) : (announce r).length ≤ 3 := by
  unfold announce
  cases r.datapth with
  | none => simp
  | some d =>
    by_cases h : r.cmd = .file <;> simp [h]

/-- What the client has left to do. -/
def cliWork (c : Cli) : Nat := 3 * c.pend.length + (c.ans.map ansWork).sum + modeWork c.mode

theorem cliRead_work (c : Cli) (m : Msg) (hp : c.pend = []) : cliWork (cliRead c m) ≤ cliWork c := by
  obtain ⟨mode, datapth, ans, pend⟩ := c
  simp only at hp
  subst hp
  cases mode with
  | idle =>
    simp only [cliRead]
    by_cases h1 : m = Exchange.endMsg
    · rw [if_pos h1]; simp [cliWork, modeWork]; omega
    rw [if_neg h1]
    by_cases h2 : m.cmd = .datapth
    · rw [if_pos h2]; simp [cliWork]
    rw [if_neg h2]
    by_cases h3 : m.cmd = .attribs
    · rw [if_pos h3]; simp [cliWork]
    rw [if_neg h3]
    by_cases h4 : (m.cmd.isFiledata || m.cmd.isVssdata) = true
    · rw [if_pos h4]
      cases ans with
      | nil => simp [dealWith, cliWork, modeWork]
      | cons a as =>
        obtain ⟨at_, warns, body⟩ := a
        have hl := fun r => announce_length r
        cases body with
        | none =>
          simp only [dealWith]
          by_cases h5 : m.cmd = .file ∧ datapth.isSome = true
          · simp [h5, cliWork, modeWork, ansWork]; omega
          · simp [h5, cliWork, modeWork, ansWork]; omega
        | some b =>
          obtain ⟨bm, res⟩ := b
          have := hl ⟨m.cmd, m.buf, at_, datapth⟩
          simp only [dealWith]
          by_cases h5 : m.cmd = .file ∧ datapth.isSome = true
          · rw [if_pos h5]; simp [cliWork, modeWork, ansWork]; omega
          · rw [if_neg h5]
            cases res <;> (simp [cliWork, modeWork, ansWork]; omega)
    rw [if_neg h4]
    by_cases h5 : m.cmd = .message ∨ m.cmd = .warning
    · rw [if_pos h5]; exact Nat.le_refl _
    · rw [if_neg h5]; simp [cliWork, modeWork]
  | delta path after ok =>
    simp only [cliRead]
    cases sigMsg m with
    | more => exact Nat.le_refl _
    | bad => simp [cliWork, modeWork]; omega
    | complete =>
      cases ok <;> (simp [cliWork, modeWork]; omega)
  | munch =>
    simp only [cliRead]
    cases sigMsg m with
    | more => exact Nat.le_refl _
    | bad => simp [cliWork, modeWork]
    | complete => simp [cliWork, modeWork]
  | over => simp [cliRead, cliWork, modeWork]
  | failed => simp [cliRead]

theorem step_work (room : Room) {s t : Sys} (h : Step room s t) : work t < work s := by
  cases h with
  | next a as hv hm hc ht => simp [work, hc, ht, hm]; omega
  | last hv hm hc ht => simp [work, hm]
  | send m ms hv hm hc hf => simp [work, hm, hc]; omega
  | sendEnd hv hm hf => simp [work, hm]; omega
  | flush m ms hv ho hc => simp [work, ho]; omega
  | receive m ms hv hr hu =>
    unfold take
    simp only
    cases doStuffToReceive s.srv m <;> simp [work, hu]
  | read m ms hp h1 h2 hd =>
    have := cliRead_work s.cli m hp
    simp only [cliWork] at this
    simp only [work, hd, List.length_cons]
    omega
  | write m ms hp hf => simp [work, hp]; omega
  | cflush m ms hc hu => simp [work, hc]; omega

theorem steps_work (room : Room) {n : Nat} {s t : Sys} (h : Steps room n s t) : n + work t ≤ work s := by
  induction h with
  | refl s => omega
  | step _ hs ih =>
    have := step_work room hs
    omega

end Exchange

/-- C98: the phase does not go on forever: there is a number of steps after which it has come to an end, whatever
the timing. -/
theorem C98_ends (room : Room) (s : Sys) : ∃ bound, ∀ n t, Steps room n s t → n ≤ bound :=
  ⟨work s, fun n t h => by have := steps_work room h; omega⟩

/-- C98 (partial: the two sides may come to wait for each other, in one way only, see `C98_stall_violated`): where
nothing more can happen, the server has finished, or both sides are writing and neither reads, the server having
nothing left to write but the end of the requests. -/
theorem C98_stuck_partial (room : Room) (jobs : List (Ask × Ans)) (hj : ∀ j ∈ jobs, JobFine j) (n : Nat) (s : Sys)
    (h : Steps room n (begin_ jobs) s) (hs : Stuck room s) : s.verdict = .done ∨ Stalled room s :=
  stuck_cases room jobs hj s (inv_steps room jobs hj h (inv_begin jobs hj)) hs

/-- C98 (partial: see `C98_stuck_partial`): the second phase comes to its end, with all the files saved that were sent
to their end, if what the client sends in all is no more than what the network holds on the way to the server, or
if what the server asks for in all fits into its buffer. -/
theorem C98_completes_partial (room : Room) (jobs : List (Ask × Ans)) (hj : ∀ j ∈ jobs, JobFine j)
    (hroom : load (allAnswered jobs) ≤ room.up ∨ load (allAsked jobs) + 1 < bufMax - 1) (n : Nat) (s : Sys)
    (h : Steps room n (begin_ jobs) s) (hs : Stuck room s) :
    s.verdict = .done ∧ s.srv.saved.map shown = expected jobs := by
  have hi := inv_steps room jobs hj h (inv_begin jobs hj)
  have hd : s.verdict = .done := by
    rcases stuck_cases room jobs hj s hi hs with h | ⟨hv, hm, hnf, _, _, ⟨m, ms, e, hc⟩⟩
    · exact h
    · exfalso
      rcases hroom with hr | hr
      · apply hc
        right
        have h1 := load_suffix hi.answered
        have h2 : load (toTake s) = load s.up + (Exchange.wire m + load ms) + load (future s.cli (toRead s)) := by
          rw [toTake, load_append, load_append, e]
          have : load (m :: ms) = Exchange.wire m + load ms := by simp [load]
          omega
        omega
      · apply hnf
        have h1 := load_suffix hi.asked
        have h2 : load (toRead s) = load s.down + (load s.out + load [Exchange.endMsg]) := by
          rw [toRead, load_append, load_append, hm]
        have h3 : load [Exchange.endMsg] = 5 + Exchange.endMsg.buf.length := by simp [load, Exchange.wire]
        unfold fits
        omega
  exact ⟨hd, hi.done hd⟩

end Verif
