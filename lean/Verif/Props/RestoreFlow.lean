import Verif.Lemmas.RestoreFlowRun

/-!
# C99: the data of a restore with both sides at work
-/

namespace Verif
open Transfer RestoreFlow
open Verif.Exchange (bufMax wire load fits carries Room Small load_append load_suffix fits_nil)

/-- C99 (any entries, some of which the server may not find, and any answers of the client; no two entries with
the same data path, see `C50_same_datapth_violated`): whatever the timing, and however little the network and the
buffers hold, neither side ever meets a message that it does not expect; and once the server has finished, the
client has dealt with every entry in the order in which they were sent, and has restored each one that it did not
refuse with all of its data, whichever files it has interrupted, and however early or late the server has
noticed. -/
theorem C99_outcome_partial (room : Room) (rounds : List (List Entry)) (dirs : List Entry) (replies : List Reply)
    (hf : Fine rounds dirs replies) (n : Nat) (s : Sys) (h : Steps room n (begin_ rounds dirs replies) s) :
    s.verdict ≠ .error ∧ s.cli.mode ≠ .failed ∧
      (s.verdict = .done → s.cli.log = expected (rounds.flatten ++ dirs) replies) := by
  rcases inv_steps room _ (answers_form rounds dirs replies) _ _ h (inv_begin rounds dirs replies hf) with hi | hi
  · refine ⟨by rw [hi.running]; decide, ?_, fun hd => by rw [hi.running] at hd; exact absurd hd (by decide)⟩
    intro hm
    have := hi.over
    rw [after_failed _ hm] at this
    exact absurd this (by decide)
  · exact ⟨by rw [hi.done]; decide, by rw [hi.mode]; decide, fun _ => hi.log⟩

/-- C99: the server has finished only after it has sent everything, the client has read all of it and has said all
it has to say, and the server has read that. -/
theorem C99_all_read_partial (room : Room) (rounds : List (List Entry)) (dirs : List Entry) (replies : List Reply)
    (hf : Fine rounds dirs replies) (n : Nat) (s : Sys) (h : Steps room n (begin_ rounds dirs replies) s)
    (hd : s.verdict = .done) :
    s.ops = [] ∧ s.out = [] ∧ s.down = [] ∧ s.cli.mode = .over ∧ s.cli.pend = [] ∧ s.cout = [] ∧ s.up = [] := by
  rcases inv_steps room _ (answers_form rounds dirs replies) _ _ h (inv_begin rounds dirs replies hf) with hi | hi
  · rw [hi.running] at hd
    exact absurd hd (by decide)
  · exact ⟨hi.ops, hi.out, hi.down, hi.mode, hi.pend, hi.cout, hi.up⟩

namespace RestoreFlow

/-- What is left to be said about an entry. -/
def replyWork (r : Reply) : Nat := 3 * (r.warns.length + r.after.length + 1)

/-- What the client has left to do, other than what it has to write. -/
def modeWork : CMode → Nat
  | .idle => 3
  | .link _ => 3
  | .taking _ _ a => 3 + 3 * a.length
  | .skipping _ => 3
  | .over => 0
  | .failed => 0

/-- What the server has left to do. -/
def opWork : Op → Nat
  | .say _ => 3
  | _ => 1

/-- What the client has left to do. -/
def cliWork (c : Cli) : Nat := 3 * c.pend.length + (c.replies.map replyWork).sum + modeWork c.mode

/-- A number that gets less with each step. -/
def work (s : Sys) : Nat :=
  (s.ops.map opWork).sum + 2 * s.out.length + s.down.length + cliWork s.cli + 2 * s.cout.length + s.up.length

theorem says_length (ws : List Str) : (says ws).length = ws.length := by simp [says]

theorem dealPlain_work (c : Cli) (path : Str) (t : List Str) (hp : c.pend = []) :
    cliWork (dealPlain c path t) ≤ cliWork c := by
  unfold dealPlain
  cases hr : c.replies with
  | nil => simp [cliWork, hr, hp, modeWork]
  | cons r rs =>
    simp only [cliWork, hr, hp, modeWork, says_length, List.map_cons, List.sum_cons, replyWork, List.length_nil]
    omega

theorem dealData_work (c : Cli) (path : Str) (hm : c.mode = .idle) (hp : c.pend = []) :
    cliWork (dealData c path) ≤ cliWork c := by
  unfold dealData
  cases hr : c.replies with
  | nil => simp [cliWork, hr, hp, modeWork]
  | cons r rs =>
    cases hrr : r.refuse with
    | true =>
      cases hd : c.datapth with
      | none =>
        simp only [if_true, cliWork, hr, hm, hp, modeWork, says_length, List.map_cons, List.sum_cons, replyWork,
          List.length_nil, hrr]
        omega
      | some d =>
        simp only [if_true, cliWork, hr, hm, hp, modeWork, says_length, List.map_cons, List.sum_cons, replyWork,
          List.length_nil, List.length_append, List.length_cons, hrr]
        omega
    | false =>
      simp only [Bool.false_eq_true, if_false, cliWork, hr, hm, hp, modeWork, says_length, List.map_cons,
        List.sum_cons, replyWork, List.length_nil, hrr]
      omega

theorem cliRead_work (c : Cli) (m : Msg) (hp : c.pend = []) : cliWork (cliRead c m) ≤ cliWork c := by
  obtain ⟨mode, dp, rs, pend, log⟩ := c
  simp only at hp
  subst hp
  cases mode with
  | idle =>
    simp only [cliRead]
    by_cases h1 : m = RestoreFlow.endMsg
    · rw [if_pos h1]; simp [cliWork, modeWork]; omega
    rw [if_neg h1]
    by_cases h2 : m.cmd = .datapth
    · rw [if_pos h2]; simp [cliWork]
    rw [if_neg h2]
    by_cases h3 : m.cmd = .attribs
    · rw [if_pos h3]; exact Nat.le_refl _
    rw [if_neg h3]
    by_cases h4 : m.cmd = .message ∨ m.cmd = .warning
    · rw [if_pos h4]; exact Nat.le_refl _
    rw [if_neg h4]
    by_cases h5 : m.cmd.isLink = true
    · rw [if_pos h5]; simp [cliWork, modeWork]
    rw [if_neg h5]
    by_cases h6 : (m.cmd.isFiledata || m.cmd.isVssdata) = true
    · rw [if_pos h6]; exact dealData_work _ _ rfl rfl
    rw [if_neg h6]
    by_cases h7 : m.cmd = .directory ∨ m.cmd = .special
    · rw [if_pos h7]; exact dealPlain_work _ _ _ rfl
    · rw [if_neg h7]; simp [cliWork, modeWork]
  | link path =>
    simp only [cliRead]
    by_cases h5 : m.cmd.isLink = true
    · rw [if_pos h5]; exact dealPlain_work _ _ _ rfl
    rw [if_neg h5]
    by_cases h4 : m.cmd = .message ∨ m.cmd = .warning
    · rw [if_pos h4]; exact Nat.le_refl _
    · rw [if_neg h4]; simp [cliWork, modeWork]
  | taking path got aft =>
    simp only [cliRead]
    by_cases h1 : m.cmd = .append
    · rw [if_pos h1]; simp [cliWork, modeWork]
    rw [if_neg h1]
    by_cases h2 : m.cmd = .endFile
    · rw [if_pos h2]; simp [cliWork, modeWork, says_length]; omega
    rw [if_neg h2]
    by_cases h4 : m.cmd = .message ∨ m.cmd = .warning
    · rw [if_pos h4]; exact Nat.le_refl _
    · rw [if_neg h4]; simp [cliWork, modeWork]
  | skipping path =>
    simp only [cliRead]
    by_cases h1 : m.buf = []
    · rw [if_pos h1]; exact Nat.le_refl _
    rw [if_neg h1]
    by_cases h2 : m.cmd = .append
    · rw [if_pos h2]; exact Nat.le_refl _
    rw [if_neg h2]
    by_cases h3 : m.cmd = .endFile
    · rw [if_pos h3]; simp [cliWork, modeWork]
    · rw [if_neg h3]; simp [cliWork, modeWork]
  | over => simp [cliRead, cliWork, modeWork]
  | failed => simp [cliRead]

theorem cut_work (ops : List Op) : ((cut ops).map opWork).sum ≤ (ops.map opWork).sum := by
  induction ops with
  | nil => simp [cut]
  | cons o ops ih =>
    cases o with
    | say m =>
      rw [cut]
      by_cases h : m.cmd = .endFile
      · rw [if_pos h]; exact Nat.le_refl _
      · rw [if_neg h]; simp only [List.map_cons, List.sum_cons]; omega
    | look d =>
      show ((cut ops).map opWork).sum ≤ 1 + (ops.map opWork).sum
      omega
    | drain =>
      show ((cut ops).map opWork).sum ≤ 1 + (ops.map opWork).sum
      omega

theorem step_work (room : Room) {s t : Sys} (h : Step room s t) : work t < work s := by
  cases h with
  | say m ops hv ho hf => simp [work, ho, opWork]; omega
  | nothing d ops hv ho => simp [work, ho, opWork]
  | look d ops m ms hv ho hu =>
    have := cut_work ops
    unfold during
    cases Interrupt.doQuickRead d (some m) <;>
      simp only [work, ho, hu, opWork, List.map_cons, List.sum_cons, List.length_cons] <;> omega
  | drained ops hv ho => simp [work, ho, opWork]
  | drain ops m ms hv ho hu =>
    unfold between
    by_cases h : m.cmd = .message ∨ m.cmd = .warning ∨ m.cmd = .interrupt <;> simp [h, work, hu]
  | receive m ms hv ho hu =>
    unfold atEnd
    by_cases h1 : m.cmd = .gen
    · rw [if_pos h1]
      by_cases h2 : m.buf = bytes "restoreend ok" ∨ m.buf = bytes "restoreend_ok"
      · rw [if_pos h2]; simp [work, hu]
      · rw [if_neg h2]; simp [work, hu]
    · rw [if_neg h1]
      by_cases h2 : m.cmd = .warning ∨ m.cmd = .message ∨ m.cmd = .interrupt
      · rw [if_pos h2]; simp [work, hu]
      · rw [if_neg h2]; simp [work, hu]
  | flush m ms hv ho hc => simp [work, ho]; omega
  | read m ms hp h1 h2 hd =>
    have := cliRead_work s.cli m hp
    simp only [work, hd, List.length_cons]
    omega
  | write m ms hp hf => simp [work, cliWork, hp]; omega
  | cflush m ms hc hu => simp [work, hc]; omega

theorem steps_work (room : Room) {n : Nat} {s t : Sys} (h : Steps room n s t) : n + work t ≤ work s := by
  induction h with
  | refl s => omega
  | step _ hs ih =>
    have := step_work room hs
    omega

end RestoreFlow

/-- C99: the restore does not go on forever: there is a number of steps after which it has come to an end, whatever
the timing. -/
theorem C99_ends (room : Room) (s : Sys) : ∃ bound, ∀ n t, Steps room n s t → n ≤ bound :=
  ⟨work s, fun n t h => by have := steps_work room h; omega⟩

/-- C99 (partial: the two sides may come to wait for each other, see `C99_stall_violated`): where nothing more can
happen, the server has finished, or both sides are writing and neither reads. -/
theorem C99_stuck_partial (room : Room) (rounds : List (List Entry)) (dirs : List Entry) (replies : List Reply)
    (hf : Fine rounds dirs replies) (n : Nat) (s : Sys) (h : Steps room n (begin_ rounds dirs replies) s)
    (hs : Stuck room s) : s.verdict = .done ∨ Stalled room s :=
  stuck_cases room _ (fun m hm => small_answered rounds dirs replies hf m hm) _ _ s
    (inv_steps room _ (answers_form rounds dirs replies) _ _ h (inv_begin rounds dirs replies hf)) hs

/-- C99 (partial: see `C99_stuck_partial`): the restore comes to its end, with every entry restored that the client
does not refuse, if what the client says in all is no more than what the network holds on the way to the server, or
fits into its buffer, or if what the server sends in all is no more than what the network holds on the way to the
client, or fits into its buffer. -/
theorem C99_completes_partial (room : Room) (rounds : List (List Entry)) (dirs : List Entry) (replies : List Reply)
    (hf : Fine rounds dirs replies)
    (hroom : load (allAnswered rounds dirs replies) ≤ room.up ∨ load (allAnswered rounds dirs replies) + 2 < bufMax ∨
      load (allSaid rounds dirs) ≤ room.down ∨ load (allSaid rounds dirs) + 2 < bufMax)
    (n : Nat) (s : Sys) (h : Steps room n (begin_ rounds dirs replies) s) (hs : Stuck room s) :
    s.verdict = .done ∧ s.cli.log = expected (rounds.flatten ++ dirs) replies := by
  have hi := inv_steps room _ (answers_form rounds dirs replies) _ _ h (inv_begin rounds dirs replies hf)
  have hsm := fun m hm => small_answered rounds dirs replies hf m hm
  rcases hi with hi | hi
  · exfalso
    rcases stuck_cases room _ hsm _ _ s (.inl hi) hs with
      h | ⟨hv, ⟨m3, l3, e3, h3⟩, ⟨m1, l1, e1, h1⟩, ⟨m4, l4, e4, h4⟩, ⟨m2, l2, e2, h2⟩⟩
    · rw [hi.running] at h
      exact absurd h (by decide)
    · have k1 := load_suffix hi.suffix
      have k2 : load (toTake s) = load s.up + (wire m2 + load l2) + load (future s.cli (toRead s)) := by
        rw [toTake, load_append, load_append, e2]
        have : load (m2 :: l2) = wire m2 + load l2 := by simp [load]
        omega
      have k3 : wire m4 ≤ load (future s.cli (toRead s)) := by
        rw [future_split, e4, load_append]
        have : load (m4 :: l4) = wire m4 + load l4 := by simp [load]
        omega
      have k4 := hi.load
      have k5 : load (toRead s) = load s.down + (wire m1 + load l1) + load (sayMsgs s.ops) := by
        rw [toRead, load_append, load_append, e1]
        have : load (m1 :: l1) = wire m1 + load l1 := by simp [load]
        omega
      have k6 : wire m3 ≤ load (sayMsgs s.ops) := by
        rw [e3, sayMsgs_say]
        have : load (m3 :: sayMsgs l3) = wire m3 + load (sayMsgs l3) := by simp [load]
        omega
      rcases hroom with hr | hr | hr | hr
      · exact h2 (.inr (by omega))
      · apply h4
        have e : load s.cout = wire m2 + load l2 := by rw [e2]; simp [load]
        unfold fits
        unfold Exchange.wire at *
        omega
      · exact h1 (.inr (by omega))
      · apply h3
        have e : load s.out = wire m1 + load l1 := by rw [e1]; simp [load]
        unfold fits
        unfold Exchange.wire at *
        omega
  · exact ⟨hi.done, hi.log⟩

end Verif
