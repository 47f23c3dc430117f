import Verif.Spec.Exchange

/-!
# Lemmas about the second phase
-/

namespace Verif.Exchange
open Verif Verif.Transfer Verif.Interrupt

/-! ### What is still to be read -/

/-- What the client has yet to read. -/
def toRead (s : Sys) : List Msg :=
  s.down ++ (s.out ++ match s.mode with
    | .asking => s.cur ++ (s.todo.flatMap askMsgs ++ [endMsg])
    | .ending => [endMsg]
    | .ended => [])

/-- What the client has yet to write, given what it has yet to read. -/
def future (c : Cli) : List Msg → List Msg
  | [] => c.pend
  | m :: ms => c.pend ++ future (cliRead { c with pend := [] } m) ms

/-- What the client comes to. -/
def finalMode (c : Cli) : List Msg → CMode
  | [] => c.mode
  | m :: ms => finalMode (cliRead { c with pend := [] } m) ms

/-- What the server has yet to read. -/
def toTake (s : Sys) : List Msg := s.up ++ (s.cout ++ future s.cli (toRead s))

theorem future_pend (c : Cli) (p : List Msg) (ms : List Msg) :
    future { c with pend := p } ms = p ++ future { c with pend := [] } ms := by
  cases ms with
  | nil => simp [future]
  | cons m ms => simp [future]

theorem finalMode_pend (c : Cli) (p : List Msg) (ms : List Msg) :
    finalMode { c with pend := p } ms = finalMode { c with pend := [] } ms := by
  cases ms with
  | nil => rfl
  | cons m ms => rfl

theorem finalMode_failed (c : Cli) (h : c.mode = .failed) (ms : List Msg) : finalMode c ms = .failed := by
  induction ms generalizing c with
  | nil => exact h
  | cons m ms ih =>
    rw [finalMode]
    apply ih
    simp [cliRead, h]

theorem finalMode_over (c : Cli) (h : c.mode = .over) (ms : List Msg) (hf : finalMode c ms = .over) : ms = [] := by
  cases ms with
  | nil => rfl
  | cons m ms =>
    rw [finalMode, finalMode_failed _ (by simp [cliRead, h])] at hf
    exact absurd hf (by decide)

/-- A client that comes to its end has something to write until it has. -/
theorem future_ne (c : Cli) (ms : List Msg) (hf : finalMode c ms = .over) (hc : c.mode ≠ .over) : future c ms ≠ [] := by
  induction ms generalizing c with
  | nil => exact absurd hf hc
  | cons m ms ih =>
    rw [finalMode] at hf
    rw [future]
    have key : future (cliRead { c with pend := [] } m) ms ≠ [] := by
      by_cases ho : (cliRead { c with pend := [] } m).mode = .over
      · have hp : (cliRead { c with pend := [] } m).pend = [okMsg] := by
          obtain ⟨mode, datapth, ans, pend⟩ := c
          cases mode with
          | idle =>
            simp only [cliRead] at ho ⊢
            by_cases h1 : m = endMsg
            · rw [if_pos h1]
            rw [if_neg h1] at ho
            by_cases h2 : m.cmd = .datapth
            · rw [if_pos h2] at ho; exact absurd ho (by simp)
            rw [if_neg h2] at ho
            by_cases h3 : m.cmd = .attribs
            · rw [if_pos h3] at ho; exact absurd ho (by simp)
            rw [if_neg h3] at ho
            by_cases h4 : (m.cmd.isFiledata || m.cmd.isVssdata) = true
            · rw [if_pos h4] at ho
              exfalso
              cases ans with
              | nil => simp [dealWith] at ho
              | cons a as =>
                obtain ⟨at_, warns, body⟩ := a
                cases body with
                | none =>
                  simp only [dealWith] at ho
                  by_cases h5 : m.cmd = .file ∧ datapth.isSome = true <;> simp [h5] at ho
                | some b =>
                  obtain ⟨bm, res⟩ := b
                  simp only [dealWith] at ho
                  by_cases h5 : m.cmd = .file ∧ datapth.isSome = true
                  · simp [h5] at ho
                  · rw [if_neg h5] at ho
                    cases res <;> simp at ho
            rw [if_neg h4] at ho
            by_cases h5 : m.cmd = .message ∨ m.cmd = .warning
            · rw [if_pos h5] at ho; exact absurd ho (by simp)
            · rw [if_neg h5] at ho; exact absurd ho (by simp)
          | delta path after ok =>
            exfalso
            simp only [cliRead] at ho
            cases hs : sigMsg m <;> cases ok <;> simp [hs] at ho
          | munch =>
            exfalso
            simp only [cliRead] at ho
            cases hs : sigMsg m <;> simp [hs] at ho
          | over => exact absurd rfl hc
          | failed => simp [cliRead] at ho
        generalize cliRead { c with pend := [] } m = c' at *
        have : future c' ms = [okMsg] ++ future { c' with pend := [] } ms := by
          rw [← future_pend, ← hp]
        rw [this]
        simp
      · exact ih _ hf ho
    intro h
    exact key (List.append_eq_nil_iff.1 h).2

/-! ### The server and the path it waits for -/

/-- What a run of the receiver comes to, as far as files are concerned. -/
def outcome : Rcvd → Option (List (Cmd × Str × Option Str × Str × Str × Option Str))
  | .finished s => some (s.saved.map shown)
  | _ => none

theorem doStuff_last (s : Srv) (l : Option Str) (m : Msg) :
    (∃ t l', doStuffToReceive s m = .ok t ∧ doStuffToReceive { s with last := l } m = .ok { t with last := l' }) ∨
    (∃ t, doStuffToReceive s m = .finished t ∧ doStuffToReceive { s with last := l } m = .finished { t with last := l }) ∨
    (doStuffToReceive s m = .error ∧ doStuffToReceive { s with last := l } m = .error) := by
  obtain ⟨rb, saved, last, next⟩ := s
  obtain ⟨d, a, cur⟩ := rb
  unfold doStuffToReceive
  simp only
  by_cases h0 : m.cmd = .message ∨ m.cmd = .warning
  · simp only [h0, if_true]
    exact .inl ⟨_, l, rfl, rfl⟩
  simp only [h0, if_false]
  cases cur with
  | some x =>
    obtain ⟨cmd, path, place, content⟩ := x
    simp only
    by_cases h1 : m.cmd = .append
    · simp only [h1, if_true]
      cases m.buf.isEmpty with
      | true => simp
      | false => exact .inl ⟨_, l, rfl, rfl⟩
    simp only [h1, if_false]
    by_cases h2 : m.cmd = .endFile
    · simp only [h2, if_true]
      exact .inl ⟨_, _, rfl, rfl⟩
    simp only [h2, if_false]
    by_cases h3 : m.cmd = .interrupt
    · simp only [h3, if_true]
      exact .inl ⟨_, _, rfl, rfl⟩
    simp only [h3, if_false]
    simp
  | none =>
    simp only
    by_cases h1 : m.cmd = .datapth
    · simp only [h1, if_true]
      cases PathCmp.hasDotComponent m.buf with
      | true => simp
      | false => exact .inl ⟨_, l, rfl, rfl⟩
    simp only [h1, if_false]
    by_cases h2 : m.cmd = .attribs
    · simp only [h2, if_true]
      exact .inl ⟨_, l, rfl, rfl⟩
    simp only [h2, if_false]
    by_cases h3 : m.cmd = .gen
    · simp only [h3, if_true]
      by_cases h4 : m.buf = bytes "okbackupphase2end"
      · simp only [h4, if_true]
        exact .inr (.inl ⟨_, rfl, rfl⟩)
      · simp only [h4, if_false]
        simp
    simp only [h3, if_false]
    by_cases h5 : m.cmd = .interrupt
    · simp only [h5, if_true]
      exact .inl ⟨_, _, rfl, rfl⟩
    simp only [h5, if_false]
    cases m.cmd.isFiledata || m.cmd.isVssdata with
    | false => simp
    | true =>
      cases d with
      | some d => exact .inl ⟨_, l, rfl, rfl⟩
      | none => exact .inl ⟨_, l, rfl, rfl⟩

theorem outcome_last (s : Srv) (l : Option Str) (ms : List Msg) :
    outcome (receiveAll { s with last := l } ms) = outcome (receiveAll s ms) := by
  induction ms generalizing s l with
  | nil => rfl
  | cons m ms ih =>
    rw [receiveAll, receiveAll]
    rcases doStuff_last s l m with ⟨t, l', h1, h2⟩ | ⟨t, h1, h2⟩ | ⟨h1, h2⟩
    · rw [h1, h2]
      exact ih t l'
    · rw [h1, h2]
      rfl
    · rw [h1, h2]

theorem outcome_remember (s : Srv) (m : Msg) (ms : List Msg) :
    outcome (receiveAll (remember s m) ms) = outcome (receiveAll s ms) := by
  unfold remember
  split
  · exact outcome_last s _ ms
  · rfl

/-! ### The invariant -/

/-- What is true of every state that can be reached. -/
structure Inv (jobs : List (Ask × Ans)) (s : Sys) : Prop where
  asked : toRead s <:+ allAsked jobs
  answered : toTake s <:+ allAnswered jobs
  cli : finalMode s.cli (toRead s) = .over
  ok : s.verdict ≠ .error
  running : s.verdict = .running → outcome (receiveAll s.srv (toTake s)) = some (expected jobs)
  done : s.verdict = .done → s.srv.saved.map shown = expected jobs
  none : s.verdict = .done → toTake s = []
  last : s.mode ≠ .asking → s.cur = [] ∧ s.todo = []

theorem finished_gen (s t : Srv) (m : Msg) (h : doStuffToReceive s m = .finished t) : m.cmd = .gen := by
  unfold doStuffToReceive at h
  by_cases h0 : m.cmd = .message ∨ m.cmd = .warning
  · rw [if_pos h0] at h; exact absurd h (by simp)
  rw [if_neg h0] at h
  cases hc : s.rb.cur with
  | some x =>
    obtain ⟨cmd, path, place, content⟩ := x
    simp only [hc] at h
    by_cases h1 : m.cmd = .append
    · rw [if_pos h1] at h
      cases hb : m.buf.isEmpty <;> simp [hb] at h
    rw [if_neg h1] at h
    by_cases h2 : m.cmd = .endFile
    · rw [if_pos h2] at h; exact absurd h (by simp)
    rw [if_neg h2] at h
    by_cases h3 : m.cmd = .interrupt
    · rw [if_pos h3] at h; exact absurd h (by simp)
    rw [if_neg h3] at h
    exact absurd h (by simp)
  | none =>
    simp only [hc] at h
    by_cases h1 : m.cmd = .datapth
    · rw [if_pos h1] at h
      cases hb : PathCmp.hasDotComponent m.buf <;> simp [hb] at h
    rw [if_neg h1] at h
    by_cases h2 : m.cmd = .attribs
    · rw [if_pos h2] at h; exact absurd h (by simp)
    rw [if_neg h2] at h
    by_cases h3 : m.cmd = .gen
    · exact h3
    rw [if_neg h3] at h
    by_cases h4 : m.cmd = .interrupt
    · rw [if_pos h4] at h; exact absurd h (by simp)
    rw [if_neg h4] at h
    cases hb : m.cmd.isFiledata || m.cmd.isVssdata with
    | false => simp [hb] at h
    | true =>
      simp only [hb, if_true] at h
      cases hd : s.rb.datapth <;> simp [hd] at h

theorem announce_not_gen (r : Req) (h : r.cmd.isFiledata = true ∨ r.cmd.isVssdata = true) (m : Msg)
    (hm : m ∈ announce r) : m.cmd ≠ .gen := by
  unfold announce at hm
  simp only [List.mem_append, List.mem_cons, List.not_mem_nil, or_false] at hm
  rcases hm with hm | rfl | rfl
  · cases hd : r.datapth with
    | none => simp [hd] at hm
    | some d =>
      by_cases hf : r.cmd = .file
      · simp only [hd, hf, if_true, List.mem_singleton] at hm
        rw [hm]
        simp
      · simp [hd, hf] at hm
  · simp
  · intro e
    simp only at e
    rw [e] at h
    simp [Cmd.isFiledata, Cmd.isVssdata] at h

theorem noise_not_gen {m : Msg} (h : Noise m) : m.cmd ≠ .gen := by
  rcases h with h | h <;> simp [h]

theorem body_not_gen {b : List Msg × SendRes} (h : SentWhole b ∨ SentPart b) (m : Msg) (hm : m ∈ b.1) :
    m.cmd ≠ .gen := by
  by_cases hn : Noise m
  · exact noise_not_gen hn
  have hw : m ∈ withoutNoise b.1 := by
    unfold withoutNoise
    rw [List.mem_filter]
    exact ⟨hm, by simpa using hn⟩
  rcases h with ⟨_, pre, e, h2, h3, h4⟩ | ⟨_, h2⟩
  · rw [h2] at hw
    rcases List.mem_append.1 hw with h | h
    · rw [(h3 m h).1]; simp
    · rw [List.mem_singleton.1 h, h4]; simp
  · rw [(h2 m hw).1]; simp

theorem answer_not_gen (j : Ask × Ans) (hj : JobFine j) (m : Msg) (hm : m ∈ answer j) : m.cmd ≠ .gen := by
  obtain ⟨hf, hw, hb, _⟩ := hj
  rcases List.mem_append.1 hm with h | h
  · exact noise_not_gen (hw m h)
  · unfold dataMsgs at h
    cases hbody : j.2.body with
    | none =>
      simp only [hbody, List.mem_singleton] at h
      rw [h]
      simp
    | some b =>
      simp only [hbody] at h
      rcases List.mem_append.1 h with h | h
      · rcases List.mem_append.1 h with h | h
        · exact announce_not_gen _ hf.1 m h
        · refine body_not_gen ?_ m h
          rcases hb b hbody with h | h
          · exact .inl h
          · exact .inr h.1
      · by_cases he : b.2 = .error
        · simp only [he, if_true, List.mem_singleton] at h
          rw [h]
          simp
        · simp [he] at h

/-- The answer to the end of the requests is the last message to the server. -/
theorem gen_last (jobs : List (Ask × Ans)) (hj : ∀ j ∈ jobs, JobFine j) (m : Msg) (rest : List Msg)
    (hs : m :: rest <:+ allAnswered jobs) (hm : m.cmd = .gen) : rest = [] := by
  obtain ⟨p, hp⟩ := hs
  unfold allAnswered at hp
  by_cases hr : rest = []
  · exact hr
  · exfalso
    obtain ⟨r', x, rfl⟩ : ∃ r' x, rest = r' ++ [x] := by
      refine ⟨rest.dropLast, rest.getLast hr, ?_⟩
      exact (List.dropLast_concat_getLast hr).symm
    have : (p ++ m :: r') ++ [x] = jobs.flatMap answer ++ [okMsg] := by simpa using hp
    have := (List.append_inj' this rfl).1
    have hmem : m ∈ jobs.flatMap answer := by rw [← this]; simp
    obtain ⟨j, h1, h2⟩ := List.mem_flatMap.1 hmem
    exact answer_not_gen j (hj j h1) m h2 hm

theorem inv_step (room : Room) (jobs : List (Ask × Ans)) (hj : ∀ j ∈ jobs, JobFine j) {s t : Sys} (hi : Inv jobs s)
    (h : Step room s t) : Inv jobs t := by
  -- steps of the server that leave what is to be read as it is
  have same : ∀ u : Sys, toRead u = toRead s → u.up = s.up → u.cout = s.cout → u.cli = s.cli →
      u.verdict = s.verdict → u.srv.saved = s.srv.saved →
      (∀ ms, outcome (receiveAll u.srv ms) = outcome (receiveAll s.srv ms)) →
      (u.mode ≠ .asking → u.cur = [] ∧ u.todo = []) → Inv jobs u := by
    intro u h1 h2 h3 h4 h5 h6 h7 h8
    have ht : toTake u = toTake s := by unfold toTake; rw [h1, h2, h3, h4]
    exact ⟨h1 ▸ hi.asked, ht ▸ hi.answered, by rw [h4, h1]; exact hi.cli, by rw [h5]; exact hi.ok,
      fun hv => by rw [h7, ht]; exact hi.running (h5 ▸ hv), fun hv => by rw [h6]; exact hi.done (h5 ▸ hv),
      fun hv => by rw [ht]; exact hi.none (h5 ▸ hv), h8⟩
  cases h with
  | next a as hv hm hc ht =>
    exact same _ (by simp [toRead, hm, hc, ht]) rfl rfl rfl rfl rfl (fun _ => rfl) (fun h => absurd hm h)
  | last hv hm hc ht =>
    exact same _ (by simp [toRead, hm, hc, ht]) rfl rfl rfl rfl rfl (fun _ => rfl) (fun _ => ⟨hc, ht⟩)
  | send m ms hv hm hc hf =>
    refine same _ (by simp [toRead, hm, hc]) rfl rfl rfl rfl ?_ (fun _ => outcome_remember _ _ _)
      (fun h => absurd hm h)
    unfold remember
    split <;> rfl
  | sendEnd hv hm hf =>
    exact same _ (by simp [toRead, hm]) rfl rfl rfl rfl rfl (fun _ => rfl)
      (fun _ => hi.last (by rw [hm]; decide))
  | flush m ms hv ho hc =>
    exact same _ (by simp [toRead, ho]) rfl rfl rfl rfl rfl (fun _ => rfl) hi.last
  | receive m ms hv hr hu =>
    have htt : toTake s = m :: (ms ++ (s.cout ++ future s.cli (toRead s))) := by
      unfold toTake; rw [hu]; rfl
    have hrun := hi.running hv
    rw [htt, receiveAll] at hrun
    have hsuf := hi.answered
    rw [htt] at hsuf
    have hsuf' := (List.suffix_cons m _).trans hsuf
    unfold take
    simp only
    cases hd : doStuffToReceive s.srv m with
    | ok t =>
      rw [hd] at hrun
      exact ⟨hi.asked, hsuf', hi.cli, hi.ok, fun _ => hrun, fun hv' => by simp [hv] at hv',
        fun hv' => by simp [hv] at hv', hi.last⟩
    | finished t =>
      rw [hd] at hrun
      exact ⟨hi.asked, hsuf', hi.cli, by simp, fun h => by simp at h, fun _ => by simpa [outcome] using hrun,
        fun _ => gen_last jobs hj m _ hsuf (finished_gen _ _ _ hd), hi.last⟩
    | error =>
      rw [hd] at hrun
      exact absurd hrun (by simp [outcome])
  | read m ms hp h1 h2 hd =>
    have hr : toRead s = m :: toRead { s with down := ms, cli := cliRead s.cli m } := by
      simp [toRead, hd]
    have hc : { s.cli with pend := [] } = s.cli := by
      rw [← hp]
    have ht : toTake { s with down := ms, cli := cliRead s.cli m } = toTake s := by
      simp only [toTake]
      rw [hr, future, hp, hc]
      rfl
    refine ⟨(List.suffix_cons m _).trans (hr ▸ hi.asked), ht ▸ hi.answered, ?_, hi.ok, fun hv => ?_, hi.done,
      fun hv => by rw [ht]; exact hi.none hv, hi.last⟩
    · have := hi.cli
      rw [hr, finalMode, hc] at this
      exact this
    · rw [ht]; exact hi.running hv
  | write m ms hp hf =>
    have ht : toTake { s with cli := { s.cli with pend := ms }, cout := s.cout ++ [m] } = toTake s := by
      have e : toRead { s with cli := { s.cli with pend := ms }, cout := s.cout ++ [m] } = toRead s := rfl
      have e2 : future s.cli (toRead s) = m :: ms ++ future { s.cli with pend := [] } (toRead s) := by
        rw [← future_pend, ← hp]
      simp only [toTake]
      rw [e, future_pend, e2]
      simp
    refine ⟨hi.asked, ht ▸ hi.answered, ?_, hi.ok, fun hv => by rw [ht]; exact hi.running hv, hi.done,
      fun hv => by rw [ht]; exact hi.none hv, hi.last⟩
    have e : toRead { s with cli := { s.cli with pend := ms }, cout := s.cout ++ [m] } = toRead s := rfl
    simp only
    rw [e, finalMode_pend, ← finalMode_pend s.cli s.cli.pend]
    exact hi.cli
  | cflush m ms hc hu =>
    have ht : toTake { s with cout := ms, up := s.up ++ [m] } = toTake s := by
      have e : toRead { s with cout := ms, up := s.up ++ [m] } = toRead s := rfl
      simp only [toTake]
      rw [e, hc]
      simp
    exact ⟨hi.asked, ht ▸ hi.answered, hi.cli, hi.ok, fun hv => by rw [ht]; exact hi.running hv, hi.done,
      fun hv => by rw [ht]; exact hi.none hv, hi.last⟩

theorem inv_steps (room : Room) (jobs : List (Ask × Ans)) (hj : ∀ j ∈ jobs, JobFine j) {n : Nat} {s t : Sys}
    (h : Steps room n s t) (hi : Inv jobs s) : Inv jobs t := by
  induction h with
  | refl s => exact hi
  | step _ hs ih => exact inv_step room jobs hj (ih hi) hs

/-! ### The client answers every request -/

/-- A client that waits for a request. -/
def waiting (as : List Ans) : Cli := ⟨.idle, none, as, []⟩

theorem read_sig_delta (sig : List Str) (path : Str) (after : List Msg) (as : List Ans) (p ms : List Msg) :
    future ⟨.delta path after true, none, as, p⟩
      (sig.map (fun x => ⟨.append, x⟩) ++ ⟨.endFile, bytes "endfile"⟩ :: ms) =
        p ++ (after ++ future (waiting as) ms) ∧
    finalMode ⟨.delta path after true, none, as, p⟩
      (sig.map (fun x => ⟨.append, x⟩) ++ ⟨.endFile, bytes "endfile"⟩ :: ms) = finalMode (waiting as) ms := by
  induction sig generalizing p with
  | nil =>
    simp only [List.map_nil, List.nil_append, future, finalMode]
    have e : cliRead ⟨.delta path after true, none, as, []⟩ ⟨.endFile, bytes "endfile"⟩ =
        { waiting as with pend := after } := rfl
    rw [e, future_pend, finalMode_pend]
    exact ⟨rfl, rfl⟩
  | cons x sig ih =>
    simp only [List.map_cons, List.cons_append, future, finalMode]
    have e : cliRead ⟨.delta path after true, none, as, []⟩ ⟨.append, x⟩ = ⟨.delta path after true, none, as, []⟩ :=
      rfl
    rw [e]
    have := ih []
    rw [this.1, this.2]
    exact ⟨rfl, rfl⟩

theorem read_sig_munch (sig : List Str) (as : List Ans) (p ms : List Msg) :
    future ⟨.munch, none, as, p⟩ (sig.map (fun x => ⟨.append, x⟩) ++ ⟨.endFile, bytes "endfile"⟩ :: ms) =
        p ++ future (waiting as) ms ∧
    finalMode ⟨.munch, none, as, p⟩ (sig.map (fun x => ⟨.append, x⟩) ++ ⟨.endFile, bytes "endfile"⟩ :: ms) =
      finalMode (waiting as) ms := by
  induction sig generalizing p with
  | nil =>
    simp only [List.map_nil, List.nil_append, future, finalMode]
    exact ⟨rfl, rfl⟩
  | cons x sig ih =>
    simp only [List.map_cons, List.cons_append, future, finalMode]
    have e : cliRead ⟨.munch, none, as, []⟩ ⟨.append, x⟩ = ⟨.munch, none, as, []⟩ := rfl
    rw [e]
    have := ih []
    rw [this.1, this.2]
    exact ⟨rfl, rfl⟩

theorem read_path (c : Cli) (hm : c.mode = .idle) (cmd : Cmd) (path : Str)
    (h : cmd.isFiledata = true ∨ cmd.isVssdata = true) : cliRead c ⟨cmd, path⟩ = dealWith c cmd path := by
  have h0 : ¬ (Msg.mk cmd path = endMsg) := by
    intro he
    have : cmd = .gen := congrArg Msg.cmd he
    subst this
    simp [Cmd.isFiledata, Cmd.isVssdata] at h
  have h1 : ¬ cmd = .datapth := by intro e; subst e; simp [Cmd.isFiledata, Cmd.isVssdata] at h
  have h2 : ¬ cmd = .attribs := by intro e; subst e; simp [Cmd.isFiledata, Cmd.isVssdata] at h
  have h3 : (cmd.isFiledata || cmd.isVssdata) = true := by simpa using h
  unfold cliRead
  rw [hm]
  simp only [h0, h1, h2, h3, if_false, if_true]

/-- One request. -/
theorem future_job (j : Ask × Ans) (hj : JobFine j) (as : List Ans) (ms : List Msg) :
    future (waiting (j.2 :: as)) (askMsgs j.1 ++ ms) = answer j ++ future (waiting as) ms ∧
    finalMode (waiting (j.2 :: as)) (askMsgs j.1 ++ ms) = finalMode (waiting as) ms := by
  obtain ⟨⟨cmd, path, attr, old⟩, ⟨cattr, warns, body⟩⟩ := j
  obtain ⟨⟨h1, h2, _, _⟩, _, h3, _⟩ := hj
  simp only at h1 h2 h3
  have attrMsg : ∀ c : Cli, c.mode = .idle → cliRead c ⟨.attribs, attr⟩ = c := by
    intro c hc
    have : ¬ (Msg.mk .attribs attr = endMsg) := by
      intro e
      exact absurd (show Cmd.attribs = .gen from congrArg Msg.cmd e) (by decide)
    unfold cliRead
    rw [hc]
    simp only [this, if_false, reduceCtorEq, if_true]
  cases old with
  | none =>
    have e1 : askMsgs ⟨cmd, path, attr, none⟩ ++ ms = ⟨.attribs, attr⟩ :: ⟨cmd, path⟩ :: ms := rfl
    simp only [e1, waiting, future, finalMode]
    rw [attrMsg _ rfl, read_path _ rfl _ _ h1]
    cases body with
    | none =>
      have e2 : dealWith ⟨.idle, none, ⟨cattr, warns, none⟩ :: as, []⟩ cmd path =
          { waiting as with pend := warns ++ [⟨.interrupt, path⟩] } := by
        simp [dealWith, waiting]
      simp only [e2]
      rw [future_pend, finalMode_pend]
      exact ⟨rfl, rfl⟩
    | some b =>
      obtain ⟨bm, res⟩ := b
      rcases h3 _ rfl with h | h
      · have hr : res = .ok := h.1
        subst hr
        have e2 : dealWith ⟨.idle, none, ⟨cattr, warns, some (bm, .ok)⟩ :: as, []⟩ cmd path =
            { waiting as with pend := warns ++ (announce ⟨cmd, path, cattr, none⟩ ++ bm) } := by
          simp [dealWith, waiting]
        simp only [e2]
        rw [future_pend, finalMode_pend]
        refine ⟨?_, rfl⟩
        simp only [answer, dataMsgs, req, Option.map_none, reduceCtorEq, if_false, List.append_nil]
        rfl
      · have hr : res = .error := h.1.1
        subst hr
        have e2 : dealWith ⟨.idle, none, ⟨cattr, warns, some (bm, .error)⟩ :: as, []⟩ cmd path =
            { waiting as with
              pend := warns ++ (announce ⟨cmd, path, cattr, none⟩ ++ bm ++ [⟨.interrupt, path⟩]) } := by
          simp [dealWith, waiting]
        simp only [e2]
        rw [future_pend, finalMode_pend]
        refine ⟨?_, rfl⟩
        simp only [answer, dataMsgs, req, Option.map_none, if_true]
        rfl
  | some o =>
    obtain ⟨d, sig⟩ := o
    have hf : cmd = .file := h2 rfl
    subst hf
    have e1 : askMsgs ⟨.file, path, attr, some (d, sig)⟩ ++ ms =
        ⟨.datapth, d⟩ :: ⟨.attribs, attr⟩ :: ⟨.file, path⟩ ::
          (sig.map (fun x => ⟨.append, x⟩) ++ ⟨.endFile, bytes "endfile"⟩ :: ms) := by
      simp [askMsgs]
    have e0 : ∀ c : Cli, c.mode = .idle → cliRead c ⟨.datapth, d⟩ = { c with datapth := some d } := by
      intro c hc
      have : ¬ (Msg.mk .datapth d = endMsg) := by
        intro e
        exact absurd (show Cmd.datapth = .gen from congrArg Msg.cmd e) (by decide)
      unfold cliRead
      rw [hc]
      simp only [this, if_false, if_true]
    simp only [e1, waiting, future, finalMode]
    rw [e0 _ rfl]
    simp only
    rw [attrMsg _ rfl]
    rw [read_path _ rfl _ _ h1]
    cases body with
    | none =>
      have e2 : dealWith ⟨.idle, some d, ⟨cattr, warns, none⟩ :: as, []⟩ .file path =
          ⟨.munch, none, as, warns ++ [⟨.interrupt, path⟩]⟩ := by
        simp [dealWith]
      rw [e2, (read_sig_munch _ _ _ _).1, (read_sig_munch _ _ _ _).2]
      exact ⟨rfl, rfl⟩
    | some b =>
      obtain ⟨bm, res⟩ := b
      rcases h3 _ rfl with h | h
      · have hr : res = .ok := h.1
        subst hr
        have e2 : dealWith ⟨.idle, some d, ⟨cattr, warns, some (bm, .ok)⟩ :: as, []⟩ .file path =
            ⟨.delta path bm true, none, as, warns ++ announce ⟨.file, path, cattr, some d⟩⟩ := by
          simp [dealWith]
        rw [e2, (read_sig_delta _ _ _ _ _ _).1, (read_sig_delta _ _ _ _ _ _).2]
        refine ⟨?_, rfl⟩
        simp only [answer, dataMsgs, req, Option.map_some, reduceCtorEq, if_false, List.append_nil, List.append_assoc]
        rfl
      · exact absurd h.2 (by simp)

theorem future_jobs (jobs : List (Ask × Ans)) (hj : ∀ j ∈ jobs, JobFine j) :
    future (waiting (jobs.map (·.2))) (allAsked jobs) = allAnswered jobs ∧
    finalMode (waiting (jobs.map (·.2))) (allAsked jobs) = .over := by
  induction jobs with
  | nil => exact ⟨rfl, rfl⟩
  | cons j jobs ih =>
    have := future_job j (hj j (by simp)) (jobs.map (·.2)) (allAsked jobs)
    obtain ⟨i1, i2⟩ := ih (fun x hx => hj x (by simp [hx]))
    have e : allAsked (j :: jobs) = askMsgs j.1 ++ allAsked jobs := by simp [allAsked]
    have e' : allAnswered (j :: jobs) = answer j ++ allAnswered jobs := by simp [allAnswered]
    rw [e, e', List.map_cons, this.1, this.2, i1, i2]
    exact ⟨rfl, rfl⟩

/-- What the server makes of the answers. -/
theorem receive_answers (jobs : List (Ask × Ans)) (hj : ∀ j ∈ jobs, JobFine j) :
    outcome (receiveAll {} (allAnswered jobs)) = some (expected jobs) := by
  have key : ∀ (jobs : List (Ask × Ans)), (∀ j ∈ jobs, JobFine j) →
      withoutNoise (jobs.flatMap answer) = withoutNoise (jobs.flatMap (fun j => dataMsgs (req j) j.2.body)) := by
    intro jobs hj
    induction jobs with
    | nil => rfl
    | cons j jobs ih =>
      rw [List.flatMap_cons, List.flatMap_cons, withoutNoise_append, withoutNoise_append,
        ih (fun x hx => hj x (by simp [hx])), answer, withoutNoise_append]
      have : withoutNoise j.2.warns = [] := by
        unfold withoutNoise
        rw [List.filter_eq_nil_iff]
        intro m hm
        simpa using (hj j (by simp)).2.1 m hm
      rw [this]
      rfl
  obtain ⟨s', a1, a2, a3, _⟩ := C50_backup_partial (jobs.map (fun j => (req j, j.2.body))) {} rfl (by
    intro x hx
    obtain ⟨j, hjm, rfl⟩ := List.mem_map.1 hx
    obtain ⟨⟨f1, f2, f3, _⟩, _, h3, _⟩ := hj j hjm
    refine ⟨⟨f1, ?_⟩, ?_⟩
    · intro d hd
      simp only [req] at hd
      obtain ⟨o, ho, rfl⟩ := Option.map_eq_some_iff.1 hd
      exact f3 o ho
    · intro b hb
      rcases h3 b hb with h | h
      · exact .inl h
      · exact .inr h.1)
  rw [List.flatMap_map] at a1
  have e : receiveAll {} (allAnswered jobs) = receiveAll s' [okMsg] := by
    rw [allAnswered, receiveAll_noise, withoutNoise_append, key jobs hj, ← withoutNoise_append, ← receiveAll_noise,
      receiveAll_append _ _ _ _ a1]
  rw [e, receiveAll]
  have e2 : doStuffToReceive s' okMsg = .finished s' := by
    unfold doStuffToReceive
    rw [a2]
    rfl
  rw [e2]
  simp only [outcome]
  rw [a3]
  simp only [List.map_nil, List.nil_append, expected, List.filterMap_map]
  rfl

theorem inv_begin (jobs : List (Ask × Ans)) (hj : ∀ j ∈ jobs, JobFine j) : Inv jobs (begin_ jobs) := by
  have e : toRead (begin_ jobs) = allAsked jobs := by
    simp [toRead, begin_, allAsked, List.flatMap_map]
  have ef := future_jobs jobs hj
  have et : toTake (begin_ jobs) = allAnswered jobs := by
    rw [toTake, e]
    exact ef.1
  exact ⟨e ▸ List.suffix_refl _, et ▸ List.suffix_refl _, by rw [e]; exact ef.2, by simp [begin_],
    fun _ => by rw [et]; exact receive_answers jobs hj, fun h => by simp [begin_] at h,
    fun h => by simp [begin_] at h, fun h => absurd rfl h⟩

/-! ### Sizes -/

theorem load_append (a b : List Msg) : load (a ++ b) = load a + load b := by simp [load]

theorem load_suffix {a b : List Msg} (h : a <:+ b) : load a ≤ load b := by
  obtain ⟨p, rfl⟩ := h
  rw [load_append]
  omega

theorem fits_nil (m : Msg) (h : Small m) : fits [] m := by
  unfold fits Small at *
  simp only [load, List.map_nil, List.sum_nil]
  omega

theorem small_asked (jobs : List (Ask × Ans)) (hj : ∀ j ∈ jobs, JobFine j) (m : Msg) (h : m ∈ allAsked jobs) :
    Small m := by
  simp only [allAsked, List.mem_append, List.mem_flatMap, List.mem_singleton] at h
  rcases h with ⟨j, h1, h2⟩ | rfl
  · exact (hj j h1).1.2.2.2 m h2
  · unfold Small; decide

theorem small_answered (jobs : List (Ask × Ans)) (hj : ∀ j ∈ jobs, JobFine j) (m : Msg)
    (h : m ∈ allAnswered jobs) : Small m := by
  simp only [allAnswered, List.mem_append, List.mem_flatMap, List.mem_singleton] at h
  rcases h with ⟨j, h1, h2⟩ | rfl
  · exact (hj j h1).2.2.2 m h2
  · unfold Small; decide

/-! ### A state without steps -/

theorem stuck_cases (room : Room) (jobs : List (Ask × Ans)) (hj : ∀ j ∈ jobs, JobFine j) (s : Sys)
    (hi : Inv jobs s) (hs : Stuck room s) : s.verdict = .done ∨ Stalled room s := by
  cases hv : s.verdict with
  | done => exact .inl rfl
  | error => exact absurd hv hi.ok
  | running =>
  right
  have mem_take : ∀ m, m ∈ toTake s → Small m := fun m hm =>
    small_answered jobs hj m (hi.answered.subset hm)
  have mem_read : ∀ m, m ∈ toRead s → Small m := fun m hm =>
    small_asked jobs hj m (hi.asked.subset hm)
  have hpend : ∀ m ms, s.cli.pend = m :: ms → ¬ fits s.cout m := fun m ms h hf => hs _ (.write s m ms h hf)
  have hcout : ∀ m ms, s.cout = m :: ms → ¬ carries room.up s.up m := fun m ms h hc => hs _ (.cflush s m ms h hc)
  have hout : ∀ m ms, s.out = m :: ms → ¬ carries room.down s.down m := fun m ms h hc =>
    hs _ (.flush s m ms hv h hc)
  have pend_future : ∀ ms, s.cli.pend = ms → ∀ m ∈ ms, m ∈ toTake s := by
    intro ms h m hm
    have : future s.cli (toRead s) = s.cli.pend ++ future { s.cli with pend := [] } (toRead s) := by
      rw [← future_pend]
    simp only [toTake, this, List.mem_append]
    exact .inr (.inr (.inl (h ▸ hm)))
  -- if the client has to write, the way to the server is full
  have full : s.cli.pend ≠ [] → s.cout ≠ [] := by
    intro h
    obtain ⟨m, ms, e⟩ := List.exists_cons_of_ne_nil h
    intro hc
    have := hpend m ms e
    rw [hc] at this
    exact this (fits_nil m (mem_take m (pend_future _ e m (by simp))))
  have upFull : s.cout ≠ [] → s.up ≠ [] := by
    intro h hu
    obtain ⟨m, ms, e⟩ := List.exists_cons_of_ne_nil h
    exact hcout m ms e (.inl hu)
  -- if there is something for the client to read, it is writing
  have busy : s.down ≠ [] → s.cli.pend ≠ [] := by
    intro h hp
    obtain ⟨m, ms, e⟩ := List.exists_cons_of_ne_nil h
    refine hs _ (.read s m ms hp ?_ ?_ e)
    · intro ho
      have := finalMode_over _ ho _ hi.cli
      simp [toRead, e] at this
    · intro hf
      have := hi.cli
      rw [finalMode_failed _ hf] at this
      exact absurd this (by decide)
  have downFull : s.out ≠ [] → s.down ≠ [] := by
    intro h hd
    obtain ⟨m, ms, e⟩ := List.exists_cons_of_ne_nil h
    exact hout m ms e (.inl hd)
  have noRead : reads s → s.up = [] := by
    intro h
    cases hu : s.up with
    | nil => rfl
    | cons m ms => exact absurd (Step.receive s m ms hv h hu) (hs _)
  cases hm : s.mode with
  | asking =>
    exfalso
    cases hc : s.cur with
    | nil =>
      cases ht : s.todo with
      | nil => exact hs _ (.last s hv hm hc ht)
      | cons a as => exact hs _ (.next s a as hv hm hc ht)
    | cons m ms =>
      have hnf : ¬ fits s.out m := fun hf => hs _ (.send s m ms hv hm hc hf)
      have ho : s.out ≠ [] := by
        intro ho
        rw [ho] at hnf
        exact hnf (fits_nil m (mem_read m (by simp [toRead, hm, hc])))
      have hr : reads s := ⟨.inr (.inl ho), by rw [hm]; decide⟩
      exact upFull (full (busy (downFull ho))) (noRead hr)
  | ending =>
    have hnf : ¬ fits s.out endMsg := fun hf => hs _ (.sendEnd s hv hm hf)
    have ho : s.out ≠ [] := by
      intro ho
      rw [ho] at hnf
      exact hnf (by decide)
    have hp := busy (downFull ho)
    have hc := full hp
    obtain ⟨m1, l1, e1⟩ := List.exists_cons_of_ne_nil ho
    obtain ⟨m2, l2, e2⟩ := List.exists_cons_of_ne_nil hp
    obtain ⟨m3, l3, e3⟩ := List.exists_cons_of_ne_nil hc
    exact ⟨hv, hm, hnf, ⟨m1, l1, e1, hout _ _ e1⟩, ⟨m2, l2, e2, hpend _ _ e2⟩, ⟨m3, l3, e3, hcout _ _ e3⟩⟩
  | ended =>
    exfalso
    have hr : reads s := ⟨.inr (.inr hm), by rw [hm]; decide⟩
    have hu := noRead hr
    have hc : s.cout = [] := by
      by_cases h : s.cout = []
      · exact h
      · exact absurd hu (upFull h)
    have hp : s.cli.pend = [] := by
      by_cases h : s.cli.pend = []
      · exact h
      · exact absurd hc (full h)
    have hd : s.down = [] := by
      by_cases h : s.down = []
      · exact h
      · exact absurd hp (busy h)
    have ho : s.out = [] := by
      by_cases h : s.out = []
      · exact h
      · exact absurd hd (downFull h)
    have e : toTake s = [] := by
      simp [toTake, toRead, hu, hc, hd, ho, hm, future, hp]
    have := hi.running hv
    rw [e] at this
    exact absurd this (by simp [receiveAll, outcome])

end Verif.Exchange
