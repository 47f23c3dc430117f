import Verif.Lemmas.RunScript

/-!
# C110: what a script prints is logged in whole, and its exit code is the one that counts
-/

namespace Verif
open Verif.Iobuf Verif.RunScript

/-- C110: when a script has been run, what burp has read from each of its two pipes is all that was written to it,
in order, however the writes and the reads fall. -/
theorem C110_output (got : Bool) (status : Nat) (evs : List Ev)
    (h : (RunScript.run (start got status) evs).result = .finished) (err : Bool) :
    text err (RunScript.run (start got status) evs) = written err evs := by
  have hf := closed_run evs _ (by simp [start]) h
  have hc : ((RunScript.run (start got status) evs).stream err).isOpen = false := by
    cases err
    · exact hf.1
    · exact hf.2
  have h1 := text_run (start got status) evs err
  rw [(ok_run (ok_start _ _) evs err hc).2] at h1
  cases err <;> simpa [start, State.stream, text, piecesOf] using h1

/-- C110: at any moment, what burp has read from a pipe is a beginning of what was written to it. -/
theorem C110_so_far (got : Bool) (status : Nat) (evs : List Ev) (err : Bool) :
    text err (RunScript.run (start got status) evs) <+: written err evs := by
  have h1 := text_run (start got status) evs err
  refine ⟨_, h1.trans ?_⟩
  cases err <;> simp [start, State.stream, text, piecesOf]

/-- C110: text without NUL comes into the buffer that is given to the notification script as it was read: if the
script writes to one pipe only, the buffer is what it wrote. -/
theorem C110_buffer (status : Nat) (evs : List Ev)
    (h : (RunScript.run (start false status) evs).result = .finished) (hn : NoNul (written false evs))
    (he : written true evs = []) :
    (RunScript.run (start false status) evs).buffer = written false evs := by
  have ho := C110_output false status evs h false
  have hx := C110_output false status evs h true
  rw [he] at hx
  have hp := pieces_run (start false status) evs true (by simp [start, piecesOf])
  generalize RunScript.run (start false status) evs = s at *
  have hnone : ∀ p ∈ s.pieces, p.1 = false := by
    intro p hp'
    cases hb : p.1
    · rfl
    · exfalso
      have hm : p.2 ∈ piecesOf true s := List.mem_map.2 ⟨p, List.mem_filter.2 ⟨hp', by simp [hb]⟩, rfl⟩
      have hne := (hp p.2 hm).1
      unfold text at hx
      exact hne (List.flatten_eq_nil_iff.1 hx _ hm)
  have hall : piecesOf false s = s.pieces.map (·.2) := by
    unfold piecesOf
    congr 1
    exact List.filter_eq_self.2 (fun p hp' => by rw [hnone p hp']; rfl)
  unfold State.buffer
  rw [← ho]
  unfold text
  rw [hall]
  congr 1
  apply List.map_congr_left
  intro p hp'
  apply ConfFiles.cstr_self
  intro h0
  apply hn
  rw [← ho]
  unfold text
  exact List.mem_flatten.2 ⟨p.2, by rw [hall]; exact List.mem_map.2 ⟨p, hp', rfl⟩, h0⟩

/-- C110: and if it writes to both, the buffer is a shuffle of what it wrote to the one and to the other. -/
theorem C110_buffer_both (status : Nat) (evs : List Ev)
    (h : (RunScript.run (start false status) evs).result = .finished) (hn : ∀ e, NoNul (written e evs)) :
    ∃ ps : List (Bool × Str), (RunScript.run (start false status) evs).buffer = (ps.map (·.2)).flatten
      ∧ ∀ e, ((ps.filter (·.1 == e)).map (·.2)).flatten = written e evs := by
  refine ⟨(RunScript.run (start false status) evs).pieces, ?_, fun e => C110_output false status evs h e⟩
  unfold State.buffer
  congr 1
  apply List.map_congr_left
  intro p hp
  apply ConfFiles.cstr_self
  intro h0
  apply hn p.1
  rw [← C110_output false status evs h p.1]
  unfold text piecesOf
  exact List.mem_flatten.2 ⟨p.2, List.mem_map.2 ⟨p, List.mem_filter.2 ⟨hp, by simp⟩, rfl⟩, h0⟩

/-- C110: a `select` that fails while burp waits makes the script a failure, and nothing else ends the waiting
early. -/
theorem C110_error (got : Bool) (status : Nat) (evs : List Ev) :
    ((RunScript.run (start got status) evs).result = .waiting →
        returned (RunScript.run (start got status) (evs ++ [.turn .failed])) = some (-1))
    ∧ ((RunScript.run (start got status) evs).result = .error → Ev.turn .failed ∈ evs) := by
  constructor
  · intro h
    have : RunScript.run (start got status) (evs ++ [.turn .failed])
        = step (RunScript.run (start got status) evs) (.turn .failed) := by
      unfold RunScript.run; rw [List.foldl_append]; rfl
    rw [this]
    simp [step, h, State.takeTurn, returned]
  · intro h
    exact error_run evs _ (by simp [start]) h

/-- C110: a script that prints whole lines of at most 255 bytes has each of them logged on its own. -/
theorem C110_lines (status : Nat) (evs : List Ev)
    (h : (RunScript.run (start false status) evs).result = .finished) (err : Bool)
    (hw : ∀ b, Ev.writes err b ∈ evs → WholeLines b) :
    piecesOf err (RunScript.run (start false status) evs) = lines (written err evs) := by
  have hf := closed_run evs _ (by simp [start]) h
  have hc : ((RunScript.run (start false status) evs).stream err).isOpen = false := by
    cases err
    · exact hf.1
    · exact hf.2
  have h1 := lines_run (start false status) evs err (by cases err <;> (intro l hl; simp [start, State.stream, lines] at hl)) hw
  rw [(ok_run (ok_start _ _) evs err hc).2] at h1
  cases err <;> simpa [start, State.stream, piecesOf, lines] using h1

/-- C110: a piece has at most 255 bytes and never goes over the end of a line. -/
theorem C110_pieces (got : Bool) (status : Nat) (evs : List Ev) (err : Bool) (p : Str)
    (h : p ∈ piecesOf err (RunScript.run (start got status) evs)) :
    p ≠ [] ∧ p.length ≤ 255 ∧ newline ∉ p.dropLast :=
  pieces_run (start got status) evs err (by simp [start, piecesOf]) p h

/-- C110: a piece without NUL is sent to the other side and put into the log as it is, a message if the script
printed it and a warning if it complained; nothing is cut off. -/
theorem C110_logged (got : Bool) (status : Nat) (evs : List Ev) (err : Bool) (p : Str)
    (h : p ∈ piecesOf err (RunScript.run (start got status) evs)) (hn : NoNul p) :
    sent (err, p) = ⟨if err then 119 else 112, p⟩
      ∧ (∀ r, logged true r (err, p) = bytes (if err then "WARNING: " else "MESSAGE: ") ++ p)
      ∧ logged false true (err, p) = bytes (if err then "WARNING: " else "MESSAGE: ") ++ p
      ∧ logged false false (err, p) = p := by
  have hl := (C110_pieces got status evs err p h).2.1
  have h1 : formatted p = p := List.take_of_length_le (by omega)
  have h2 : (bytes (if err then "WARNING: " else "MESSAGE: ")).length = 9 := by cases err <;> decide
  have h3 : ∀ w : Str, w.length = 9 → formatted (w ++ p) = w ++ p := fun w hw =>
    List.take_of_length_le (by simp; omega)
  refine ⟨?_, ?_, ?_, ?_⟩
  · simp only [sent, ConfFiles.cstr_self hn, h1]
  · intro r
    simp only [logged, ConfFiles.cstr_self hn, h1, Bool.or_true, if_true]
    exact h3 _ h2
  · simp only [logged, ConfFiles.cstr_self hn, h1, Bool.or_false, if_true]
    exact h3 _ h2
  · simp [logged, ConfFiles.cstr_self hn, h1]

/-- C110: burp does not return before the script has ended and everybody has let go of both pipes. -/
theorem C110_waits (status : Nat) (evs : List Ev)
    (h : (RunScript.run (start false status) evs).result = .finished) :
    (∃ st, Ev.ended st ∈ evs) ∧ Ev.closes false ∈ evs ∧ Ev.closes true ∈ evs := by
  have hend : ∃ st, Ev.ended st ∈ evs := by
    apply Classical.byContradiction
    intro hc
    exact (got_run (s := start false status) rfl (by simp [start]) (fun x hx => hc ⟨x, hx⟩)).2 h
  have hclosed : ∀ e, ((RunScript.run (start false status) evs).stream e).isOpen = false := by
    have := closed_run evs (start false status) (by simp [start]) h
    intro e
    cases e
    · exact this.1
    · exact this.2
  have hcl : ∀ e, Ev.closes e ∈ evs := by
    intro e
    apply Classical.byContradiction
    intro hc
    have h1 := held_run (start false status) evs e hc
    have h2 := (ok_run (ok_start false status) evs e (hclosed e)).1
    rw [h2] at h1
    cases e <;> simp [start, State.stream] at h1
  exact ⟨hend, hcl false, hcl true⟩

/-- C110: when the script has ended and everybody has let go of both pipes, burp returns after at most as many
turns as there are bytes left to read, and two. -/
theorem C110_returns (status : Nat) (evs : List Ev) (st : Nat) (he : Ev.ended st ∈ evs)
    (hc : ∀ e, Ev.closes e ∈ evs) (hw : (RunScript.run (start false status) evs).result = .waiting)
    (sels : List Sel) (hh : HonestTurns (RunScript.run (start false status) evs) sels)
    (hl : (written false evs).length + (written true evs).length + 2 < sels.length) :
    (RunScript.run (start false status) (evs ++ sels.map .turn)).result = .finished := by
  have hrun : RunScript.run (start false status) (evs ++ sels.map .turn)
      = RunScript.run (RunScript.run (start false status) evs) (sels.map .turn) := by
    unfold RunScript.run; rw [List.foldl_append]
  rw [hrun]
  refine over_turns ⟨fun e => not_held_run _ _ _ (Or.inr (hc e)), got_kept evs _ (Or.inr ⟨st, he⟩) hw⟩ hw sels hh ?_
  have hb : ∀ e, todo ((RunScript.run (start false status) evs).stream e) ≤ (written e evs).length + 1 := by
    intro e
    have h1 := congrArg List.length (text_run (start false status) evs e)
    have h2 : text e (start false status) ++ ((start false status).stream e).left
        ++ (if ((start false status).stream e).held then written e evs else []) = written e evs := by
      cases e <;> simp [start, State.stream, text, piecesOf]
    rw [h2, List.length_append] at h1
    unfold todo
    split <;> omega
  have a := hb false
  have b := hb true
  simp only [State.stream, Bool.false_eq_true, if_false, if_true] at a b
  omega

/-- C110: the exit code of the script is what burp goes by: 0 for `exit(0)`, the code for another, and an error if
a signal ended it. -/
theorem C110_code (status : Nat) (evs : List Ev)
    (h : (RunScript.run (start false status) evs).result = .finished) :
    (∀ c < 256, (∀ x, Ev.ended x ∈ evs → x = exitStatus c) →
        returned (RunScript.run (start false status) evs) = some (c : Int)
        ∧ lastWord (RunScript.run (start false status) evs) = if c = 0 then none else some (.code c))
    ∧ (∀ sig core, 0 < sig → sig < 127 → (∀ x, Ev.ended x ∈ evs → x = signalStatus sig core) →
        returned (RunScript.run (start false status) evs) = some (-1)
        ∧ lastWord (RunScript.run (start false status) evs) = some (.signal sig)) := by
  constructor
  · intro c hc he
    have hs := ((flags_run (flags_start _ status) evs he).fin h).1
    have h1 : exited (exitStatus c) = true := by
      have : exitStatus c % 128 = 0 := by unfold exitStatus; omega
      simp [exited, this]
    have h2 : exitCode (exitStatus c) = c := by unfold exitCode exitStatus; omega
    unfold returned lastWord
    rw [h, hs, h1, h2]
    simp
  · intro sig core h0 h1 he
    have hs := ((flags_run (flags_start _ status) evs he).fin h).1
    have hm : signalStatus sig core % 128 = sig := by unfold signalStatus; split <;> omega
    have h2 : exited (signalStatus sig core) = false := by simp [exited, hm]; omega
    have h3 : signaled (signalStatus sig core) = true := by simp [signaled, hm]; omega
    unfold returned lastWord
    rw [h, hs, h2, h3, hm]
    simp

/-- C110: with several scripts one after the other in one process, each waited for until it returned, the result
of each is that of its own end. -/
theorem C110_several (status : Nat) (scripts : List (List Ev))
    (hf : ∀ s ∈ RunScript.runAll false status scripts, s.result = .finished)
    (i : Nat) (evs : List Ev) (hi : scripts[i]? = some evs) (c : Nat) (hc : c < 256)
    (he : ∀ x, Ev.ended x ∈ evs → x = exitStatus c) :
    ((RunScript.runAll false status scripts)[i]?).bind returned = some (c : Int) := by
  induction scripts generalizing i status with
  | nil => simp at hi
  | cons e0 rest ih =>
    have hfin : (RunScript.run (start false status) e0).result = .finished := hf _ (by simp [RunScript.runAll])
    have hg : (RunScript.run (start false status) e0).got = false := by
      exact fin_got e0 _ (by simp [start]) hfin
    cases i with
    | zero =>
      simp only [List.getElem?_cons_zero, Option.some.injEq] at hi
      subst hi
      simp only [RunScript.runAll, List.getElem?_cons_zero, Option.bind_some]
      exact ((C110_code status e0 hfin).1 c hc he).1
    | succ i =>
      simp only [List.getElem?_cons_succ] at hi
      simp only [RunScript.runAll, List.getElem?_cons_succ, hg]
      exact ih _ (fun s hs => hf s (by simp [RunScript.runAll, hg, hs])) i hi

/-- C110: a script that complains in whole lines is counted as many warnings as it wrote lines of complaint, and
one more if it failed. -/
theorem C110_warnings (status : Nat) (evs : List Ev) (c : Nat) (hc : c < 256)
    (he : ∀ x, Ev.ended x ∈ evs → x = exitStatus c)
    (h : (RunScript.run (start false status) evs).result = .finished)
    (hw : ∀ b, Ev.writes true b ∈ evs → WholeLines b) :
    warnings (RunScript.run (start false status) evs)
      = (lines (written true evs)).length + if c = 0 then 0 else 1 := by
  unfold warnings
  rw [((C110_code status evs h).1 c hc he).2, ← C110_lines status evs h true hw]
  have : (RunScript.run (start false status) evs).pieces.filter (·.1)
      = (RunScript.run (start false status) evs).pieces.filter (·.1 == true) := by
    apply List.filter_congr
    intro p _
    cases p.1 <;> rfl
  rw [this]
  unfold piecesOf
  rw [List.length_map]
  split <;> rfl

/-- C110: a script gets its own words and then those of the configuration, all of them if they are not more
than 63. -/
theorem C110_args (args user : List Str) (h : args.length + user.length ≤ 63) :
    cmdLine args user = args ++ user := by
  rw [cmdLine_eq]
  exact List.take_of_length_le (by simpa using h)

/-! ## A script that meets the hypotheses -/

/-- A script that prints a line in two parts, complains, and ends with code 3; it lets go of its pipes. -/
def scriptDay : List Ev :=
  [.turn (.ready false false), .writes false (bytes "one\ntw"), .turn (.ready true false), .writes true (bytes "oh\n"),
    .turn (.ready true true), .writes false (bytes "o\n"), .closes false, .ended (exitStatus 3), .turn .interrupted,
    .closes true]

/-- The turns that follow. -/
def scriptEvening : List Sel := List.replicate 14 (.ready true true)

example : (RunScript.run (start false 7) scriptDay).result = .waiting
    ∧ (RunScript.run (start false 7) (scriptDay ++ scriptEvening.map .turn)).result = .finished
    ∧ (RunScript.run (start false 7) (scriptDay ++ scriptEvening.map .turn)).pieces
      = [(false, bytes "one\n"), (false, bytes "tw"), (true, bytes "oh\n"), (false, bytes "o\n")]
    ∧ returned (RunScript.run (start false 7) (scriptDay ++ scriptEvening.map .turn)) = some 3
    ∧ warnings (RunScript.run (start false 7) (scriptDay ++ scriptEvening.map .turn)) = 2 := by decide +kernel

theorem scriptEvening_honest : HonestTurns (RunScript.run (start false 7) scriptDay) scriptEvening := by
  have : ∀ (n : Nat) (s : State), HonestTurns s (List.replicate n (.ready true true)) := by
    intro n
    induction n with
    | zero => intro s; trivial
    | succ n ih => intro s; exact ⟨⟨fun _ => rfl, fun _ => rfl⟩, ih _⟩
  exact this 14 _

example : (RunScript.run (start false 7) (scriptDay ++ scriptEvening.map .turn)).result = .finished :=
  C110_returns 7 scriptDay (exitStatus 3) (by decide) (by decide) (by decide +kernel) scriptEvening
    scriptEvening_honest (by decide)

example : text false (RunScript.run (start false 7) (scriptDay ++ scriptEvening.map .turn)) = bytes "one\ntwo\n" :=
  C110_output false 7 (scriptDay ++ scriptEvening.map .turn) (by decide +kernel) false

example : WholeLines (bytes "oh\n") ∧ ¬ WholeLines (bytes "one\ntw") := by
  unfold WholeLines
  decide

/-! ## What does not hold -/

/-- C110 fails for a script that leaves something running which holds its output: the script has ended, and burp
waits for the other for ever. -/
theorem C110_background_violated (sels : List Sel) (hf : Sel.failed ∉ sels) (status : Nat) :
    (RunScript.run (start false status)
      ([.writes false (bytes "started\n"), .closes true, .ended (exitStatus 0)] ++ sels.map .turn)).result
      = .waiting := by
  have hrun : RunScript.run (start false status)
      ([.writes false (bytes "started\n"), .closes true, .ended (exitStatus 0)] ++ sels.map .turn)
      = RunScript.run (RunScript.run (start false status)
          [.writes false (bytes "started\n"), .closes true, .ended (exitStatus 0)]) (sels.map .turn) := by
    unfold RunScript.run; rw [List.foldl_append]
  rw [hrun]
  exact held_waits sels _ rfl rfl (ok_run (ok_start _ _) _) hf

/-- C110 fails for output with a NUL byte: what follows it in the line is neither logged nor sent. -/
theorem C110_nul_violated :
    (RunScript.run (start false 0)
      [.writes false [97, 0, 98, newline], .closes false, .closes true, .ended (exitStatus 0),
        .turn (.ready true true), .turn (.ready true true)]).result = .finished
    ∧ (RunScript.run (start false 0)
      [.writes false [97, 0, 98, newline], .closes false, .closes true, .ended (exitStatus 0),
        .turn (.ready true true), .turn (.ready true true)]).buffer = [97]
    ∧ (sent (false, [97, 0, 98, newline])).buf = [97] := by decide +kernel

/-- C110 fails for a line of more than 255 bytes: it is logged in pieces, each with its own beginning. -/
theorem C110_long_line_violated :
    piecesOf false (RunScript.run (start false 0)
      [.writes false (List.replicate 255 97 ++ [newline]), .closes false, .closes true, .ended (exitStatus 0),
        .turn (.ready true true), .turn (.ready true true), .turn (.ready true true)])
      = [List.replicate 255 97, [newline]] := by decide +kernel

/-- C110 fails for a script with more than 63 words on its command line: the rest are left out without a word. -/
theorem C110_args_violated (args user : List Str) (h : 63 < args.length + user.length) :
    cmdLine args user ≠ args ++ user ∧ (cmdLine args user).length = 63 := by
  rw [cmdLine_eq]
  have hl : ((args ++ user).take 63).length = 63 := by rw [List.length_take, List.length_append]; omega
  exact ⟨fun hc => by have := congrArg List.length hc; rw [hl, List.length_append] at this; omega, hl⟩

/-- C110 fails after a script whose `select` failed when it had already ended: the flag stays, and the next script
counts as ended with the code of the first, before it has ended. -/
theorem C110_stale_violated :
    (RunScript.runAll false 0
      [[.ended (exitStatus 0), .turn .failed], [.closes false, .closes true, .turn (.ready true true)]]).map returned
      = [some (-1), some 0] := by decide +kernel

end Verif
