import Verif.Lemmas.Logging

/-!
# C122: each warning is counted, sent, and has a line in the logs of both sides
-/

namespace Verif
open Logging

/-- **C122.** What has once been written, to any file, to syslog, to the standard output or to the other side, stays. -/
theorem C122_kept (g : Lg) (es : List Ev) : Kept g (run g es) := kept_run es g

/-- **C122.** Every warning is counted once, whatever its text and wherever it is written; nothing else is. -/
theorem C122_counted (g : Lg) (es : List Ev) : (run g es).warnings = g.warnings + es.countP isWarning := by
  induction es generalizing g with
  | nil => rfl
  | cons e es ih =>
    have := ih (step g e)
    simp only [run, List.foldl_cons] at this ⊢
    rw [this, step_warnings, List.countP_cons]
    omega

/-- **C122.** While there is a log file, all goes to it, and nowhere else. -/
theorem C122_file (g : Lg) (p st text : Str) (h : g.cur = some p) :
    (step g (.plain st text)).files p = g.files p ++ st ++ text.take 511
    ∧ (∀ q, q ≠ p → (step g (.plain st text)).files q = g.files q)
    ∧ (step g (.plain st text)).syslog = g.syslog ∧ (step g (.plain st text)).stdout = g.stdout := by
  simp only [step, logp, h]
  refine ⟨by simp [fit], fun q hq => by rw [if_neg hq], trivial, trivial⟩

/-- **C122.** Without a log file, it goes to syslog and to the standard output, as the configuration says. -/
theorem C122_no_file (g : Lg) (st text : Str) (h : g.cur = none) :
    (step g (.plain st text)).files = g.files
    ∧ (step g (.plain st text)).syslog = g.syslog ++ (if g.doSyslog then [text.take 511] else [])
    ∧ (step g (.plain st text)).stdout = g.stdout ++ (if g.doStdout then st ++ text.take 511 else []) := by
  simp only [step, logp, h]
  refine ⟨trivial, ?_, ?_⟩
  · cases g.doSyslog <;> simp [fit]
  · cases g.doStdout <;> simp [fit]

/-- **C122.** After the log file has been chosen it is used, with what it held before; what was set is as the
configuration says. If it can not be opened there is no log file, and all else is as before. -/
theorem C122_set (g : Lg) (st p : Str) (sys out : Bool) :
    (setLog st (some p) true sys out g).1 = true
    ∧ (step g (.set st (some p) true sys out)).cur = some p
    ∧ (step g (.set st (some p) true sys out)).files = g.files
    ∧ (step g (.set st (some p) true sys out)).doSyslog = sys
    ∧ (step g (.set st (some p) true sys out)).doStdout = out
    ∧ (setLog st (some p) false sys out g).1 = false
    ∧ (step g (.set st (some p) false sys out)).cur = none
    ∧ (step g (.set st (some p) false sys out)).files = g.files
    ∧ (step g (.set st (some p) false sys out)).doSyslog = g.doSyslog
    ∧ (step g (.set st (some p) false sys out)).doStdout = g.doStdout
    ∧ (step g (.set st none true sys out)).cur = none
    ∧ (step g (.set st none true sys out)).doSyslog = sys
    ∧ (step g (.set st none true sys out)).doStdout = out := by
  simp [step, setLog, logp]

/-- **C122.** In an estimate a warning is only printed: nothing is sent, and nothing is logged. -/
theorem C122_estimate (g : Lg) (st text : Str) :
    (step g (.warn true true st text)).stdout = g.stdout ++ bytes "\nWARNING: " ++ text.take 511
    ∧ (step g (.warn true true st text)).files = g.files
    ∧ (step g (.warn true true st text)).syslog = g.syslog
    ∧ (step g (.warn true true st text)).sent = g.sent := by
  simp [step, logw, fit]

/-- **C122.** A message is logged like a warning, and is sent only to a side that takes messages. -/
theorem C122_message (g : Lg) (p st text : Str) (wants : Bool) (h : g.cur = some p) (hne : text ≠ []) :
    (step g (.msg true false wants st text)).files p = g.files p ++ st ++ (bytes "MESSAGE: " ++ text.take 511).take 511
    ∧ (step g (.msg true false wants st text)).sent = g.sent ++ (if wants then [(112, text.take 511)] else [])
    ∧ (step g (.msg true false wants st text)).messages = g.messages + 1
    ∧ (step g (.msg true false wants st text)).warnings = g.warnings := by
  have hf : fit text ≠ [] := by
    unfold fit
    cases text with
    | nil => exact absurd rfl hne
    | cons a b => simp
  cases wants
  · simp [step, logm, logp, h, fit]
  · have hs : send cmdMessage (fit text) g = { g with sent := g.sent ++ [(cmdMessage, fit text)] } := by
      unfold send; rw [if_neg hf]
    simp only [step, logm, Bool.and_false, Bool.false_eq_true, if_false, Bool.and_self, if_true, hs, logp, h]
    refine ⟨by simp [fit], rfl, ?_, ?_⟩ <;> trivial

/-- **C122, in part.** Warnings of one line that are not too long: each has one line in the log of the side that gives
it, and one in the log of the side that gets it, whole, in order, with nothing between. -/
theorem C122_lines_partial (c s : Lg) (p q : Str) (hc : c.cur = some p) (hs : s.cur = some q) (hsent : c.sent = [])
    (ws : List (Str × Str × Str)) (hp : ∀ w ∈ ws, Plain w.2.2) :
    let c' := run c (ws.map fun w => .warn true false w.1 (w.2.2 ++ bytes "\n"))
    let s' := run s (List.zipWith (fun st m => .recvd st m.1 m.2) (ws.map fun w => w.2.1) c'.sent)
    c'.files p = c.files p ++ ofLines (ws.map fun w => w.1 ++ bytes "WARNING: " ++ w.2.2)
    ∧ s'.files q = s.files q ++ ofLines (ws.map fun w => w.2.1 ++ bytes "WARNING: " ++ w.2.2)
    ∧ c'.warnings = c.warnings + ws.length ∧ s'.warnings = s.warnings + ws.length := by
  have hn : bytes "\n" = [10] := by decide
  simp only [hn]
  obtain ⟨h1, h2⟩ := run_warn ws c p hc hp
  rw [hsent, List.nil_append] at h2
  rw [h2, zip_recvd]
  refine ⟨h1, run_recvd ws s q hs hp, ?_, ?_⟩
  · rw [C122_counted, List.countP_map]
    congr 1
    rw [List.countP_eq_length]
    intro w _; rfl
  · rw [C122_counted, List.countP_map]
    congr 1
    rw [List.countP_eq_length]
    intro w _
    exact decide_eq_true (by decide : [cmdWarning] = bytes "w")

/-- C122 fails for a warning of more than 501 bytes (a long path is enough): its end, where the reason stands, is in
neither log, and as the newline is lost the next line is glued to it: two warnings have only one line. -/
theorem C122_long_violated (s : Lg) (q : Str) (hs : s.cur = some q) (t u : Str) (st su : Str)
    (ht : 502 ≤ t.length) (hn : (10 : Byte) ∉ t) (h0 : (0 : Byte) ∉ t) (hst : (10 : Byte) ∉ st) (hsu : (10 : Byte) ∉ su)
    (hu : Plain u) :
    (run s [.recvd st 119 (t ++ bytes "\n"), .recvd su 119 (u ++ bytes "\n")]).files q =
      s.files q ++ (st ++ bytes "WARNING: " ++ t.take 502 ++ su ++ bytes "WARNING: " ++ u ++ bytes "\n")
    ∧ lineCount (st ++ bytes "WARNING: " ++ t.take 502 ++ su ++ bytes "WARNING: " ++ u ++ bytes "\n") = 1
    ∧ (run s [.recvd st 119 (t ++ bytes "\n"), .recvd su 119 (u ++ bytes "\n")]).warnings = s.warnings + 2 := by
  have hnl : bytes "\n" = [10] := by decide
  have hl : label 119 ++ bytes ": " = bytes "WARNING: " := by decide
  have hw : (bytes "WARNING: ").length = 9 := by decide
  have hstrip : cstr ((t ++ [10]).reverse.dropWhile (· = 10)).reverse = t := by
    have h1 : ((t ++ [10]).reverse.dropWhile (· = 10)) = t.reverse := by
      rw [List.reverse_append, List.reverse_singleton, List.singleton_append, List.dropWhile_cons, if_pos (by decide)]
      cases hr : t.reverse with
      | nil => rfl
      | cons a b =>
        have ha : a ∈ t := by rw [← List.mem_reverse, hr]; exact List.mem_cons_self
        have : a ≠ 10 := fun e => hn (e ▸ ha)
        rw [List.dropWhile_cons, if_neg (by simpa using this)]
    rw [h1, List.reverse_reverse]
    exact cstr_self h0
  have hfit : fit (bytes "WARNING: " ++ t ++ [10]) = bytes "WARNING: " ++ t.take 502 := by
    unfold fit
    rw [List.append_assoc, List.take_append, hw, List.take_of_length_le (by omega), List.take_append_of_le_length (by omega)]
  have h1 := logp_file hs st (bytes "WARNING: " ++ t ++ [10])
  have hg : (step s (.recvd st 119 (t ++ [10]))).cur = some q
      ∧ (step s (.recvd st 119 (t ++ [10]))).files q = s.files q ++ (st ++ (bytes "WARNING: " ++ t.take 502)) := by
    simp only [step, logRecvd, hstrip, hl, hnl]
    exact ⟨h1.1, by rw [h1.2.1, hfit]⟩
  have h2 := (recvd_plain hg.1 hu su).2
  refine ⟨?_, ?_, ?_⟩
  · rw [hnl]
    refine h2.trans ?_
    rw [hg.2]; simp
  · rw [hnl]
    simp only [lineCount_append, lineCount_none hst, lineCount_none hsu, lineCount_none hu.one,
      lineCount_none (fun h => hn (List.mem_of_mem_take h))]
    decide
  · rw [C122_counted]
    rfl

/-- C122 fails for a text with a newline, which the name of a file can have: the log is as if there had been another
warning, with any text and at any time, that no one gave. -/
theorem C122_forged_violated (s : Lg) (q : Str) (hs : s.cur = some q) (a b st su : Str) (ha : Plain a) (hb : Plain b)
    (hsu : (0 : Byte) ∉ su) (hlen : a.length + su.length + b.length ≤ 400) :
    (run s [.recvd st 119 (a ++ bytes "\n" ++ su ++ bytes "WARNING: " ++ b ++ bytes "\n")]).files q =
      (run s [.recvd st 119 (a ++ bytes "\n"), .recvd su 119 (b ++ bytes "\n")]).files q
    ∧ (run s [.recvd st 119 (a ++ bytes "\n" ++ su ++ bytes "WARNING: " ++ b ++ bytes "\n")]).warnings = s.warnings + 1 := by
  have hnl : bytes "\n" = [10] := by decide
  have hl : label 119 ++ bytes ": " = bytes "WARNING: " := by decide
  have hw : (bytes "WARNING: ").length = 9 := by decide
  refine ⟨?_, ?_⟩
  · have h1 := recvd_plain hs ha st
    have h2 := (recvd_plain h1.1 hb su).2
    have hrhs : (run s [.recvd st 119 (a ++ [10]), .recvd su 119 (b ++ [10])]).files q =
        s.files q ++ (st ++ bytes "WARNING: " ++ a ++ [10]) ++ (su ++ bytes "WARNING: " ++ b ++ [10]) := by
      refine h2.trans ?_
      rw [h1.2]
    rw [hnl, hrhs]
    have hstrip : cstr ((a ++ [10] ++ su ++ bytes "WARNING: " ++ b ++ [10]).reverse.dropWhile (· = 10)).reverse =
        a ++ [10] ++ su ++ bytes "WARNING: " ++ b := by
      have e1 : ((a ++ [10] ++ su ++ bytes "WARNING: " ++ b ++ [10]).reverse.dropWhile (· = 10)) =
          (a ++ [10] ++ su ++ bytes "WARNING: " ++ b).reverse := by
        rw [List.reverse_append, List.reverse_singleton, List.singleton_append, List.dropWhile_cons, if_pos (by decide)]
        rw [List.reverse_append (as := a ++ [10] ++ su ++ bytes "WARNING: ")]
        cases hr : b.reverse with
        | nil => rw [List.reverse_eq_nil_iff] at hr; exact absurd hr hb.some
        | cons x y =>
          have hx : x ∈ b := by rw [← List.mem_reverse, hr]; exact List.mem_cons_self
          have : x ≠ 10 := fun e => hb.one (e ▸ hx)
          rw [List.cons_append, List.dropWhile_cons, if_neg (by simpa using this)]
      rw [e1, List.reverse_reverse]
      apply cstr_self
      simp only [List.mem_append, not_or]
      exact ⟨⟨⟨⟨ha.nul, by decide⟩, hsu⟩, by decide⟩, hb.nul⟩
    have hp := logp_file hs st (bytes "WARNING: " ++ (a ++ [10] ++ su ++ bytes "WARNING: " ++ b) ++ [10])
    have hfit : fit (bytes "WARNING: " ++ (a ++ [10] ++ su ++ bytes "WARNING: " ++ b) ++ [10]) =
        bytes "WARNING: " ++ (a ++ [10] ++ su ++ bytes "WARNING: " ++ b) ++ [10] :=
      fit_short (by simp [hw]; omega)
    simp only [run, List.foldl_cons, List.foldl_nil, step, logRecvd, hstrip, hl, hnl]
    rw [hp.2.1, hfit]
    simp
  · rw [C122_counted]
    rfl

/-! ### The hypotheses are met -/

theorem logPlainExample : Plain (bytes "/home/x: permission denied") := ⟨by decide, by decide, by decide, by decide⟩

example : (run { cur := some (bytes "log") } [.warn true false (bytes "T: burp[1] ") (bytes "/home/x: permission denied\n")]).files
    (bytes "log") = bytes "T: burp[1] WARNING: /home/x: permission denied\n" := by decide

example : ∃ t : Str, 502 ≤ t.length ∧ (10 : Byte) ∉ t ∧ (0 : Byte) ∉ t :=
  ⟨List.replicate 502 97, by rw [List.length_replicate]; decide,
    fun h => by have := (List.mem_replicate.1 h).2; revert this; decide,
    fun h => by have := (List.mem_replicate.1 h).2; revert this; decide⟩

example : (run {} [.warn true false [] (bytes "a\n"), .recvd [] 119 (bytes "b"), .msg false false true [] (bytes "c"),
    .recvd [] 112 (bytes "d"), .set [] (some (bytes "p")) true false false]).warnings = 2 := by decide

end Verif
