import Verif.Lemmas.Relay

/-!
# C121: the monitor client passes on what is typed and what is answered
-/

namespace Verif
open Iobuf Relay

/-- **C121.** What is printed, with what waits to be printed, is what the server answered: all of it, in order,
nothing else. -/
theorem C121_shown (es : List Ev) (s : St) (h : run {} es = some s) : s.shown ++ s.outBuf = (answers es).flatten := by
  simpa using (inv_run inv_init h).out

/-- **C121.** What goes to the server begins like the requests that were typed, in order, nothing else. -/
theorem C121_sent (es : List Ev) (s : St) (h : run {} es = some s) : s.gone <+: wire (asked (allTyped es)) := by
  obtain ⟨done, sent, h1, h2, h3, h4⟩ := (inv_run inv_init h).srv
  rw [List.nil_append] at h1
  rw [h1, asked_whole _ h2, h3, wire_append, wire_append, ← h4]
  simp only [List.append_assoc]
  exact List.prefix_append _ _

/-- **C121.** When nothing waits, all requests that were typed have gone, and all answers are printed. -/
theorem C121_exact (es : List Ev) (s : St) (h : run {} es = some s) (h1 : s.line = none) (h2 : (10 : Byte) ∉ s.typed)
    (h3 : s.srvBuf = []) (h4 : s.outBuf = []) :
    s.gone = wire (asked (allTyped es)) ∧ s.shown = (answers es).flatten := by
  have hi := inv_run inv_init h
  refine ⟨?_, by simpa [h4] using hi.out⟩
  obtain ⟨done, sent, g1, g2, g3, g4⟩ := hi.srv
  rw [List.nil_append] at g1
  rw [h1] at g3
  rw [h3, List.append_nil] at g4
  rw [g1, asked_whole _ g2, asked_none h2, g3, g4]
  simp

/-- **C121, in part.** As long as neither side has ended and no line that was typed is too long: without anything more
coming in, all requests go to the server and all answers are printed. -/
theorem C121_arrives_partial (es : List Ev) (s : St) (h : run {} es = some s) (ho : s.over = false)
    (hs : ∀ l ∈ (cut (allTyped es)).1, l.length < 32025) :
    ∃ qs t, (∀ e ∈ qs, Quiet e) ∧ run {} (es ++ qs) = some t ∧ t.over = false
      ∧ t.gone = wire (asked (allTyped es)) ∧ t.shown = (answers es).flatten := by
  have hi := inv_run inv_init h
  obtain ⟨done, sent, g1, g2, g3, g4⟩ := hi.srv
  rw [List.nil_append] at g1
  have hl : ∀ l, s.line = some l → l.length < 32025 := by
    intro l hl
    by_cases hn : l = []
    · rw [hn]; decide
    · apply asked_short hs
      rw [g1, asked_whole _ g2, g3, hl]
      simp [hn]
  have hc : ∀ l ∈ (cut s.typed).1, l.length < 32025 := by
    intro l hl'
    apply hs
    rw [g1, cut_whole _ g2]
    exact List.mem_append_right _ hl'
  obtain ⟨qs, t, q1, q2, q3, q4, q5, q6, q7⟩ := all_clear _ s (Nat.le_refl _) ho hl hc
  refine ⟨qs, t, q1, (run_append h).trans q2, q3, ?_⟩
  have hx := inv_run hi q2
  rw [(quiet_typed q1).1, (quiet_typed q1).2, List.append_nil, List.append_nil, List.nil_append, List.nil_append] at hx
  refine ⟨?_, by simpa [q6] using hx.out⟩
  obtain ⟨d, se, k1, k2, k3, k4⟩ := hx.srv
  rw [q4] at k3
  rw [q7, List.append_nil] at k4
  rw [k1, asked_whole _ k2, asked_none q5, k3, k4]
  simp

/-- **C121.** The buffers for writing are never full: there is room for the byte that ends them. -/
theorem C121_room (es : List Ev) (s : St) (h : run {} es = some s) :
    s.outBuf.length + 1 < 32032 ∧ s.srvBuf.length + 1 < 32032 := (inv_run inv_init h).fits

/-- **C121.** While nothing has ended and the server takes what is sent, a message of the server that it may send
(at most 32024 bytes) is always taken, after what waits has been printed. -/
theorem C121_taken (es : List Ev) (s : St) (h : run {} es = some s) (ho : s.over = false) (m : Str)
    (hm : m.length ≤ 32024) :
    ∃ t, run {} (es ++ [.wroteOut s.outBuf.length, .server m]) = some t
      ∧ t.shown = (answers es).flatten ∧ t.outBuf = m := by
  refine ⟨{ s with outBuf := m, shown := s.shown ++ s.outBuf }, ?_, C121_shown es s h, rfl⟩
  have hmax : Asfd.bufMax = 32032 := rfl
  rw [run_append h]
  have h1 : ¬ m.length + 5 ≥ Asfd.bufMax := by omega
  have h2 : ¬ Asfd.bufMax - 1 ≤ m.length := by omega
  simp [run, step, ho, h1, h2]

/-- C121 fails when the input ends: a request has gone to the server, but the program stops at once, and the answer is
never printed. A request without a newline at its end is not sent at all. -/
theorem C121_end_violated :
    (∃ s, run {} [.keys (bytes "c:\n"), .take, .copy, .wroteSrv 7, .inputEnds] = some s
      ∧ s.gone = wire [bytes "c:"] ∧ ∀ es t, run s es = some t → t.shown = [] ∧ t.outBuf = [])
    ∧ (∃ s, run {} [.keys (bytes "c:"), .inputEnds] = some s
      ∧ ∀ es t, run s es = some t → t.gone = [] ∧ t.srvBuf = []) := by
  have hline : Yajl.getLine (bytes "c:" ++ newline :: []) = .line (bytes "c:") [] := by
    rw [Yajl.getLine_line (by decide) (by decide)]
    decide
  have hfr : ∃ b, Asfd.append [] ⟨cmdGen, bytes "c:"⟩ = some b := append_short (by decide)
  obtain ⟨b, hb⟩ := hfr
  have hbw : b = wire [bytes "c:"] := by
    rw [(Asfd.append_some hb).1]
    simp [wire, Asfd.frame, cmdGen, bytes]
  have hbl : b.length = 7 := by
    rw [hbw]
    have := (hex04_length 2).2 (by decide)
    simp [wire, bytes]
    exact this
  constructor
  · refine ⟨{ gone := b, over := true }, ?_, hbw, ?_⟩
    · have e1 : bytes "c:\n" = bytes "c:" ++ newline :: [] := by decide
      rw [e1]
      have k1 : step {} (.keys (bytes "c:" ++ newline :: [])) = some { typed := bytes "c:" ++ newline :: [] } := by
        decide
      have k2 : step { typed := bytes "c:" ++ newline :: [] } .take = some { line := some (bytes "c:") } := by
        simp only [step, hline]; decide
      have k3 : step { line := some (bytes "c:") } .copy = some { srvBuf := b } := by
        have : bytes "c:" ≠ [] := by decide
        simp only [step, if_neg this, hb]; simp
      have k4 : step { srvBuf := b } (.wroteSrv 7) = some { gone := b } := by
        simp only [step]
        rw [List.drop_of_length_le (by omega), List.take_of_length_le (by omega)]
        simp
      have k5 : step { gone := b } .inputEnds = some { gone := b, over := true } := by simp [step]
      simp only [run, k1, k2, k3, k4, k5]
    · intro es t ht
      rw [run_over rfl ht]
      exact ⟨rfl, rfl⟩
  · refine ⟨{ typed := bytes "c:", over := true }, by decide, ?_⟩
    intro es t ht
    rw [run_over rfl ht]
    exact ⟨rfl, rfl⟩

/-- C121 fails for a line of 32025 to 32030 bytes: it is read, but is never sent, and nothing that is typed after it is
sent or even read, for ever: it is too long for the buffer to write from, and the program waits for room. -/
theorem C121_long_violated (l rest : Str) (h1 : 32025 ≤ l.length) (hr : l.length + 1 + rest.length ≤ 32031)
    (h2 : ∀ c ∈ l, white c = false) :
    ∃ s, run {} [.keys (l ++ 10 :: rest), .take] = some s
      ∧ asked (allTyped [.keys (l ++ 10 :: rest), .take]) = l :: asked rest
      ∧ ∀ es t, run s es = some t → t.line = some l ∧ t.gone = [] ∧ t.srvBuf = [] := by
  have hn : (10 : Byte) ∉ l := fun h => by
    have := h2 10 h
    revert this; decide
  have ht : trim l = l := by
    unfold trim
    cases hrev : l.reverse with
    | nil => rw [List.reverse_eq_nil_iff] at hrev; rw [hrev] at h1; simp at h1
    | cons a b =>
      have : a ∈ l := by rw [← List.mem_reverse, hrev]; exact List.mem_cons_self
      rw [List.dropWhile_cons, if_neg (by rw [h2 a this]; decide), ← hrev, List.reverse_reverse]
  have hg : Yajl.getLine (l ++ 10 :: rest) = .line l rest := by
    have hmax : Yajl.bufMax = 32032 := rfl
    have := Yajl.getLine_line (b := rest) hn (by omega)
    rwa [← trim_strip, ht] at this
  have hne : l ≠ [] := by intro e; rw [e] at h1; simp at h1
  have h0 : Yajl.getLine [] = .none := Yajl.getLine_none (by simp)
  refine ⟨{ line := some l, typed := rest }, ?_, ?_, ?_⟩
  · have hle : (l ++ 10 :: rest).length ≤ Yajl.bufMax := by
      have hmax : Yajl.bufMax = 32032 := rfl
      simp only [List.length_append, List.length_cons]; omega
    have k1 : step {} (.keys (l ++ 10 :: rest)) = some { typed := l ++ 10 :: rest } := by
      simp only [step, h0]
      rw [if_neg (by decide), if_pos ⟨trivial, trivial, by simp, by simpa using hle⟩]
      rfl
    have k2 : step { typed := l ++ 10 :: rest } .take = some { line := some l, typed := rest } := by
      simp [step, hg]
    simp only [run, k1, k2]
  · simp only [allTyped, List.append_nil]
    unfold asked
    rw [cut_line rest hn, List.map_cons, ht, List.filter_cons, if_pos (by simpa using hne)]
  · intro es t h
    obtain ⟨g1, g2⟩ := stuck_run h1 rfl h
    simp only [List.append_nil, List.append_eq_nil_iff] at g2
    exact ⟨g1, g2.1, g2.2⟩

/-! ### The hypotheses are met -/

example : asked (bytes "c:client1\r\n\n  \nj:list\nb:") = [bytes "c:client1", bytes "j:list"] := by decide

example : ∃ s, run {} [.keys (bytes "c"), .server (bytes "{}"), .wroteOut 1, .keys (bytes ":")] = some s
    ∧ s.over = false ∧ s.shown = bytes "{" ∧ (∀ l ∈ (cut (bytes "c:")).1, l.length < 32025) := ⟨_, rfl, by decide⟩

example : ∃ s, run {} [.server (bytes "{}"), .wroteOut 5, .wroteSrv 3] = some s
    ∧ s.line = none ∧ (10 : Byte) ∉ s.typed ∧ s.srvBuf = [] ∧ s.outBuf = [] ∧ s.shown = bytes "{}" := ⟨_, rfl, by decide⟩

/-- There are such lines. -/
example : ∃ l : Str, 32025 ≤ l.length ∧ l.length + 1 + (bytes "c:\n").length ≤ 32031 ∧ ∀ c ∈ l, white c = false :=
  ⟨List.replicate 32025 97, by rw [List.length_replicate]; decide, by rw [List.length_replicate]; decide, fun c hc => by
    rw [(List.mem_replicate.1 hc).2]; decide⟩

end Verif
