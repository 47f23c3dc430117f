import Verif.Lemmas.Asfd
import Verif.Spec.Net

/-!
# C11, C12, C13: the network layer
-/

namespace Verif
open Verif.Asfd Verif.Iobuf

theorem inv_arriving {ms : List Rec} (h : ∀ r ∈ ms, Sendable r) : Inv ms (arriving (frames ms)) :=
  ⟨rfl, by simp [arriving], ms, by simp [arriving], by simp [arriving], h⟩

theorem frames_append (a b : List Rec) : frames (a ++ b) = frames a ++ frames b := by
  simp [frames]

/-! ### C13 -/

/-- C13: for any pattern of appended messages and partial writes, the bytes that have reached the
socket followed by those still in the buffer are the frames (command, four hex digits of length,
payload) of the accepted messages, in order. -/
theorem C13_sent_in_order (evs : List TxEv) :
    (txRun {} evs).sent ++ (txRun {} evs).writebuf =
      ((txRun {} evs).accepted.map
        (fun r => r.cmd :: hex04 r.buf.length ++ r.buf)).flatten :=
  (txInv_run txInv_init evs).1

/-- C13: the write buffer, with the NUL that follows it, always fits. -/
theorem C13_write_buffer_bounded (evs : List TxEv) :
    (txRun {} evs).writebuf.length + 1 ≤ bufMax := by
  have := (txInv_run txInv_init evs).2.1
  omega

/-- C13: a message is taken whole or refused without any effect. -/
theorem C13_append_all_or_nothing (evs : List TxEv) (r : Rec) :
    let t := txRun {} evs
    let t' := txStep t (.append r)
    (t' = t) ∨
    (t'.accepted = t.accepted ++ [r] ∧ t'.sent = t.sent ∧
      t'.writebuf = t.writebuf ++ (r.cmd :: hex04 r.buf.length ++ r.buf)) := by
  intro t t'
  cases ha : append t.writebuf r with
  | none =>
    left
    show txStep t (.append r) = t
    simp only [txStep, ha]
  | some wb =>
    right
    show (txStep t (.append r)).accepted = _ ∧ (txStep t (.append r)).sent = _ ∧
      (txStep t (.append r)).writebuf = _
    simp only [txStep, ha]
    exact ⟨trivial, trivial, (append_some ha).1⟩

/-- C13: a message that fits is accepted once the buffer has drained, so nothing is blocked for
ever. -/
theorem C13_accepted_when_drained (r : Rec) (h : r.buf.length + 7 < bufMax) :
    append [] r = some (r.cmd :: hex04 r.buf.length ++ r.buf) := by
  unfold append
  rw [if_neg (by simp; omega)]
  rw [bufMax_eq] at h
  rw [Nat.mod_eq_of_lt (by omega)]
  have hl : (hex04 r.buf.length).length = 4 := (hex04_length _).2 (by omega)
  rw [List.take_of_length_le (by simp [hl])]
  simp

/-- C13 (a limit of `asfd->write`): a message that does not fit the buffer is never sent, and the
call never returns: it keeps asking for room however many bytes the system takes. -/
theorem C13_oversized_never_returns (t : Tx) (r : Rec) (h : r.buf.length + 7 ≥ bufMax)
    (ws : List Nat) :
    (asfdWrite t r ws).2 = false ∧ (asfdWrite t r ws).1.accepted = t.accepted := by
  have hne : r.buf.length ≠ 0 := by rw [bufMax_eq] at h; omega
  induction ws generalizing t with
  | nil => simp [asfdWrite, hne]
  | cons w ws ih =>
    have ha : append t.writebuf r = none := by
      unfold append; rw [if_pos (by omega)]
    simp only [asfdWrite, hne, if_false, ha]
    exact ih _

/-- C13 (violated for `asfd->write`): a message with an empty payload is reported as sent but is
dropped. -/
theorem C13_empty_message_violated (t : Tx) (c : Byte) (ws : List Nat) :
    asfdWrite t ⟨c, []⟩ ws = (t, true) := by
  cases ws <;> simp [asfdWrite]

example : (txRun {} [.append ⟨99, bytes "hi"⟩, .write 3, .append ⟨99, bytes "x"⟩]).accepted.length = 2
    := by
  have h1 := C13_accepted_when_drained ⟨99, bytes "hi"⟩ (by decide)
  simp only [txRun, List.foldl_cons, List.foldl_nil, txStep, h1]
  unfold append
  rw [if_neg]
  · rfl
  · have : (hex04 2).length = 4 := (hex04_length _).2 (by decide)
    have h2 : (bytes "hi").length = 2 := by decide
    have h3 : (bytes "x").length = 1 := by decide
    simp [doWrite, bufMax_eq, this, h2, h3]

/-! ### C11 -/

/-- C11: whatever the sender does, and however the bytes it sent are split into reads, the receiver
never reports an error and the messages it has delivered so far are the first ones the sender
accepted, unchanged. (`cmd ≠ 0`: every command is a printable character.) -/
theorem C11_delivery_in_order (sevs : List TxEv) (hc : ∀ r, .append r ∈ sevs → r.cmd ≠ 0)
    (revs : List Ev) :
    let t := txRun {} sevs
    let c := run (arriving t.sent) revs
    c.rx.err = false ∧ c.delivered <+: t.accepted := by
  intro t c
  have hcmd : ∀ (evs : List TxEv) (t0 : Tx), (∀ r ∈ t0.accepted, r.cmd ≠ 0) →
      (∀ r, .append r ∈ evs → r.cmd ≠ 0) → ∀ r ∈ (txRun t0 evs).accepted, r.cmd ≠ 0 := by
    intro evs
    induction evs with
    | nil => intro t0 h0 _; exact h0
    | cons e evs ih =>
      intro t0 h0 he
      apply ih (txStep t0 e)
      · cases e with
        | write w => exact h0
        | append r =>
          cases ha : append t0.writebuf r with
          | none => simp only [txStep, ha]; exact h0
          | some wb =>
            simp only [txStep, ha]
            intro x hx
            simp at hx
            rcases hx with hx | rfl
            · exact h0 x hx
            · exact he x (by simp)
      · intro r hr; exact he r (by simp [hr])
  obtain ⟨ht1, ht2, ht3⟩ := txInv_run txInv_init sevs
  have hsend : ∀ r ∈ t.accepted, Sendable r := fun r hr =>
    ⟨hcmd sevs {} (by simp) hc r hr, by have := ht3 r hr; omega⟩
  -- the receiver behaves as if the rest of the buffer were to arrive later
  have hsim : ∀ (evs : List Ev) (c1 c2 : Conn) (x : Str), c2.net = c1.net ++ x → c1.rx = c2.rx →
      c1.delivered = c2.delivered →
      ∃ evs2, (run c2 evs2).rx = (run c1 evs).rx ∧ (run c2 evs2).delivered = (run c1 evs).delivered := by
    intro evs
    induction evs with
    | nil => intro c1 c2 x _ h2 h3; exact ⟨[], h2.symm, h3.symm⟩
    | cons e evs ih =>
      intro c1 c2 x h1 h2 h3
      cases e with
      | take =>
        have : ∃ y, (step c2 .take).net = (step c1 .take).net ++ y ∧
            (step c1 .take).rx = (step c2 .take).rx ∧
            (step c1 .take).delivered = (step c2 .take).delivered := by
          refine ⟨x, ?_⟩
          cases hr : c1.rx.rbuf with
          | none =>
            have hr2 : c2.rx.rbuf = none := by rw [← h2]; exact hr
            simp only [step, hr, hr2]
            exact ⟨h1, h2, h3⟩
          | some r =>
            have hr2 : c2.rx.rbuf = some r := by rw [← h2]; exact hr
            simp only [step, hr, hr2]
            exact ⟨h1, by rw [h2], by rw [h3]⟩
        obtain ⟨y, g1, g2, g3⟩ := this
        obtain ⟨evs2, k1, k2⟩ := ih _ _ y g1 g2 g3
        exact ⟨.take :: evs2, k1, k2⟩
      | io n st1 st2 =>
        -- take exactly as many bytes as the first connection got
        have : ∃ m y, (step c2 (.io m st1 st2)).net = (step c1 (.io n st1 st2)).net ++ y ∧
            (step c1 (.io n st1 st2)).rx = (step c2 (.io m st1 st2)).rx ∧
            (step c1 (.io n st1 st2)).delivered = (step c2 (.io m st1 st2)).delivered := by
          refine ⟨min n c1.net.length, x, ?_⟩
          simp only [step]
          have hd : ∀ s : Rx, (doRead s c2.net (min n c1.net.length)).1 = (doRead s c1.net n).1 ∧
              (doRead s c2.net (min n c1.net.length)).2 = (doRead s c1.net n).2 ++ x := by
            intro s
            unfold doRead
            split
            · exact ⟨rfl, h1⟩
            · simp only
              have hmin : min (min n c1.net.length) (bufMax - s.readbuf.length) ≤ c1.net.length := by
                omega
              rw [h1]
              constructor
              · congr 2
                rw [List.take_append_of_le_length hmin]
                by_cases hle : min n (bufMax - s.readbuf.length) ≤ c1.net.length
                · congr 1; omega
                · rw [List.take_of_length_le (by omega), List.take_of_length_le (by omega)]
              · rw [List.drop_append_of_le_length hmin]
                congr 1
                by_cases hle : min n (bufMax - s.readbuf.length) ≤ c1.net.length
                · congr 1; omega
                · rw [List.drop_of_length_le (by omega), List.drop_of_length_le (by omega)]
          have hio : (io c2.rx c2.net (min n c1.net.length) st1 st2).1 =
                (io c1.rx c1.net n st1 st2).1 ∧
              (io c2.rx c2.net (min n c1.net.length) st1 st2).2 =
                (io c1.rx c1.net n st1 st2).2 ++ x := by
            rw [h2]
            unfold io
            dsimp only
            obtain ⟨d1, d2⟩ := hd (parseReadbuf c2.rx st1)
            split
            · exact ⟨rfl, h1⟩
            · split
              · exact ⟨rfl, h1⟩
              · split
                · exact ⟨rfl, h1⟩
                · rw [d1]
                  split
                  · exact ⟨d1, d2⟩
                  · exact ⟨rfl, d2⟩
          exact ⟨hio.2, hio.1.symm, h3⟩
        obtain ⟨m, y, g1, g2, g3⟩ := this
        obtain ⟨evs2, k1, k2⟩ := ih _ _ y g1 g2 g3
        exact ⟨.io m st1 st2 :: evs2, k1, k2⟩
  obtain ⟨evs2, k1, k2⟩ := hsim revs (arriving t.sent) (arriving (t.sent ++ t.writebuf))
    t.writebuf rfl rfl rfl
  have hinv : Inv t.accepted (run (arriving (t.sent ++ t.writebuf)) evs2) := by
    have : t.sent ++ t.writebuf = frames t.accepted := ht1
    rw [this]
    exact inv_run (inv_arriving hsend) evs2
  refine ⟨?_, ?_⟩
  · show (run (arriving t.sent) revs).rx.err = false
    rw [← k1]; exact hinv.1
  · show (run (arriving t.sent) revs).delivered <+: t.accepted
    rw [← k2]; exact inv_prefix hinv

/-- C11: nothing is lost: when the bytes of a list of messages arrive, then after any history, and
however the remaining bytes are split, reading and taking often enough delivers exactly that list. -/
theorem C11_everything_delivered (ms : List Rec)
    (h : ∀ r ∈ ms, r.cmd ≠ 0 ∧ r.buf.length + 5 < bufMax) (net : Str)
    (hnet : net = (ms.map (fun r => r.cmd :: hex04 r.buf.length ++ r.buf)).flatten)
    (history : List Ev) (rounds : List (Nat × Str × Str)) (hr : ∀ x ∈ rounds, 0 < x.1)
    (hlen : ms.length + net.length ≤ rounds.length) :
    (run (arriving net)
      (history ++ rounds.flatMap (fun x => round x.1 x.2.1 x.2.2))).delivered = ms := by
  subst hnet
  rw [run_append]
  have hinv := inv_run (inv_arriving (ms := ms) h) history
  apply rounds_deliver hinv rounds hr
  have hle : (run (arriving (frames ms)) history).net.length ≤ (frames ms).length := by
    have : ∀ (evs : List Ev) (c : Conn), (run c evs).net.length ≤ c.net.length := by
      intro evs
      induction evs with
      | nil => intro c; exact Nat.le_refl _
      | cons e evs ih =>
        intro c
        refine Nat.le_trans (ih (step c e)) ?_
        cases e with
        | io n st1 st2 => exact io_net_le _ _ _ _ _
        | take =>
          cases hr : c.rx.rbuf with
          | none => simp only [step, hr]; exact Nat.le_refl _
          | some r => simp only [step, hr]; exact Nat.le_refl _
    exact this history _
  unfold work
  have : (frames ms).length =
      ((ms.map (fun r => r.cmd :: hex04 r.buf.length ++ r.buf)).flatten).length := rfl
  have h2 : (run (arriving ((ms.map (fun r => r.cmd :: hex04 r.buf.length ++ r.buf)).flatten))
      history).net.length ≤ (frames ms).length := hle
  omega

/-- C11 (fragmentation independence): two receivers that get the same bytes, split differently, and
read and take often enough, deliver the same messages. -/
theorem C11_fragmentation_irrelevant (ms : List Rec)
    (h : ∀ r ∈ ms, r.cmd ≠ 0 ∧ r.buf.length + 5 < bufMax) (net : Str)
    (hnet : net = (ms.map (fun r => r.cmd :: hex04 r.buf.length ++ r.buf)).flatten)
    (r1 r2 : List (Nat × Str × Str)) (h1 : ∀ x ∈ r1, 0 < x.1) (h2 : ∀ x ∈ r2, 0 < x.1)
    (l1 : ms.length + net.length ≤ r1.length) (l2 : ms.length + net.length ≤ r2.length) :
    (run (arriving net) (r1.flatMap (fun x => round x.1 x.2.1 x.2.2))).delivered =
    (run (arriving net) (r2.flatMap (fun x => round x.1 x.2.1 x.2.2))).delivered := by
  have e1 := C11_everything_delivered ms h net hnet [] r1 h1 l1
  have e2 := C11_everything_delivered ms h net hnet [] r2 h2 l2
  rw [List.nil_append] at e1 e2
  rw [e1, e2]

example : ∀ r ∈ [(⟨99, bytes "nuts"⟩ : Rec), ⟨97, []⟩], r.cmd ≠ 0 ∧ r.buf.length + 5 < bufMax := by
  decide

/-! ### C12 -/

/-- C12: whatever bytes a peer sends and however they arrive, the read buffer never holds more than
its size, and no message handed to the caller is larger than that. -/
theorem C12_read_buffer_bounded (net : Str) (evs : List Ev) :
    (run (arriving net) evs).rx.readbuf.length ≤ bufMax ∧
    ∀ r, (run (arriving net) evs).rx.rbuf = some r → r.buf.length + 5 < bufMax :=
  bounded_run (c := arriving net) ⟨by simp [arriving], by simp [arriving]⟩ evs

/-- C12: no state is stuck: for any peer and any state, one more read
has a message ready to hand over a message, or reports an error, or takes in more bytes if any have arrived. -/
theorem C12_never_waits_for_ever (c : Conn) (he : c.rx.err = false)
    (n : Nat) (hn : 0 < n) (hnet : c.net ≠ []) (st1 st2 : Str) :
    (step c (.io n st1 st2)).rx.rbuf ≠ none ∨ (step c (.io n st1 st2)).rx.err = true ∨
    (step c (.io n st1 st2)).net.length < c.net.length := by
  have hpos : 0 < c.net.length := List.length_pos_iff.2 hnet
  simp only [step]
  unfold io
  simp only [he, Bool.false_eq_true, if_false]
  by_cases h1 : (parseReadbuf c.rx st1).err = true
  · simp [h1]
  · simp only [h1]
    cases h2 : (parseReadbuf c.rx st1).rbuf with
    | some r => left; simp [h2]
    | none =>
      simp only [Option.isSome_none, Bool.false_eq_true, if_false]
      unfold doRead
      split
      · right; left; simp
      · right; right
        simp only [List.length_drop]
        omega

/-- C12: a frame that announces a length the buffer cannot hold is never handed over, and is
reported as an error as soon as its lead is there (if the length alone is too large), or when the
buffer is full (if only the length with its lead is). -/
theorem C12_oversized_rejected (s : Rx) (hr : s.rbuf = none) (c : Byte) (len : Nat) (stale : Str)
    (h5 : 5 ≤ s.readbuf.length)
    (hlead : scanLead (s.readbuf ++ stale) = some (c, len)) (hbig : len + 5 ≥ bufMax) :
    (parseReadbuf s stale).rbuf = none ∧
    (len ≥ bufMax → (parseReadbuf s stale).err = true) ∧
    (s.readbuf.length ≥ bufMax → s.err = false → ∀ net n st2,
      (io s net n stale st2).1.err = true) := by
  have hps : parseStandard s stale = (s, false) ∨ parseStandard s stale = (s, true) := by
    unfold parseStandard
    rw [if_neg (by omega), hlead]
    simp only
    split
    · left; rfl
    · split
      · left; unfold extractBuf; rw [if_pos (by omega)]
      · right; rfl
  refine ⟨?_, ?_, ?_⟩
  · unfold parseReadbuf
    simp only [hr, Option.isSome_none, Bool.false_eq_true, if_false]
    rcases hps with h | h <;> rw [h] <;> simp [hr]
  · intro hl
    unfold parseReadbuf
    have : parseStandard s stale = (s, false) := by
      unfold parseStandard
      rw [if_neg (by omega), hlead]
      simp only
      rw [if_pos hl]
    simp only [hr, Option.isSome_none, Bool.false_eq_true, if_false, this]
  · intro hfull he net n st2
    unfold io
    simp only [he, Bool.false_eq_true, if_false]
    rcases hps with h | h
    · have : (parseReadbuf s stale).err = true := by
        unfold parseReadbuf
        simp only [hr, Option.isSome_none, Bool.false_eq_true, if_false, h]
      simp [this]
    · have : parseReadbuf s stale = s := by
        unfold parseReadbuf
        simp only [hr, Option.isSome_none, Bool.false_eq_true, if_false, h]
      simp only [this, he, Bool.false_eq_true, if_false, hr, Option.isSome_none]
      unfold doRead
      simp [Nat.sub_eq_zero_of_le hfull]

/-- C12 (a gap): `sscanf` is called on the read buffer although nothing terminates it. A peer can
fill the buffer completely with bytes of which none is NUL; then `sscanf`, which needs a NUL
terminated string, runs on a buffer without one. -/
theorem C12_buffer_terminated_violated :
    ∃ (net : Str) (n : Nat), let s := (doRead (arriving net).rx (arriving net).net n).1
      s.readbuf.length = bufMax ∧ (0 : Byte) ∉ s.readbuf ∧ s.rbuf = none ∧ s.err = false := by
  refine ⟨List.replicate bufMax 97, bufMax, ?_⟩
  have h : doRead (arriving (List.replicate bufMax 97)).rx
      (arriving (List.replicate bufMax 97)).net bufMax =
      ({ readbuf := List.replicate bufMax 97 }, []) := by
    unfold doRead arriving
    rw [if_neg (by simp [bufMax_eq])]
    simp
  rw [h]
  refine ⟨by simp, ?_, rfl, rfl⟩
  intro hmem
  have := (List.mem_replicate.1 hmem).2
  exact absurd this (by decide)

example : scanLead (bytes "cFFFFxxxx" ++ []) = some (99, 65535) ∧ 65535 + 5 ≥ bufMax := by decide

end Verif
