import Verif.Lemmas.Iobuf
import Verif.Model.Asfd

namespace Verif.Asfd
open Verif Verif.Iobuf

/-- The bytes of a message on the wire. -/
def frame (r : Rec) : Str := r.cmd :: hex04 r.buf.length ++ r.buf

/-- Messages that the receiver's buffer can hold. -/
def Sendable (r : Rec) : Prop := r.cmd ≠ 0 ∧ r.buf.length + 5 < bufMax

instance (r : Rec) : Decidable (Sendable r) := by unfold Sendable; infer_instance

theorem bufMax_eq : bufMax = 32032 := rfl

theorem lead_length {r : Rec} (h : Sendable r) : (r.cmd :: hex04 r.buf.length).length = 5 := by
  have h2 := h.2
  rw [bufMax_eq] at h2
  have := (hex04_length r.buf.length).2 (by omega)
  simp [this]

theorem frame_length {r : Rec} (h : Sendable r) : (frame r).length = r.buf.length + 5 := by
  have := lead_length h
  unfold frame
  rw [List.length_append, this]; omega

/-- Parsing when a whole frame is there. -/
theorem parseStandard_frame {s : Rx} {r : Rec} {rest : Str} (h : Sendable r)
    (hs : s.readbuf = frame r ++ rest) (stale : Str) :
    parseStandard s stale = ({ s with rbuf := some r, readbuf := rest }, true) := by
  have hl := lead_length h
  have h2 := h.2
  have hfl := frame_length h
  unfold parseStandard
  have h5 : ¬ s.readbuf.length < 5 := by rw [hs, List.length_append]; omega
  rw [if_neg h5]
  have hscan : scanLead (s.readbuf ++ stale) = some (r.cmd, r.buf.length) := by
    rw [hs]
    have := scanLead_append h.1 (show r.buf.length < 65536 by rw [bufMax_eq] at h2; omega)
      (r.buf ++ rest ++ stale)
    simpa [frame] using this
  rw [hscan]
  simp only
  rw [if_neg (by omega), if_pos (by rw [hs, List.length_append]; omega)]
  unfold extractBuf
  rw [if_neg (by omega)]
  have e1 : s.readbuf.drop 5 = r.buf ++ rest := by
    have : s.readbuf = (r.cmd :: hex04 r.buf.length) ++ (r.buf ++ rest) := by
      rw [hs]; simp [frame]
    rw [this, ← hl, List.drop_left]
  have e2 : s.readbuf.drop (r.buf.length + 5) = rest := by
    rw [hs, ← hfl, List.drop_left]
  rw [e1, e2, List.take_left]

/-- Parsing when less than a frame is there. -/
theorem parseStandard_short {s : Rx} {r : Rec} {more : Str} (h : Sendable r)
    (hs : s.readbuf ++ more = frame r) (hm : more ≠ []) (stale : Str) :
    parseStandard s stale = (s, true) := by
  have hfl := frame_length h
  have h2 := h.2
  have hlen : s.readbuf.length < r.buf.length + 5 := by
    have := congrArg List.length hs
    rw [List.length_append] at this
    have : 0 < more.length := List.length_pos_iff.2 hm
    omega
  unfold parseStandard
  by_cases h5 : s.readbuf.length < 5
  · rw [if_pos h5]
  · rw [if_neg h5]
    have hpre : ∃ t, s.readbuf = (r.cmd :: hex04 r.buf.length) ++ t := by
      have hl := lead_length h
      refine ⟨s.readbuf.drop 5, ?_⟩
      have e1 : (r.cmd :: hex04 r.buf.length) = (frame r).take 5 := by
        unfold frame; rw [← hl, List.take_left]
      have e2 : (frame r).take 5 = s.readbuf.take 5 := by
        rw [← hs, List.take_append_of_le_length (by omega)]
      rw [e1, e2, List.take_append_drop]
    obtain ⟨t, ht⟩ := hpre
    have hscan : scanLead (s.readbuf ++ stale) = some (r.cmd, r.buf.length) := by
      rw [ht]
      have := scanLead_append h.1 (show r.buf.length < 65536 by rw [bufMax_eq] at h2; omega)
        (t ++ stale)
      simpa using this
    rw [hscan]
    simp only
    rw [if_neg (by omega), if_neg (by omega)]

/-- The frames of a list of messages. -/
def frames (ms : List Rec) : Str := (ms.map frame).flatten

/-- What holds of an honest connection at all times. -/
def Inv (ms : List Rec) (c : Conn) : Prop :=
  c.rx.err = false ∧ c.rx.readbuf.length ≤ bufMax ∧
  ∃ rest, ms = c.delivered ++ c.rx.rbuf.toList ++ rest ∧ c.rx.readbuf ++ c.net = frames rest ∧
    ∀ r ∈ rest, Sendable r

/-- A prefix of a stream of frames either begins with a whole frame or is a proper part of one. -/
theorem prefix_frames {ms : List Rec} {a b : Str} (h : a ++ b = frames ms) :
    a = [] ∨ (∃ r rest t, ms = r :: rest ∧ a = frame r ++ t ∧ t ++ b = frames rest) ∨
    (∃ r rest t, ms = r :: rest ∧ t ≠ [] ∧ a ++ t = frame r) := by
  cases ms with
  | nil => simp [frames] at h; exact Or.inl h.1
  | cons r rest =>
    right
    simp only [frames, List.map_cons, List.flatten_cons] at h
    rcases List.append_eq_append_iff.1 h with ⟨t, h1, h2⟩ | ⟨t, h1, h2⟩
    · by_cases ht : t = []
      · subst ht
        left
        refine ⟨r, rest, [], rfl, by simpa using h1.symm, ?_⟩
        simpa [frames] using h2
      · right; exact ⟨r, rest, t, rfl, ht, h1.symm⟩
    · left
      exact ⟨r, rest, t, rfl, h1, h2.symm⟩

theorem inv_parse {ms : List Rec} {c : Conn} (h : Inv ms c) (stale : Str) :
    Inv ms { c with rx := parseReadbuf c.rx stale } ∧
    ((parseReadbuf c.rx stale).rbuf = none → (parseReadbuf c.rx stale).readbuf.length < bufMax ∧
      ∀ rest, c.rx.readbuf ++ c.net = frames rest → ms = c.delivered ++ rest →
        c.net = [] → rest = []) := by
  obtain ⟨he, hb, rest, h1, h2, h3⟩ := h
  unfold parseReadbuf
  cases hr : c.rx.rbuf with
  | some r =>
    simp only [Option.isSome_some, if_true]
    exact ⟨⟨he, hb, rest, by simpa [hr] using h1, h2, h3⟩, fun h => by simp [hr] at h⟩
  | none =>
    simp only [Option.isSome_none, Bool.false_eq_true, if_false]
    rw [hr] at h1
    simp only [Option.toList_none, List.append_nil] at h1
    rcases prefix_frames h2 with h4 | ⟨r, rest', t, h4, h5, h6⟩ | ⟨r, rest', t, h4, h5, h6⟩
    · have hps : parseStandard c.rx stale = (c.rx, true) := by
        unfold parseStandard; rw [h4]; simp
      rw [hps]
      refine ⟨⟨he, hb, rest, by simpa [hr] using h1, h2, h3⟩, fun _ => ⟨?_, ?_⟩⟩
      · rw [h4]; simp [bufMax_eq]
      · intro rest2 h7 h8 h9
        rw [h4, h9] at h7
        simp only [List.append_nil] at h7
        cases rest2 with
        | nil => rfl
        | cons r rs =>
          exfalso
          have := congrArg List.length h7
          simp [frames, frame] at this
    · subst h4
      rw [parseStandard_frame (h3 r (by simp)) h5]
      refine ⟨⟨he, ?_, rest', by simpa using h1, h6, fun x hx => h3 x (by simp [hx])⟩,
        fun h => by simp at h⟩
      simp only
      rw [h5, List.length_append] at hb
      omega
    · subst h4
      have hsend := h3 r (by simp)
      rw [parseStandard_short hsend h6 h5]
      refine ⟨⟨he, hb, _, by simpa [hr] using h1, h2, h3⟩, fun _ => ⟨?_, ?_⟩⟩
      · have := congrArg List.length h6
        rw [List.length_append, frame_length hsend] at this
        have := hsend.2
        dsimp only
        omega
      · intro rest2 h7 h8 h9
        exfalso
        rw [h1] at h8
        have h10 := List.append_cancel_left h8
        rw [h9, List.append_nil, ← h10] at h7
        simp only [frames, List.map_cons, List.flatten_cons] at h7
        have e1 := congrArg List.length h7
        have e2 := congrArg List.length h6
        rw [List.length_append] at e1 e2
        have : 0 < t.length := List.length_pos_iff.2 h5
        omega

theorem inv_step {ms : List Rec} {c : Conn} (h : Inv ms c) (e : Ev) : Inv ms (step c e) := by
  cases e with
  | take =>
    unfold step
    obtain ⟨he, hb, rest, h1, h2, h3⟩ := h
    cases hr : c.rx.rbuf with
    | none => exact ⟨he, hb, rest, h1, h2, h3⟩
    | some r =>
      rw [hr] at h1
      exact ⟨he, hb, rest, by simpa using h1, h2, h3⟩
  | io n st1 st2 =>
    unfold step io
    have he := h.1
    simp only [he, Bool.false_eq_true, if_false]
    obtain ⟨i1, i2⟩ := inv_parse h st1
    have he1 := i1.1
    simp only at he1
    simp only [he1, Bool.false_eq_true, if_false]
    cases hr : (parseReadbuf c.rx st1).rbuf with
    | some r => simpa using i1
    | none =>
      simp only [Option.isSome_none, Bool.false_eq_true, if_false]
      have hcap := (i2 hr).1
      have hd : doRead (parseReadbuf c.rx st1) c.net n = ({ parseReadbuf c.rx st1 with
            readbuf := (parseReadbuf c.rx st1).readbuf ++
              c.net.take (min n (bufMax - (parseReadbuf c.rx st1).readbuf.length)) },
            c.net.drop (min n (bufMax - (parseReadbuf c.rx st1).readbuf.length))) := by
        unfold doRead
        rw [if_neg (by omega)]
      rw [hd]
      simp only [he1, Bool.false_eq_true, if_false]
      have i3 : Inv ms { c with
          rx := { parseReadbuf c.rx st1 with
            readbuf := (parseReadbuf c.rx st1).readbuf ++
              c.net.take (min n (bufMax - (parseReadbuf c.rx st1).readbuf.length)) }
          net := c.net.drop (min n (bufMax - (parseReadbuf c.rx st1).readbuf.length)) } := by
        obtain ⟨a1, a2, rest, a3, a4, a5⟩ := i1
        refine ⟨a1, ?_, rest, a3, ?_, a5⟩
        · simp only [List.length_append, List.length_take] at *
          omega
        · simp only [List.append_assoc, List.take_append_drop]
          exact a4
      have i4 := (inv_parse i3 st2).1
      simp only [he1] at i4
      exact i4

theorem inv_run {ms : List Rec} {c : Conn} (h : Inv ms c) (evs : List Ev) :
    Inv ms (run c evs) := by
  unfold run
  induction evs generalizing c with
  | nil => exact h
  | cons e evs ih => exact ih (inv_step h e)

/-- After an `io` step on a connection with no message waiting, one is waiting, or everything that
has arrived was looked at and more bytes were read if there were any. -/
theorem io_progress {ms : List Rec} {c : Conn} (h : Inv ms c) (n : Nat) (hn : 0 < n) (st1 st2 : Str)
    (hr : c.rx.rbuf = none) :
    (step c (.io n st1 st2)).rx.rbuf ≠ none ∨
    (step c (.io n st1 st2)).net.length < c.net.length ∨
    (c.net = [] ∧ ms = c.delivered) := by
  unfold step io
  have he := h.1
  simp only [he, Bool.false_eq_true, if_false]
  obtain ⟨i1, i2⟩ := inv_parse h st1
  have he1 := i1.1
  simp only at he1
  simp only [he1, Bool.false_eq_true, if_false]
  cases hr1 : (parseReadbuf c.rx st1).rbuf with
  | some r => left; simp [hr1]
  | none =>
    right
    simp only [Option.isSome_none, Bool.false_eq_true, if_false]
    obtain ⟨hcap, hend⟩ := i2 hr1
    have hd : doRead (parseReadbuf c.rx st1) c.net n = ({ parseReadbuf c.rx st1 with
          readbuf := (parseReadbuf c.rx st1).readbuf ++
            c.net.take (min n (bufMax - (parseReadbuf c.rx st1).readbuf.length)) },
          c.net.drop (min n (bufMax - (parseReadbuf c.rx st1).readbuf.length))) := by
      unfold doRead
      rw [if_neg (by omega)]
    rw [hd]
    simp only [he1, Bool.false_eq_true, if_false]
    cases hnet : c.net with
    | nil =>
      right
      obtain ⟨_, _, rest, a3, a4, _⟩ := h
      rw [hr] at a3
      simp only [Option.toList_none, List.append_nil] at a3
      have := hend rest a4 a3 hnet
      rw [this] at a3
      exact ⟨rfl, by simpa using a3⟩
    | cons b net =>
      left
      simp only [List.length_drop, List.length_cons]
      omega

/-- Remaining work: messages not taken yet and bytes not read yet. -/
def work (ms : List Rec) (c : Conn) : Nat := (ms.length - c.delivered.length) + c.net.length

theorem inv_delivered_le {ms : List Rec} {c : Conn} (h : Inv ms c) :
    c.delivered.length + c.rx.rbuf.toList.length ≤ ms.length := by
  obtain ⟨_, _, rest, h1, _⟩ := h
  have := congrArg List.length h1
  simp only [List.length_append] at this
  omega

theorem io_net_le (s : Rx) (net : Str) (n : Nat) (st1 st2 : Str) :
    (io s net n st1 st2).2.length ≤ net.length := by
  have hd : (doRead (parseReadbuf s st1) net n).2.length ≤ net.length := by
    unfold doRead
    split
    · exact Nat.le_refl _
    · simp
  unfold io
  dsimp only
  repeat' split
  all_goals first | exact Nat.le_refl _ | exact hd

theorem round_progress {ms : List Rec} {c : Conn} (h : Inv ms c) (n : Nat) (hn : 0 < n)
    (st1 st2 : Str) :
    work ms (step (step c (.io n st1 st2)) .take) < work ms c ∨ c.delivered = ms := by
  have h1 := inv_step h (.io n st1 st2)
  have h2 := inv_step h1 .take
  have hd : (step c (.io n st1 st2)).delivered = c.delivered := rfl
  have hnet : (step c (.io n st1 st2)).net.length ≤ c.net.length :=
    io_net_le c.rx c.net n st1 st2
  have htake : ∀ c' : Conn, Inv ms c' → c'.delivered = c.delivered →
      c'.net.length ≤ c.net.length → c'.rx.rbuf ≠ none →
      work ms (step c' .take) < work ms c := by
    intro c' hi hd' hn' hr'
    cases hr : c'.rx.rbuf with
    | none => exact absurd hr hr'
    | some r =>
      have := inv_delivered_le hi
      rw [hr] at this
      simp only [Option.toList_some, List.length_singleton] at this
      simp only [step, hr, work, List.length_append, List.length_singleton]
      rw [hd'] at this ⊢
      omega
  cases hr : c.rx.rbuf with
  | some r =>
    left
    apply htake _ h1 hd hnet
    have hp : parseReadbuf c.rx st1 = c.rx := by unfold parseReadbuf; simp [hr]
    have he := h.1
    have hio : io c.rx c.net n st1 st2 = (c.rx, c.net) := by
      unfold io
      simp [he, hp, hr]
    simp [step, hio, hr]
  | none =>
    rcases io_progress h n hn st1 st2 hr with h3 | h3 | h3
    · left; exact htake _ h1 hd hnet h3
    · left
      have hle := inv_delivered_le h1
      cases hr2 : (step c (.io n st1 st2)).rx.rbuf with
      | some r => exact htake _ h1 hd hnet (by rw [hr2]; simp)
      | none =>
        have : step (step c (.io n st1 st2)) .take = step c (.io n st1 st2) := by
          generalize step c (.io n st1 st2) = c' at *
          simp only [step, hr2]
        rw [this]
        unfold work
        rw [hd]
        omega
    · right; exact h3.2.symm

theorem run_append (c : Conn) (a b : List Ev) : run c (a ++ b) = run (run c a) b := by
  unfold run; exact List.foldl_append

theorem delivered_mono (c : Conn) (evs : List Ev) : c.delivered <+: (run c evs).delivered := by
  unfold run
  induction evs generalizing c with
  | nil => exact List.prefix_refl _
  | cons e evs ih =>
    refine List.IsPrefix.trans ?_ (ih (step c e))
    cases e with
    | io n st1 st2 => exact List.prefix_refl _
    | take =>
      cases hr : c.rx.rbuf with
      | none => simp only [step, hr]; exact List.prefix_refl _
      | some r => simp only [step, hr]; exact List.prefix_append _ _

theorem inv_prefix {ms : List Rec} {c : Conn} (h : Inv ms c) : c.delivered <+: ms := by
  obtain ⟨_, _, rest, h1, _⟩ := h
  exact ⟨c.rx.rbuf.toList ++ rest, by rw [h1]; simp⟩

/-- Enough rounds of reading and taking deliver everything. -/
theorem rounds_deliver {ms : List Rec} {c : Conn} (h : Inv ms c)
    (rounds : List (Nat × Str × Str)) (hr : ∀ x ∈ rounds, 0 < x.1)
    (hlen : work ms c ≤ rounds.length) :
    (run c (rounds.flatMap (fun x => [.io x.1 x.2.1 x.2.2, .take]))).delivered = ms := by
  induction rounds generalizing c with
  | nil =>
    have h1 := inv_prefix h
    simp only [List.length_nil, Nat.le_zero, work] at hlen
    simp only [List.flatMap_nil]
    show c.delivered = ms
    exact h1.eq_of_length_le (by omega)
  | cons x rounds ih =>
    simp only [List.flatMap_cons]
    rw [run_append]
    have e : run c [.io x.1 x.2.1 x.2.2, .take] = step (step c (.io x.1 x.2.1 x.2.2)) .take := rfl
    rw [e]
    have hi := inv_step (inv_step h (.io x.1 x.2.1 x.2.2)) .take
    rcases round_progress h x.1 (hr x (by simp)) x.2.1 x.2.2 with h1 | h1
    · apply ih hi (fun y hy => hr y (by simp [hy]))
      simp only [List.length_cons] at hlen
      omega
    · -- everything is there already
      have hmono := delivered_mono c ([.io x.1 x.2.1 x.2.2, .take] ++
        rounds.flatMap (fun x => [.io x.1 x.2.1 x.2.2, .take]))
      rw [run_append, e, h1] at hmono
      have hfin := inv_prefix (inv_run hi (rounds.flatMap (fun x => [.io x.1 x.2.1 x.2.2, .take])))
      exact (hfin.eq_of_length_le hmono.length_le)

/-! ### Arbitrary peers -/

/-- What holds whatever the peer sends. -/
def Bounded (s : Rx) : Prop :=
  s.readbuf.length ≤ bufMax ∧ ∀ r, s.rbuf = some r → r.buf.length + 5 < bufMax

theorem bounded_parseStandard {s : Rx} (h : Bounded s) (stale : Str) :
    Bounded (parseStandard s stale).1 := by
  unfold parseStandard
  split
  · exact h
  · split
    · exact h
    · split
      · exact h
      · split
        · unfold extractBuf
          split
          · exact h
          · refine ⟨?_, ?_⟩
            · have := h.1; simp; omega
            · intro r hr
              simp at hr
              rw [← hr]
              simp only [List.length_take]
              omega
        · exact h

theorem bounded_parse {s : Rx} (h : Bounded s) (stale : Str) : Bounded (parseReadbuf s stale) := by
  have h1 := bounded_parseStandard h stale
  unfold parseReadbuf
  split
  · exact h
  · split
    · rename_i heq; rw [heq] at h1; exact h1
    · rename_i heq; rw [heq] at h1; exact ⟨by simp, h1.2⟩

theorem bounded_doRead {s : Rx} (h : Bounded s) (net : Str) (n : Nat) :
    Bounded (doRead s net n).1 := by
  unfold doRead
  split
  · exact ⟨by simp, h.2⟩
  · refine ⟨?_, h.2⟩
    have := h.1
    simp only [List.length_append, List.length_take]
    omega

theorem bounded_io {s : Rx} (h : Bounded s) (net : Str) (n : Nat) (st1 st2 : Str) :
    Bounded (io s net n st1 st2).1 := by
  have h1 := bounded_parse h st1
  have h2 := bounded_doRead h1 net n
  unfold io
  split
  · exact h
  · dsimp only
    split
    · exact h1
    · split
      · exact h1
      · split
        · exact h2
        · exact bounded_parse h2 st2

theorem bounded_step {c : Conn} (h : Bounded c.rx) (e : Ev) : Bounded (step c e).rx := by
  cases e with
  | take =>
    unfold step
    cases hr : c.rx.rbuf with
    | none => exact h
    | some r => exact ⟨h.1, fun r hr => by simp at hr⟩
  | io n st1 st2 => exact bounded_io h c.net n st1 st2

theorem bounded_run {c : Conn} (h : Bounded c.rx) (evs : List Ev) : Bounded (run c evs).rx := by
  unfold run
  induction evs generalizing c with
  | nil => exact h
  | cons e evs ih => exact ih (bounded_step h e)

/-! ### Sending -/

/-- What holds of the sender at all times. -/
def TxInv (t : Tx) : Prop :=
  t.sent ++ t.writebuf = frames t.accepted ∧ t.writebuf.length + 1 < bufMax ∧
  ∀ r ∈ t.accepted, r.buf.length + 7 < bufMax

theorem append_some {wb wb' : Str} {r : Rec} (h : append wb r = some wb') :
    wb' = wb ++ frame r ∧ wb'.length + 1 < bufMax ∧ r.buf.length + 7 < bufMax := by
  unfold append at h
  split at h
  · simp at h
  · rename_i hlt
    rw [bufMax_eq] at hlt
    have hmod : r.buf.length % 2 ^ 32 = r.buf.length := Nat.mod_eq_of_lt (by omega)
    have hl : (hex04 r.buf.length).length = 4 := (hex04_length _).2 (by omega)
    have ht : (r.cmd :: hex04 r.buf.length).take 9 = r.cmd :: hex04 r.buf.length := by
      apply List.take_of_length_le; simp [hl]
    rw [hmod, ht] at h
    simp only [Option.some.injEq] at h
    subst h
    refine ⟨by simp [frame], ?_, ?_⟩
    · simp [hl, bufMax_eq]; omega
    · rw [bufMax_eq]; omega

theorem txInv_step {t : Tx} (h : TxInv t) (e : TxEv) : TxInv (txStep t e) := by
  cases e with
  | append r =>
    cases ha : append t.writebuf r with
    | none => simp only [txStep, ha]; exact h
    | some wb =>
      simp only [txStep, ha]
      obtain ⟨h1, h2, h3⟩ := append_some ha
      refine ⟨?_, h2, ?_⟩
      · simp only [h1]
        rw [← List.append_assoc, h.1]
        simp [frames]
      · intro x hx
        simp at hx
        rcases hx with hx | rfl
        · exact h.2.2 x hx
        · exact h3
  | write w =>
    unfold txStep doWrite
    refine ⟨?_, ?_, h.2.2⟩
    · simp only [List.append_assoc, List.take_append_drop]; exact h.1
    · have := h.2.1; simp; omega

theorem txInv_run {t : Tx} (h : TxInv t) (evs : List TxEv) : TxInv (txRun t evs) := by
  unfold txRun
  induction evs generalizing t with
  | nil => exact h
  | cons e evs ih => exact ih (txInv_step h e)

theorem txInv_init : TxInv {} := ⟨by simp [frames], by simp [bufMax_eq], by simp⟩

end Verif.Asfd
