import Verif.Spec.Tls
import Verif.Lemmas.Asfd

/-!
# Messages through TLS
-/

namespace Verif.Tls
open Verif Verif.Iobuf Verif.Asfd

/-- Messages that are sent together: the records are made of their frames, and all of it fits into
one buffer. -/
structure Burst where
  msgs : List Rec
  recs : List Str

def Burst.Ok (b : Burst) : Prop :=
  b.recs.flatten = frames b.msgs ∧ (frames b.msgs).length ≤ bufMax ∧ ∀ r ∈ b.msgs, Sendable r

theorem frames_cons (r : Rec) (ms : List Rec) : frames (r :: ms) = frame r ++ frames ms := by
  simp [frames]

theorem frames_app (a b : List Rec) : frames (a ++ b) = frames a ++ frames b := by simp [frames]

/-- Frames can be told apart. -/
theorem frame_inj {a b : Rec} {s t : Str} (ha : Sendable a) (hb : Sendable b)
    (h : frame a ++ s = frame b ++ t) : a = b ∧ s = t := by
  have h1 := parseStandard_frame (s := { readbuf := frame a ++ s }) ha rfl []
  have h2 := parseStandard_frame (s := { readbuf := frame a ++ s }) hb h []
  rw [h1] at h2
  simp only [Prod.mk.injEq, Rx.mk.injEq, Option.some.injEq] at h2
  exact ⟨h2.1.2.1, h2.1.1⟩

/-- No whole frame at the beginning. -/
def NoFrame (s : Str) : Prop := ∀ m t, Sendable m → s ≠ frame m ++ t

theorem prefix_of_frames {D M : List Rec} {rb c : Str} (hD : ∀ r ∈ D, Sendable r)
    (hM : ∀ r ∈ M, Sendable r) (hn : NoFrame rb) (h : frames D ++ rb = frames M ++ c) :
    ∃ D', D = M ++ D' ∧ frames D' ++ rb = c := by
  induction M generalizing D with
  | nil => exact ⟨D, rfl, by simpa [frames] using h⟩
  | cons m M ih =>
    cases D with
    | nil =>
      exfalso
      rw [frames_cons, List.append_assoc] at h
      simp only [frames, List.map_nil, List.flatten_nil, List.nil_append] at h
      exact hn m _ (hM m (by simp)) h
    | cons d D =>
      rw [frames_cons, frames_cons, List.append_assoc, List.append_assoc] at h
      obtain ⟨rfl, h2⟩ := frame_inj (hD d (by simp)) (hM m (by simp)) h
      obtain ⟨D', h3, h4⟩ := ih (fun r hr => hD r (by simp [hr])) (fun r hr => hM r (by simp [hr])) h2
      exact ⟨D', by rw [h3]; rfl, h4⟩

/-- When parsing leaves nothing to take, there was nothing to take. -/
theorem parse_none {s : Rx} {st : Str} (h1 : (parseReadbuf s st).rbuf = none)
    (h2 : (parseReadbuf s st).err = false) (_h3 : s.err = false) :
    parseReadbuf s st = s ∧ NoFrame s.readbuf := by
  have hs : s.rbuf = none := by
    cases hr : s.rbuf with
    | none => rfl
    | some r =>
      unfold parseReadbuf at h1
      simp [hr] at h1
  have key : parseReadbuf s st = s := by
    unfold parseReadbuf at h1 h2 ⊢
    simp only [hs, Option.isSome_none, Bool.false_eq_true, if_false] at h1 h2 ⊢
    have hp : ∀ x : Rx × Bool, parseStandard s st = x → x.2 = true → x.1.rbuf = none → x.1 = s := by
      intro x hx hx2 hx3
      unfold parseStandard at hx
      split at hx
      · rw [← hx]
      · split at hx
        · rw [← hx] at hx2; cases hx2
        · split at hx
          · rw [← hx] at hx2; cases hx2
          · split at hx
            · unfold extractBuf at hx
              split at hx
              · rw [← hx] at hx2; cases hx2
              · rw [← hx] at hx3; cases hx3
            · rw [← hx]
    cases hx : parseStandard s st with
    | mk a b =>
      rw [hx] at h1 h2
      cases b with
      | true => exact hp _ hx rfl h1
      | false => cases h2
  refine ⟨key, ?_⟩
  intro m t hm he
  have := parseStandard_frame (s := s) hm he st
  unfold parseReadbuf at h1
  simp only [hs, Option.isSome_none, Bool.false_eq_true, if_false, this] at h1
  cases h1

/-- Where a record stands in what is sent. -/
theorem burst_split {B : List Burst} (hB : ∀ b ∈ B, b.Ok) (k : Nat) (x : Str)
    (hx : (B.flatMap (·.recs))[k]? = some x) :
    ∃ M c, ((B.flatMap (·.recs)).take k).flatten = frames M ++ c ∧ (∀ r ∈ M, Sendable r) ∧
      c.length + x.length ≤ bufMax := by
  induction B generalizing k with
  | nil => simp at hx
  | cons b B ih =>
    obtain ⟨h1, h2, h3⟩ := hB b (by simp)
    rw [List.flatMap_cons] at hx ⊢
    by_cases hk : k < b.recs.length
    · refine ⟨[], (b.recs.take k).flatten, ?_, by simp, ?_⟩
      · rw [List.take_append_of_le_length (by omega)]
        simp [frames]
      · rw [List.getElem?_append_left hk] at hx
        have : b.recs = b.recs.take k ++ x :: b.recs.drop (k + 1) := by
          obtain ⟨h4, h5⟩ := List.getElem?_eq_some_iff.mp hx
          rw [← h5, List.getElem_cons_drop, List.take_append_drop]
        have h6 := congrArg List.flatten this
        rw [List.flatten_append, List.flatten_cons, h1] at h6
        have := congrArg List.length h6
        simp only [List.length_append] at this
        omega
    · rw [List.getElem?_append_right (by omega)] at hx
      obtain ⟨M, c, h4, h5, h6⟩ := ih (fun y hy => hB y (by simp [hy])) _ hx
      refine ⟨b.msgs ++ M, c, ?_, ?_, h6⟩
      · rw [List.take_append, List.take_of_length_le (by omega), List.flatten_append, h4, h1, frames_app,
          List.append_assoc]
      · intro r hr
        rcases List.mem_append.mp hr with hr | hr
        · exact h3 r hr
        · exact h5 r hr

/-- The state of the receiver, with what is not on its way yet. -/
def conn (c : TRx) (unsent : List Str) : Conn :=
  ⟨c.rx, (c.socket ++ c.wire ++ unsent).flatten, c.delivered⟩

/-- What holds at all times at the receiving end. -/
def TInv (B : List Burst) (unsent : List Str) (c : TRx) : Prop :=
  Inv (B.flatMap (·.msgs)) (conn c unsent) ∧ c.inner = [] ∧
  ∃ k, c.socket ++ c.wire ++ unsent = (B.flatMap (·.recs)).drop k

theorem bursts_flatten {B : List Burst} (hB : ∀ b ∈ B, b.Ok) :
    (B.flatMap (·.recs)).flatten = frames (B.flatMap (·.msgs)) := by
  induction B with
  | nil => rfl
  | cons b B ih =>
    rw [List.flatMap_cons, List.flatMap_cons, List.flatten_append, frames_app, (hB b (by simp)).1,
      ih (fun y hy => hB y (by simp [hy]))]

theorem bursts_sendable {B : List Burst} (hB : ∀ b ∈ B, b.Ok) :
    ∀ r ∈ B.flatMap (·.msgs), Sendable r := by
  intro r hr
  obtain ⟨b, hb, h⟩ := List.mem_flatMap.mp hr
  exact (hB b hb).2.2 r h

/-- What has been read. -/
theorem inv_read {B : List Burst} (hB : ∀ b ∈ B, b.Ok) {unsent : List Str} {c : TRx} {k : Nat}
    (h : Inv (B.flatMap (·.msgs)) (conn c unsent))
    (hk : c.socket ++ c.wire ++ unsent = (B.flatMap (·.recs)).drop k) :
    ((B.flatMap (·.recs)).take k).flatten = frames (c.delivered ++ c.rx.rbuf.toList) ++ c.rx.readbuf := by
  obtain ⟨-, -, rest, h1, h2, -⟩ := h
  have h3 : frames (B.flatMap (·.msgs)) =
      frames (c.delivered ++ c.rx.rbuf.toList) ++ (c.rx.readbuf ++ ((B.flatMap (·.recs)).drop k).flatten) := by
    rw [h1, frames_app, ← hk]
    exact congrArg (frames (c.delivered ++ c.rx.rbuf.toList) ++ ·) h2.symm
  rw [← bursts_flatten hB, ← List.append_assoc] at h3
  have h4 : (B.flatMap (·.recs)).flatten =
      ((B.flatMap (·.recs)).take k).flatten ++ ((B.flatMap (·.recs)).drop k).flatten := by
    rw [← List.flatten_append, List.take_append_drop]
  rw [h4] at h3
  exact List.append_cancel_right h3

/-- There is room for the next record when there is nothing to take. -/
theorem room {B : List Burst} (hB : ∀ b ∈ B, b.Ok) {unsent : List Str} {c : TRx}
    (h : TInv B unsent c) (hr : c.rx.rbuf = none) (hn : NoFrame c.rx.readbuf) {r : Str} {rest : List Str}
    (hs : c.socket = r :: rest) : c.rx.readbuf.length + r.length ≤ bufMax := by
  obtain ⟨h1, -, k, hk⟩ := h
  have hx : (B.flatMap (·.recs))[k]? = some r := by
    have : ((B.flatMap (·.recs)).drop k)[0]? = some r := by rw [← hk, hs]; rfl
    simpa using this
  obtain ⟨M, d, h2, h3, h4⟩ := burst_split hB k r hx
  have h5 := inv_read hB h1 hk
  rw [h2, hr] at h5
  simp only [Option.toList_none, List.append_nil] at h5
  have hD : ∀ x ∈ c.delivered, Sendable x := by
    intro x hx
    obtain ⟨-, -, rest', h6, -⟩ := h1
    exact bursts_sendable hB x (by rw [h6]; exact List.mem_append_left _ (List.mem_append_left _ hx))
  obtain ⟨D', -, h7⟩ := prefix_of_frames hD h3 hn h5.symm
  have := congrArg List.length h7
  rw [List.length_append] at this
  omega

theorem tinv_parse {B : List Burst} {unsent : List Str} {c : TRx} (h : TInv B unsent c) (st : Str) :
    TInv B unsent { c with rx := parseReadbuf c.rx st } :=
  ⟨(inv_parse h.1 st).1, h.2.1, h.2.2⟩

/-- A run of `async_io`. -/
theorem tinv_io {B : List Burst} (hB : ∀ b ∈ B, b.Ok) {unsent : List Str} {c : TRx}
    (h : TInv B unsent c) (st1 st2 : Str) :
    TInv B unsent (io c st1 st2) ∧
    ((io c st1 st2).rx.rbuf = none → (io c st1 st2).socket = [] → NoFrame (io c st1 st2).rx.readbuf) := by
  have he : c.rx.err = false := h.1.1
  have h1 := tinv_parse h st1
  have he1 : (parseReadbuf c.rx st1).err = false := h1.1.1
  unfold io
  simp only [he, Bool.false_eq_true, if_false, he1, Bool.false_or]
  by_cases hc : ((parseReadbuf c.rx st1).rbuf.isSome || c.socket.isEmpty) = true
  · rw [if_pos hc]
    refine ⟨h1, ?_⟩
    intro hr _
    have := parse_none (s := c.rx) (st := st1) hr he1 he
    simp only
    rw [this.1]
    exact this.2
  · rw [if_neg hc]
    simp only [Bool.or_eq_true, not_or, Bool.not_eq_true, Option.isSome_eq_false_iff,
      Option.isNone_iff_eq_none] at hc
    obtain ⟨hr, hse⟩ := hc
    obtain ⟨hp1, hp2⟩ := parse_none (s := c.rx) (st := st1) hr he1 he
    obtain ⟨r, rest, hs⟩ : ∃ r rest, c.socket = r :: rest := by
      cases hs : c.socket with
      | nil => rw [hs] at hse; cases hse
      | cons r rest => exact ⟨r, rest, rfl⟩
    rw [hp1] at hr h1 ⊢
    have hroom : c.rx.readbuf.length + r.length ≤ bufMax := room hB h1 hr hp2 hs
    have hlt := (inv_parse h.1 st1).2
    have hlt2 : c.rx.readbuf.length < bufMax := by
      have := hlt (by show (parseReadbuf c.rx st1).rbuf = none; rw [hp1]; exact hr)
      have h2 : (parseReadbuf c.rx st1).readbuf.length < bufMax := this.1
      rw [hp1] at h2
      exact h2
    have hss : sslRead { c with rx := c.rx } =
        { c with rx := { c.rx with readbuf := c.rx.readbuf ++ r }, inner := [], socket := rest } := by
      unfold sslRead
      simp only
      rw [if_neg (by omega), if_neg (by simp [h.2.1]), hs]
      simp only
      rw [List.take_of_length_le (by omega), List.drop_eq_nil_of_le (by omega)]
    rw [hss]
    rw [if_neg (show ¬ c.rx.err = true by rw [he]; decide)]
    have h2 : TInv B unsent
        { c with rx := { c.rx with readbuf := c.rx.readbuf ++ r }, inner := [], socket := rest } := by
      obtain ⟨⟨-, -, rest', i1, i2, i3⟩, -, k, hk⟩ := h1
      refine ⟨⟨he, by simp only [conn, List.length_append]; omega, rest', i1, ?_, i3⟩, rfl, k + 1, ?_⟩
      · rw [← i2]
        simp only [conn, hs]
        simp
      · simp only [hs] at hk ⊢
        rw [← List.tail_drop, ← hk]
        rfl
    have h3 := tinv_parse h2 st2
    refine ⟨h3, ?_⟩
    intro hr3 _
    have := parse_none (st := st2) hr3 h3.1.1 he
    rw [this.1]
    exact this.2

theorem tinv_step {B : List Burst} (hB : ∀ b ∈ B, b.Ok) {unsent : List Str} {c : TRx}
    (h : TInv B unsent c) (e : Ev) : TInv B unsent (step c e) := by
  cases e with
  | io st1 st2 => exact (tinv_io hB h st1 st2).1
  | arrive =>
    unfold step
    cases hw : c.wire with
    | nil => exact h
    | cons r rest =>
      simp only
      obtain ⟨⟨i0, i4, rest', i1, i2, i3⟩, hi, k, hk⟩ := h
      refine ⟨⟨i0, i4, rest', i1, ?_, i3⟩, hi, k, ?_⟩
      · rw [← i2]
        simp only [conn, hw]
        simp
      · rw [← hk, hw]
        simp
  | take =>
    have := inv_step h.1 .take
    unfold step
    unfold Asfd.step at this
    cases hr : c.rx.rbuf with
    | none => exact h
    | some r =>
      simp only [conn, hr] at this
      exact ⟨this, h.2.1, h.2.2⟩

theorem tinv_run {B : List Burst} (hB : ∀ b ∈ B, b.Ok) {unsent : List Str} {c : TRx}
    (h : TInv B unsent c) (evs : List Ev) : TInv B unsent (run c evs) := by
  unfold run
  induction evs generalizing c with
  | nil => exact h
  | cons e evs ih => exact ih (tinv_step hB h e)

theorem tinv_fresh {B : List Burst} (hB : ∀ b ∈ B, b.Ok) {records unsent : List Str}
    (h : records ++ unsent = B.flatMap (·.recs)) : TInv B unsent (fresh records) := by
  refine ⟨⟨rfl, by simp [conn, fresh], B.flatMap (·.msgs), by simp [conn, fresh], ?_, bursts_sendable hB⟩,
    rfl, 0, by simpa [fresh] using h⟩
  simp only [conn, fresh, List.nil_append, h]
  exact bursts_flatten hB

/-! ### Sending -/

/-- What holds at all times at the sending end. -/
def TxInv (t : TTx) : Prop :=
  ∃ (B : List Burst) (cur : List Rec) (g : List Str), (∀ b ∈ B, b.Ok) ∧ t.records = B.flatMap (·.recs) ++ g ∧
    g.flatten = t.writebuf.take t.out ∧ t.out ≤ t.writebuf.length ∧ t.writebuf = frames cur ∧
    t.writebuf.length + 1 ≤ bufMax ∧ t.accepted = B.flatMap (·.msgs) ++ cur ∧ ∀ r ∈ cur, Sendable r

theorem txInv_step {t : TTx} (h : TxInv t) (e : TxEv) (he : ∀ r, e = .append r → r.cmd ≠ 0) :
    TxInv (txStep t e) := by
  obtain ⟨B, cur, g, h1, h2, h3, h4, h5, h6, h7, h8⟩ := h
  cases e with
  | append r =>
    cases ha : Asfd.append t.writebuf r with
    | none =>
      simp only [txStep, ha]
      exact ⟨B, cur, g, h1, h2, h3, h4, h5, h6, h7, h8⟩
    | some wb =>
      simp only [txStep, ha]
      obtain ⟨a1, a2, a3⟩ := append_some ha
      refine ⟨B, cur ++ [r], g, h1, h2, ?_, ?_, ?_, ?_, ?_, ?_⟩
      · simp only [a1]
        rw [List.take_append_of_le_length h4]
        exact h3
      · simp only [a1, List.length_append]; omega
      · simp only [a1, h5, frames_app]
        simp [frames]
      · simp only; omega
      · simp only [h7, List.append_assoc]
      · intro x hx
        rcases List.mem_append.mp hx with hx | hx
        · exact h8 x hx
        · rw [List.mem_singleton] at hx
          subst hx
          exact ⟨he x rfl, by omega⟩
  | emit k =>
    simp only [txStep]
    by_cases hk : t.out + k ≤ t.writebuf.length
    · simp only [if_pos hk]
      refine ⟨B, cur, g ++ [(t.writebuf.drop t.out).take k], h1, ?_, ?_, hk, h5, h6, h7, h8⟩
      · simp only [h2, List.append_assoc]
      · rw [List.flatten_append, h3]
        simp only [List.flatten_cons, List.flatten_nil, List.append_nil]
        rw [List.take_add]
    · simp only [if_neg hk]
      exact ⟨B, cur, g, h1, h2, h3, h4, h5, h6, h7, h8⟩
  | done =>
    simp only [txStep]
    by_cases hk : t.out = t.writebuf.length
    · simp only [if_pos hk]
      refine ⟨B ++ [⟨cur, g⟩], [], [], ?_, ?_, rfl, Nat.le_refl _, rfl, ?_, ?_, by simp⟩
      · intro b hb
        rcases List.mem_append.mp hb with hb | hb
        · exact h1 b hb
        · rw [List.mem_singleton] at hb
          subst hb
          refine ⟨?_, ?_, h8⟩
          · simp only; rw [h3, hk, List.take_length, h5]
          · simp only; rw [← h5]; omega
      · simp only [h2, List.flatMap_append, List.flatMap_cons, List.flatMap_nil, List.append_nil]
      · simp [bufMax_eq]
      · simp only [h7, List.flatMap_append, List.flatMap_cons, List.flatMap_nil, List.append_nil]
    · simp only [if_neg hk]
      exact ⟨B, cur, g, h1, h2, h3, h4, h5, h6, h7, h8⟩

theorem txInv_run {t : TTx} (h : TxInv t) (evs : List TxEv) (he : ∀ r, .append r ∈ evs → r.cmd ≠ 0) :
    TxInv (txRun t evs) := by
  unfold txRun
  induction evs generalizing t with
  | nil => exact h
  | cons e evs ih =>
    exact ih (txInv_step h e (fun r hr => he r (by rw [hr]; simp))) (fun r hr => he r (by simp [hr]))

theorem txInv_init : TxInv {} :=
  ⟨[], [], [], by simp, rfl, rfl, Nat.le_refl _, rfl, by simp [bufMax_eq], rfl, by simp⟩

/-- The sender's records, with what is left to send, are such bursts. -/
theorem tx_bursts (evs : List TxEv) (he : ∀ r, .append r ∈ evs → r.cmd ≠ 0) :
    ∃ (B : List Burst) (unsent : List Str), (∀ b ∈ B, b.Ok) ∧ (txRun {} evs).records ++ unsent = B.flatMap (·.recs) ∧
      B.flatMap (·.msgs) = (txRun {} evs).accepted := by
  obtain ⟨B, cur, g, h1, h2, h3, h4, h5, h6, h7, h8⟩ := txInv_run txInv_init evs he
  generalize txRun {} evs = t at *
  refine ⟨B ++ [⟨cur, g ++ [t.writebuf.drop t.out]⟩], [t.writebuf.drop t.out], ?_, ?_, ?_⟩
  · intro b hb
    rcases List.mem_append.mp hb with hb | hb
    · exact h1 b hb
    · rw [List.mem_singleton] at hb
      subst hb
      refine ⟨?_, ?_, h8⟩
      · simp only [List.flatten_append, List.flatten_cons, List.flatten_nil, List.append_nil]
        rw [h3, List.take_append_drop, h5]
      · simp only; rw [← h5]; omega
  · simp [h2, List.flatMap_append]
  · simp [h7, List.flatMap_append]

end Verif.Tls
