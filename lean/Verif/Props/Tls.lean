import Verif.Lemmas.Tls

/-!
# C87: what has arrived through TLS is delivered
-/

namespace Verif.Tls
open Verif Verif.Iobuf Verif.Asfd

theorem arrived_eq {B : List Burst} {records unsent : List Str}
    (h : records ++ unsent = B.flatMap (·.recs)) {c : TRx} {k : Nat} (hs : c.socket = [])
    (hk : c.socket ++ c.wire ++ unsent = (B.flatMap (·.recs)).drop k) (hkl : k ≤ records.length) :
    arrived records c = ((B.flatMap (·.recs)).take k).flatten := by
  unfold arrived
  rw [hs, List.nil_append, ← h, List.drop_append_of_le_length hkl] at hk
  have h1 := List.append_cancel_right hk
  have h2 := congrArg List.length h1
  rw [List.length_drop] at h2
  rw [← h, List.take_append_of_le_length hkl]
  congr 2
  omega

/-- How far the records have been read. -/
theorem pos_le {B : List Burst} {records unsent : List Str}
    (h : records ++ unsent = B.flatMap (·.recs)) {c : TRx}
    (hc : ∃ k, c.socket ++ c.wire ++ unsent = (B.flatMap (·.recs)).drop k) :
    ∃ k, c.socket ++ c.wire ++ unsent = (B.flatMap (·.recs)).drop k ∧ k ≤ records.length := by
  obtain ⟨k, hk⟩ := hc
  by_cases hl : k ≤ (records ++ unsent).length
  · refine ⟨k, hk, ?_⟩
    have := congrArg List.length hk
    rw [← h, List.length_drop] at this
    simp only [List.length_append] at this hl
    omega
  · refine ⟨records.length, ?_, Nat.le_refl _⟩
    have h1 : (B.flatMap (·.recs)).drop k = [] := List.drop_eq_nil_of_le (by rw [← h]; omega)
    rw [hk, h1, ← h, List.drop_left]
    have := congrArg List.length hk
    rw [h1] at this
    simp only [List.length_append, List.length_nil] at this
    cases unsent with
    | nil => rfl
    | cons a b => simp at this

theorem quiet {B : List Burst} (hB : ∀ b ∈ B, b.Ok) {records unsent : List Str}
    (h : records ++ unsent = B.flatMap (·.recs)) {c : TRx} (hc : TInv B unsent c)
    (hr : c.rx.rbuf = none) (hs : c.socket = []) (hn : NoFrame c.rx.readbuf)
    {M : List Rec} (hM : M <+: B.flatMap (·.msgs)) (ha : onWire M <+: arrived records c) :
    M <+: c.delivered := by
  obtain ⟨k, hk, hkl⟩ := pos_le h hc.2.2
  rw [arrived_eq h hs hk hkl, inv_read hB hc.1 hk, hr] at ha
  simp only [Option.toList_none, List.append_nil] at ha
  obtain ⟨t, ht⟩ := ha
  have hD : ∀ x ∈ c.delivered, Sendable x := by
    intro x hx
    obtain ⟨-, -, rest', h6, -⟩ := hc.1
    exact bursts_sendable hB x (by rw [h6]; exact List.mem_append_left _ (List.mem_append_left _ hx))
  have hMs : ∀ x ∈ M, Sendable x := by
    intro x hx
    obtain ⟨u, hu⟩ := hM
    exact bursts_sendable hB x (by rw [← hu]; exact List.mem_append_left _ hx)
  obtain ⟨D', h1, -⟩ := prefix_of_frames hD hMs hn (c := t) ht.symm
  exact ⟨D', h1.symm⟩

/-- Reading something and taking what is there. -/
def turn (st : Str × Str) : List Ev := [.io st.1 st.2, .take]

theorem run_app (c : TRx) (a b : List Ev) : run c (a ++ b) = run (run c a) b := by
  unfold run; exact List.foldl_append

/-- What is left to do. -/
def todo (B : List Burst) (c : TRx) : Nat :=
  c.socket.length + ((B.flatMap (·.msgs)).length - c.delivered.length)

theorem io_delivered (c : TRx) (st1 st2 : Str) : (io c st1 st2).delivered = c.delivered := by
  unfold io
  by_cases he : c.rx.err = true
  · rw [if_pos he]
  · rw [if_neg he]
    simp only
    split
    · rfl
    · have : ∀ x : TRx, (sslRead x).delivered = x.delivered := by
        intro x
        unfold sslRead
        simp only
        split
        · rfl
        · split
          · rfl
          · split <;> rfl
      split
      · exact this _
      · exact this _

theorem io_socket (c : TRx) (st1 st2 : Str) :
    (io c st1 st2).socket.length ≤ c.socket.length ∧ (io c st1 st2).wire = c.wire := by
  unfold io
  by_cases he : c.rx.err = true
  · rw [if_pos he]; exact ⟨Nat.le_refl _, rfl⟩
  · rw [if_neg he]
    simp only
    split
    · exact ⟨Nat.le_refl _, rfl⟩
    · have : ∀ x : TRx, (sslRead x).socket.length ≤ x.socket.length ∧ (sslRead x).wire = x.wire := by
        intro x
        unfold sslRead
        simp only
        split
        · exact ⟨Nat.le_refl _, rfl⟩
        · split
          · exact ⟨Nat.le_refl _, rfl⟩
          · split
            · exact ⟨Nat.le_refl _, rfl⟩
            · rename_i h; rw [h]; simp
      split
      · exact this _
      · exact this _

/-- One turn gets on, or there is nothing to do. -/
theorem turn_progress {B : List Burst} (hB : ∀ b ∈ B, b.Ok) {unsent : List Str} {c : TRx}
    (h : TInv B unsent c) (st : Str × Str) :
    todo B (run c (turn st)) < todo B c ∨
      ((run c (turn st)).rx.rbuf = none ∧ (run c (turn st)).socket = [] ∧
        NoFrame (run c (turn st)).rx.readbuf) := by
  obtain ⟨h1, h2⟩ := tinv_io hB h st.1 st.2
  have hd := io_delivered c st.1 st.2
  obtain ⟨hs, -⟩ := io_socket c st.1 st.2
  show todo B (step (io c st.1 st.2) .take) < _ ∨ _
  have e : run c (turn st) = step (io c st.1 st.2) .take := rfl
  rw [e]
  have hle := inv_delivered_le h1.1
  simp only [conn] at hle
  cases hr : (io c st.1 st.2).rx.rbuf with
  | some r =>
    left
    simp only [step, hr, todo, hd, List.length_append, List.length_singleton]
    rw [hr, hd] at hle
    simp only [Option.toList_some, List.length_singleton] at hle
    omega
  | none =>
    have e2 : step (io c st.1 st.2) .take = io c st.1 st.2 := by simp only [step, hr]
    rw [e2]
    by_cases hsk : (io c st.1 st.2).socket = []
    · exact Or.inr ⟨hr, hsk, h2 hr hsk⟩
    · left
      unfold todo
      rw [hd]
      have hlt : (io c st.1 st.2).socket.length < c.socket.length := by
        have he : c.rx.err = false := h.1.1
        have hh1 := tinv_parse h st.1
        have he1 : (parseReadbuf c.rx st.1).err = false := hh1.1.1
        have hcs : c.socket ≠ [] := by
          intro hc
          rw [hc] at hs
          exact hsk (List.length_eq_zero_iff.mp (Nat.le_zero.mp hs))
        have hpr : (parseReadbuf c.rx st.1).rbuf = none := by
          cases hp : (parseReadbuf c.rx st.1).rbuf with
          | none => rfl
          | some r =>
            exfalso
            unfold io at hr
            simp only [he, Bool.false_eq_true, if_false, he1, hp, Option.isSome_some, Bool.true_or,
              Bool.or_true, if_true] at hr
            cases hr
        obtain ⟨r, rest, hss⟩ : ∃ r rest, c.socket = r :: rest := by
          cases hss : c.socket with
          | nil => exact absurd hss hcs
          | cons r rest => exact ⟨r, rest, rfl⟩
        have hrd : (sslRead { c with rx := parseReadbuf c.rx st.1 }).socket = rest := by
          have hroom : (parseReadbuf c.rx st.1).readbuf.length < bufMax :=
            ((inv_parse h.1 st.1).2 hpr).1
          unfold sslRead
          simp only
          rw [if_neg (by omega), if_neg (by simp [h.2.1]), hss]
        have : (io c st.1 st.2).socket = rest := by
          unfold io
          simp only [he, Bool.false_eq_true, if_false, he1, hpr, Option.isSome_none, Bool.false_or]
          rw [if_neg (by rw [hss]; simp)]
          split <;> exact hrd
        rw [this, hss]
        simp
      omega

theorem turns_quiet {B : List Burst} (hB : ∀ b ∈ B, b.Ok) {unsent : List Str} {c : TRx}
    (h : TInv B unsent c) (sts : Nat → Str × Str) :
    ∃ n, (run c ((List.range (n + 1)).flatMap fun i => turn (sts i))).rx.rbuf = none ∧
      (run c ((List.range (n + 1)).flatMap fun i => turn (sts i))).socket = [] ∧
      NoFrame (run c ((List.range (n + 1)).flatMap fun i => turn (sts i))).rx.readbuf := by
  have key : ∀ k c (sts : Nat → Str × Str), TInv B unsent c → todo B c ≤ k →
      ∃ n, (run c ((List.range (n + 1)).flatMap fun i => turn (sts i))).rx.rbuf = none ∧
        (run c ((List.range (n + 1)).flatMap fun i => turn (sts i))).socket = [] ∧
        NoFrame (run c ((List.range (n + 1)).flatMap fun i => turn (sts i))).rx.readbuf := by
    intro k
    induction k with
    | zero =>
      intro c sts h hk
      rcases turn_progress hB h (sts 0) with h1 | h1
      · omega
      · exact ⟨0, by simpa using h1⟩
    | succ k ih =>
      intro c sts h hk
      rcases turn_progress hB h (sts 0) with h1 | h1
      · obtain ⟨n, h2⟩ := ih (run c (turn (sts 0))) (fun i => sts (i + 1)) (tinv_run hB h _) (by omega)
        refine ⟨n + 1, ?_⟩
        rw [List.range_succ_eq_map, List.flatMap_cons, run_app, List.flatMap_map]
        exact h2
      · exact ⟨0, by simpa using h1⟩
  exact key _ c sts h (Nat.le_refl _)

theorem turns_wire (c : TRx) (sts : List (Str × Str)) :
    (run c (sts.flatMap turn)).wire = c.wire := by
  induction sts generalizing c with
  | nil => rfl
  | cons st sts ih =>
    rw [List.flatMap_cons, run_app, ih]
    show (step (io c st.1 st.2) .take).wire = _
    have := (io_socket c st.1 st.2).2
    simp only [step]
    split <;> exact this

end Verif.Tls

namespace Verif
open Verif.Iobuf Verif.Asfd Verif.Tls

/-- C87: a receiver reads everything that TLS has of a record, so that nothing lies where `select`
does not see it, and it never runs out of room. The sender is another burp: `txEvs` is how messages
are put into its buffer and how records are made of them, and `evs` is how records arrive and are
read and messages are taken, in any order. -/
theorem C87_nothing_inside (txEvs : List Tls.TxEv) (hcmd : ∀ r, .append r ∈ txEvs → r.cmd ≠ 0)
    (evs : List Tls.Ev) :
    (Tls.run (fresh (Tls.txRun {} txEvs).records) evs).inner = [] ∧
    (Tls.run (fresh (Tls.txRun {} txEvs).records) evs).rx.err = false := by
  obtain ⟨B, unsent, hB, h, -⟩ := tx_bursts txEvs hcmd
  have := tinv_run hB (tinv_fresh hB h) evs
  exact ⟨this.2.1, this.1.1⟩

/-- C87: what is delivered are the messages that were sent, in order. -/
theorem C87_in_order (txEvs : List Tls.TxEv) (hcmd : ∀ r, .append r ∈ txEvs → r.cmd ≠ 0)
    (evs : List Tls.Ev) :
    (Tls.run (fresh (Tls.txRun {} txEvs).records) evs).delivered <+: (Tls.txRun {} txEvs).accepted := by
  obtain ⟨B, unsent, hB, h, ha⟩ := tx_bursts txEvs hcmd
  have := inv_prefix (tinv_run hB (tinv_fresh hB h) evs).1
  rw [ha] at this
  exact this

/-- C87: when a receiver has looked, and has no message to take, and would wait for something to
arrive, then it has delivered every message that has arrived whole. -/
theorem C87_no_stall (txEvs : List Tls.TxEv) (hcmd : ∀ r, .append r ∈ txEvs → r.cmd ≠ 0)
    (evs : List Tls.Ev) (st1 st2 : Str) :
    let t := Tls.txRun {} txEvs
    let c := Tls.run (fresh t.records) (evs ++ [.io st1 st2])
    c.rx.rbuf = none → c.socket = [] →
      ∀ ms, ms <+: t.accepted → onWire ms <+: arrived t.records c → ms <+: c.delivered := by
  intro t c hr hs ms hms ha
  obtain ⟨B, unsent, hB, h, hacc⟩ := tx_bursts txEvs hcmd
  have h1 := tinv_run hB (tinv_fresh hB h) evs
  have e : c = Tls.io (Tls.run (fresh t.records) evs) st1 st2 := by
    show Tls.run (fresh t.records) (evs ++ [.io st1 st2]) = _
    rw [run_app]
    rfl
  obtain ⟨h2, h3⟩ := tinv_io hB h1 st1 st2
  rw [e] at hr hs ha ⊢
  exact quiet hB h h2 hr hs (h3 hr hs) (by rw [hacc]; exact hms) ha

/-- C87: and it gets there: from any state, reading and taking often enough delivers every message
that has arrived whole, without anything more arriving. -/
theorem C87_delivered (txEvs : List Tls.TxEv) (hcmd : ∀ r, .append r ∈ txEvs → r.cmd ≠ 0)
    (evs : List Tls.Ev) (sts : Nat → Str × Str) :
    let t := Tls.txRun {} txEvs
    let c := Tls.run (fresh t.records) evs
    ∃ n, ∀ ms, ms <+: t.accepted → onWire ms <+: arrived t.records c →
      ms <+: (Tls.run c ((List.range n).flatMap fun i => [.io (sts i).1 (sts i).2, .take])).delivered := by
  intro t c
  obtain ⟨B, unsent, hB, h, hacc⟩ := tx_bursts txEvs hcmd
  have h1 : TInv B unsent c := tinv_run hB (tinv_fresh hB h) evs
  obtain ⟨n, h2, h3, h4⟩ := turns_quiet hB h1 sts
  refine ⟨n + 1, fun ms hms ha => ?_⟩
  have h5 := tinv_run hB h1 ((List.range (n + 1)).flatMap fun i => turn (sts i))
  refine quiet hB h h5 h2 h3 h4 (by rw [hacc]; exact hms) ?_
  have hw : (Tls.run c ((List.range (n + 1)).flatMap fun i => turn (sts i))).wire = c.wire := by
    have := turns_wire c ((List.range (n + 1)).map sts)
    rw [List.flatMap_map] at this
    exact this
  unfold arrived at ha ⊢
  rw [hw]
  exact ha

end Verif
