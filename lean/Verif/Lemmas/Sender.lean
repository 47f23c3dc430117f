import Verif.Lemmas.Transfer

/-! # Lemmas about the senders -/

namespace Verif.Transfer

variable (z : Zlib) (c : Crypt)

/-- The receiver lets the sender go on. -/
def Quiet (qr : Option (Nat → Qr)) : Prop := ∀ q, qr = some q → ∀ n, q n = .go

/-- What sending the pieces `ps` does to the cipher and which messages come of it. -/
def Carried (enc : Bool) (e : c.E) (ps : List Str) (out : List Msg) (e' : c.E) : Prop :=
  (∀ m ∈ out, m.cmd = .append ∧ m.buf ≠ []) ∧
  (enc = true → ∀ qs, c.encryptFrom e (ps.filter (fun p => !p.isEmpty) ++ qs) =
    (payloads out).flatten ++ c.encryptFrom e' qs) ∧
  (enc = false → (payloads out).flatten = ps.flatten)

theorem payloads_append (a b : List Msg) : payloads (a ++ b) = payloads a ++ payloads b := by
  simp [payloads]

theorem Carried.append {enc : Bool} {e e' e'' : c.E} {ps qs : List Str} {a b : List Msg}
    (h1 : Carried c enc e ps a e') (h2 : Carried c enc e' qs b e'') : Carried c enc e (ps ++ qs) (a ++ b) e'' := by
  refine ⟨?_, ?_, ?_⟩
  · intro m hm
    rcases List.mem_append.1 hm with hm | hm
    · exact h1.1 m hm
    · exact h2.1 m hm
  · intro he rs
    rw [List.filter_append, List.append_assoc, h1.2.1 he, h2.2.1 he, payloads_append, List.flatten_append,
      List.append_assoc]
  · intro he
    rw [payloads_append, List.flatten_append, h1.2.2 he, h2.2.2 he, List.flatten_append]

theorem Carried.nil (enc : Bool) (e : c.E) : Carried c enc e [] [] e :=
  ⟨by simp, by simp [payloads], by simp [payloads]⟩

theorem sendPiece_spec (enc : Bool) (qr : Option (Nat → Qr)) (hq : Quiet qr) (t : Tx c.E) (hf : t.flow = .go)
    (p : Str) :
    ∃ out, (sendPiece c enc qr t p).out = t.out ++ out ∧ (sendPiece c enc qr t p).flow = .go ∧
      Carried c enc t.enc [p] out (sendPiece c enc qr t p).enc ∧
      (sendPiece c enc qr t p).bytes = t.bytes ∧
      (sendPiece c enc qr t p).sum = t.sum ++ (if enc then (payloads out).flatten else []) := by
  have quick : ∀ u : Tx c.E, u.flow = .go → (quickRead qr u).flow = .go ∧ (quickRead qr u).out = u.out ∧
      (quickRead qr u).enc = u.enc ∧ (quickRead qr u).bytes = u.bytes ∧ (quickRead qr u).sum = u.sum := by
    intro u hu
    unfold quickRead
    cases qr with
    | none => exact ⟨hu, rfl, rfl, rfl, rfl⟩
    | some q => exact ⟨hq q rfl _, rfl, rfl, rfl, rfl⟩
  have hem : ∀ b : Str, ∃ out, (emit t b).out = t.out ++ out ∧ (emit t b).flow = t.flow ∧
      (emit t b).enc = t.enc ∧ (emit t b).bytes = t.bytes ∧ (emit t b).sum = t.sum ∧
      (∀ m ∈ out, m.cmd = .append ∧ m.buf ≠ []) ∧ (payloads out).flatten = b := by
    intro b
    cases b with
    | nil => exact ⟨[], by simp [emit], rfl, rfl, rfl, rfl, by simp, by simp [payloads]⟩
    | cons x b => exact ⟨[⟨.append, x :: b⟩], by simp [emit], rfl, rfl, rfl, rfl, by simp, by simp [payloads]⟩
  cases enc with
  | false =>
    obtain ⟨out, h1, h2, h3, h4, h5, h6, h7⟩ := hem p
    obtain ⟨q1, q2, q3, q4, q5⟩ := quick (emit t p) (h2.trans hf)
    refine ⟨out, ?_, ?_, ⟨h6, by simp, ?_⟩, ?_, ?_⟩
    · simp [sendPiece, q2, h1]
    · simp [sendPiece, q1]
    · intro _; simpa using h7
    · simp [sendPiece, q4, h4]
    · simp [sendPiece, q5, h5]
  | true =>
    cases p with
    | nil =>
      obtain ⟨q1, q2, q3, q4, q5⟩ := quick t hf
      refine ⟨[], ?_, ?_, ⟨by simp, ?_, by simp⟩, ?_, ?_⟩
      · simp [sendPiece, q2]
      · simp [sendPiece, q1]
      · intro _ qs; simp [sendPiece, q3, payloads]
      · simp [sendPiece, q4]
      · simp [sendPiece, q5, payloads]
    | cons x p =>
      obtain ⟨out, h1, h2, h3, h4, h5, h6, h7⟩ := hem (c.encrypt t.enc (x :: p)).2
      obtain ⟨u, hu⟩ : ∃ u : Tx c.E, u = { emit t (c.encrypt t.enc (x :: p)).2 with
          enc := (c.encrypt t.enc (x :: p)).1, sum := t.sum ++ (c.encrypt t.enc (x :: p)).2 } := ⟨_, rfl⟩
      have hs : sendPiece c true qr t (x :: p) = quickRead qr u := by rw [hu]; rfl
      obtain ⟨q1, q2, q3, q4, q5⟩ := quick u (by rw [hu]; exact h2.trans hf)
      have u1 : u.out = t.out ++ out := by rw [hu]; exact h1
      have u2 : u.enc = (c.encrypt t.enc (x :: p)).1 := by rw [hu]
      have u3 : u.bytes = t.bytes := by rw [hu]; exact h4
      have u4 : u.sum = t.sum ++ (c.encrypt t.enc (x :: p)).2 := by rw [hu]
      rw [hs]
      refine ⟨out, q2.trans u1, q1, ⟨h6, ?_, by simp⟩, q4.trans u3, ?_⟩
      · intro _ qs
        simp [q3, u2, Crypt.encryptFrom, h7]
      · rw [q5, u4, h7]; rfl

theorem sendPieces_spec (enc : Bool) (qr : Option (Nat → Qr)) (hq : Quiet qr) (ps : List Str) (t : Tx c.E)
    (hf : t.flow = .go) :
    ∃ out, (sendPieces c enc qr t ps).out = t.out ++ out ∧ (sendPieces c enc qr t ps).flow = .go ∧
      Carried c enc t.enc ps out (sendPieces c enc qr t ps).enc ∧
      (sendPieces c enc qr t ps).bytes = t.bytes ∧
      (sendPieces c enc qr t ps).sum = t.sum ++ (if enc then (payloads out).flatten else []) := by
  induction ps generalizing t with
  | nil => exact ⟨[], by simp [sendPieces], by simpa [sendPieces] using hf, by simpa [sendPieces] using Carried.nil c enc t.enc, rfl, by cases enc <;> simp [sendPieces, payloads]⟩
  | cons p ps ih =>
    obtain ⟨o1, h1, h2, h3, h4, h5⟩ := sendPiece_spec c enc qr hq t hf p
    obtain ⟨o2, g1, g2, g3, g4, g5⟩ := ih (sendPiece c enc qr t p) h2
    have he : sendPieces c enc qr t (p :: ps) = sendPieces c enc qr (sendPiece c enc qr t p) ps := by
      rw [sendPieces]; simp [h2]
    rw [he]
    refine ⟨o1 ++ o2, ?_, g2, ?_, ?_, ?_⟩
    · rw [g1, h1, List.append_assoc]
    · exact h3.append c g3
    · rw [g4, h4]
    · rw [g5, h5]
      cases enc <;> simp [payloads_append]

theorem gzChunks_spec (comp enc : Bool) (qr : Option (Nat → Qr)) (hq : Quiet qr) (chunks : List Str) (d : z.D)
    (t : Tx c.E) (hf : t.flow = .go) :
    ∃ out ps, (gzChunks z c comp enc qr d t chunks).2.out = t.out ++ out ∧
      (gzChunks z c comp enc qr d t chunks).2.flow = .go ∧
      (comp = true → z.compressFrom d chunks = ps ++ z.finish (gzChunks z c comp enc qr d t chunks).1) ∧
      (comp = false → ps = chunks) ∧
      Carried c enc t.enc ps out (gzChunks z c comp enc qr d t chunks).2.enc ∧
      (gzChunks z c comp enc qr d t chunks).2.bytes = t.bytes + chunks.flatten.length ∧
      (gzChunks z c comp enc qr d t chunks).2.sum = t.sum ++ (if enc then (payloads out).flatten else chunks.flatten) := by
  induction chunks generalizing d t with
  | nil =>
    refine ⟨[], [], by simp [gzChunks], by simpa [gzChunks] using hf, ?_, by simp, ?_, by simp [gzChunks], ?_⟩
    · intro _; simp [gzChunks, Zlib.compressFrom]
    · simpa [gzChunks] using Carried.nil c enc t.enc
    · cases enc <;> simp [gzChunks, payloads]
  | cons ch chunks ih =>
    obtain ⟨r, hr⟩ : ∃ r, r = (if comp then z.deflate d ch else (d, [ch])) := ⟨_, rfl⟩
    obtain ⟨t0, ht0⟩ : ∃ t0 : Tx c.E, t0 =
      { t with bytes := t.bytes + ch.length, sum := if enc then t.sum else t.sum ++ ch } := ⟨_, rfl⟩
    have e1 : t0.flow = .go := by rw [ht0]; exact hf
    have e2 : t0.out = t.out := by rw [ht0]
    have e3 : t0.enc = t.enc := by rw [ht0]
    have e4 : t0.bytes = t.bytes + ch.length := by rw [ht0]
    have e5 : t0.sum = if enc then t.sum else t.sum ++ ch := by rw [ht0]
    obtain ⟨o1, h1, h2, h3, h4, h5⟩ := sendPieces_spec c enc qr hq r.2 t0 e1
    obtain ⟨o2, ps2, g1, g2, g3, g4, g5, g6, g7⟩ := ih r.1 (sendPieces c enc qr t0 r.2) h2
    have he : gzChunks z c comp enc qr d t (ch :: chunks) =
        gzChunks z c comp enc qr r.1 (sendPieces c enc qr t0 r.2) chunks := by
      rw [gzChunks, ← hr, ← ht0]; simp [h2]
    rw [he]
    refine ⟨o1 ++ o2, r.2 ++ ps2, ?_, g2, ?_, ?_, ?_, ?_, ?_⟩
    · rw [g1, h1, e2, List.append_assoc]
    · intro hc
      have hr' : r = z.deflate d ch := by rw [hr, hc]; rfl
      rw [Zlib.compressFrom, ← hr', g3 hc, List.append_assoc]
    · intro hc
      rw [g4 hc, hr, hc]; rfl
    · rw [← e3]; exact h3.append c g5
    · rw [g6, h4, e4]; simp; omega
    · rw [g7, h5, e5]
      cases enc <;> simp [payloads_append]

/-- Everything about the messages for a file that was read to its end without interruption. -/
theorem sendGz_spec (comp enc : Bool) (md5 : Str → Str) (qr : Option (Nat → Qr)) (hq : Quiet qr)
    (chunks : List Str) :
    ∃ pre, sendGz z c comp enc md5 qr chunks .eof =
        (pre ++ [⟨.endFile, BackupNumber.decimal chunks.flatten.length ++
          58 :: md5 (if enc then wire z c comp enc chunks else chunks.flatten)⟩], .ok) ∧
      (∀ m ∈ pre, m.cmd = .append ∧ m.buf ≠ []) ∧ (payloads pre).flatten = wire z c comp enc chunks := by
  obtain ⟨o1, ps, h1, h2, h3, h4, h5, h6, h7⟩ :=
    gzChunks_spec z c comp enc qr hq chunks z.dinit { enc := c.einit } rfl
  obtain ⟨r, hr⟩ : ∃ r, r = gzChunks z c comp enc qr z.dinit { enc := c.einit } chunks := ⟨_, rfl⟩
  rw [← hr] at h1 h2 h3 h5 h6 h7
  obtain ⟨fs, hfs⟩ : ∃ fs, fs = (if comp then z.finish r.1 else []) := ⟨_, rfl⟩
  obtain ⟨o2, g1, g2, g3, g4, g5⟩ := sendPieces_spec c enc qr hq fs r.2 h2
  obtain ⟨t, ht⟩ : ∃ t, t = sendPieces c enc qr r.2 fs := ⟨_, rfl⟩
  rw [← ht] at g1 g2 g3 g4 g5
  have hs : sendGz z c comp enc md5 qr chunks .eof = gzEnd c enc md5 t := by
    unfold sendGz
    simp only [← hr, h2, if_true, ← hfs, ← ht]
  rw [hs]
  have hall := h5.append c g3
  have hps : ps ++ fs = if comp then z.compressFrom z.dinit chunks else chunks := by
    cases comp with
    | true => rw [hfs]; simpa using (h3 rfl).symm
    | false => rw [hfs]; simpa using h4 rfl
  simp only [List.nil_append] at h1 h7
  cases enc with
  | false =>
    refine ⟨o1 ++ o2, ?_, hall.1, ?_⟩
    · unfold gzEnd
      simp only [g2, Bool.false_eq_true, if_false, endMsg]
      rw [g1, h1, g4, h6, g5, h7]
      simp
    · rw [hall.2.2 rfl, hps]; simp [wire]
  | true =>
    have hw : wire z c comp true chunks = (payloads (o1 ++ o2)).flatten ++ c.encryptFinal t.enc := by
      have := hall.2.1 rfl []
      rw [List.append_nil, hps] at this
      simpa [wire, Crypt.encryptFrom] using this
    have hsum : t.sum ++ c.encryptFinal t.enc = wire z c comp true chunks := by
      rw [hw, g5, h7, payloads_append]; simp
    cases hfin : c.encryptFinal t.enc with
    | nil =>
      refine ⟨o1 ++ o2, ?_, hall.1, ?_⟩
      · unfold gzEnd
        simp only [g2, if_true, endMsg, hfin, emit, List.isEmpty_nil]
        rw [g1, h1, g4, h6]
        rw [hfin] at hsum
        simp [hsum]
      · rw [hw, hfin]; simp
    | cons x f =>
      refine ⟨o1 ++ o2 ++ [⟨.append, x :: f⟩], ?_, ?_, ?_⟩
      · unfold gzEnd
        simp only [g2, if_true, endMsg, hfin, emit, List.isEmpty_cons, Bool.false_eq_true, if_false]
        rw [g1, h1, g4, h6]
        rw [hfin] at hsum
        simp [hsum]
      · intro m hm
        rcases List.mem_append.1 hm with hm | hm
        · exact hall.1 m hm
        · rw [List.mem_singleton] at hm
          rw [hm]; exact ⟨rfl, by simp⟩
      · rw [payloads_append, List.flatten_append, hw, hfin]
        simp [payloads]

theorem rawChunks_spec (qr : Option (Nat → Qr)) (hq : Quiet qr) (chunks : List Str) (t : Tx Unit)
    (hf : t.flow = .go) :
    ∃ out, (rawChunks qr t chunks).out = t.out ++ out ∧ (rawChunks qr t chunks).flow = .go ∧
      (∀ m ∈ out, m.cmd = .append ∧ m.buf ≠ []) ∧ (payloads out).flatten = chunks.flatten ∧
      (rawChunks qr t chunks).bytes = t.bytes + chunks.flatten.length ∧
      (rawChunks qr t chunks).sum = t.sum ++ chunks.flatten := by
  induction chunks generalizing t with
  | nil => exact ⟨[], by simp [rawChunks], hf, by simp, by simp [payloads], by simp [rawChunks], by simp [rawChunks]⟩
  | cons ch chunks ih =>
    obtain ⟨t1, ht1⟩ : ∃ t1 : Tx Unit, t1 =
      quickRead qr (emit { t with bytes := t.bytes + ch.length, sum := t.sum ++ ch } ch) := ⟨_, rfl⟩
    have hx : ∃ o1, t1.out = t.out ++ o1 ∧ t1.flow = .go ∧ (∀ m ∈ o1, m.cmd = .append ∧ m.buf ≠ []) ∧
        (payloads o1).flatten = ch ∧ t1.bytes = t.bytes + ch.length ∧ t1.sum = t.sum ++ ch := by
      rw [ht1]
      have hgo : ∀ u : Tx Unit, u.flow = .go → (quickRead qr u).flow = .go ∧ (quickRead qr u).out = u.out ∧
          (quickRead qr u).bytes = u.bytes ∧ (quickRead qr u).sum = u.sum := by
        intro u hu
        unfold quickRead
        cases qr with
        | none => exact ⟨hu, rfl, rfl, rfl⟩
        | some q => exact ⟨hq q rfl _, rfl, rfl, rfl⟩
      cases ch with
      | nil =>
        obtain ⟨a1, a2, a3, a4⟩ := hgo { t with bytes := t.bytes + ([] : Str).length, sum := t.sum ++ [] } hf
        exact ⟨[], by simpa [emit] using a2, by simpa [emit] using a1, by simp, by simp [payloads],
          by simpa [emit] using a3, by simpa [emit] using a4⟩
      | cons x ch =>
        obtain ⟨a1, a2, a3, a4⟩ := hgo { t with bytes := t.bytes + (x :: ch).length, sum := t.sum ++ (x :: ch), out := t.out ++ [⟨.append, x :: ch⟩] } hf
        exact ⟨[⟨.append, x :: ch⟩], by simpa [emit] using a2, by simpa [emit] using a1, by simp, by simp [payloads],
          by simpa [emit] using a3, by simpa [emit] using a4⟩
    obtain ⟨o1, h1, h2, h3, h4, h5, h6⟩ := hx
    obtain ⟨o2, g1, g2, g3, g4, g5, g6⟩ := ih t1 h2
    have he : rawChunks qr t (ch :: chunks) = rawChunks qr t1 chunks := by
      rw [rawChunks, ← ht1]; simp [h2]
    rw [he]
    refine ⟨o1 ++ o2, ?_, g2, ?_, ?_, ?_, ?_⟩
    · rw [g1, h1, List.append_assoc]
    · intro m hm
      rcases List.mem_append.1 hm with hm | hm
      · exact h3 m hm
      · exact g3 m hm
    · rw [payloads_append, List.flatten_append, h4, g4]; simp
    · rw [g5, h5]; simp; omega
    · rw [g6, h6]; simp

theorem sendRaw_spec (md5 : Str → Str) (qr : Option (Nat → Qr)) (hq : Quiet qr) (chunks : List Str) :
    ∃ pre, sendRaw md5 qr chunks .eof =
        (pre ++ [⟨.endFile, BackupNumber.decimal chunks.flatten.length ++ 58 :: md5 chunks.flatten⟩], .ok) ∧
      (∀ m ∈ pre, m.cmd = .append ∧ m.buf ≠ []) ∧ (payloads pre).flatten = chunks.flatten := by
  obtain ⟨out, h1, h2, h3, h4, h5, h6⟩ := rawChunks_spec qr hq chunks { enc := () } rfl
  refine ⟨out, ?_, h3, h4⟩
  unfold sendRaw
  simp only [h2, endMsg, h5, h6, h1]
  simp

end Verif.Transfer
