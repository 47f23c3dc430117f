import Verif.Lemmas.Sender

/-!
# C57: a file is transferred intact or reported
-/

namespace Verif
open Verif.Transfer

theorem Transfer.withNoise_split {sent got : List Msg} (h : WithNoise sent got) (pre : List Msg) (e : Msg)
    (hs : sent = pre ++ [e]) (hp : ∀ m ∈ pre, m.cmd = .append) :
    ∃ g, got = g ++ [e] ∧ (∀ m ∈ g, m.cmd = .append ∨ Noise m) ∧ payloads g = payloads pre := by
  induction h generalizing pre with
  | last x =>
    cases pre with
    | nil =>
      simp only [List.nil_append, List.cons.injEq, and_true] at hs
      exact ⟨[], by simp [hs], by simp, rfl⟩
    | cons y pre => simp at hs
  | same m h ih =>
    cases pre with
    | nil =>
      simp only [List.nil_append, List.cons.injEq] at hs
      rw [hs.2] at h
      cases h
      rename_i h
      exfalso
      revert h
      suffices ∀ s g, WithNoise s g → s ≠ [] from fun h => this _ _ h rfl
      intro s g h
      induction h with
      | last => simp
      | same => simp
      | noise _ _ ih => exact ih
    | cons y pre =>
      simp only [List.cons_append, List.cons.injEq] at hs
      obtain ⟨rfl, hs⟩ := hs
      obtain ⟨g, h1, h2, h3⟩ := ih pre hs (fun x hx => hp x (by simp [hx]))
      have hm := hp m (by simp)
      refine ⟨m :: g, by simp [h1], ?_, ?_⟩
      · intro x hx
        rcases List.mem_cons.1 hx with rfl | hx
        · exact Or.inl hm
        · exact h2 x hx
      · have : ∀ l, payloads (m :: l) = m.buf :: payloads l := by intro l; simp [payloads, hm]
        rw [this, this, h3]
  | noise hn h ih =>
    rename_i m _ _
    obtain ⟨g, h1, h2, h3⟩ := ih pre hs hp
    refine ⟨m :: g, by simp [h1], ?_, ?_⟩
    · intro x hx
      rcases List.mem_cons.1 hx with rfl | hx
      · exact Or.inr hn
      · exact h2 x hx
    · rw [← h3]
      rcases hn with hn | hn <;> simp [payloads, hn]

/-- C57: whatever the bytes of a file, however reading it and compressing and encrypting it cut them up,
and whatever messages for the user come in between, the receiver ends with exactly these bytes, reports
success, and leaves what follows for whoever reads next. -/
theorem C57_intact (z : Zlib) (c : Crypt) (comp enc : Bool) (dev : Dev) (md5 : Str → Str)
    (qr : Option (Nat → Qr)) (hz : z.Faithful) (hc : c.Faithful) (hd : Takes dev) (hq : Quiet qr)
    (hm : comp = true ∨ enc = true) (chunks : List Str) (got rest : List Msg)
    (hg : WithNoise (sendGz z c comp enc md5 qr chunks .eof).1 got) :
    (sendGz z c comp enc md5 qr chunks .eof).2 = .ok ∧
    receive z c comp enc dev (got ++ rest) = ⟨true, chunks.flatten, rest⟩ := by
  obtain ⟨pre, h1, h2, h3⟩ := sendGz_spec z c comp enc md5 qr hq chunks
  rw [h1] at hg
  rw [h1]
  obtain ⟨g, k1, k2, k3⟩ := withNoise_split hg pre _ rfl (fun m hm => (h2 m hm).1)
  refine ⟨rfl, ?_⟩
  rw [k1, List.append_assoc]
  exact receive_pre z c comp enc dev hz hc hd hm chunks g _ rest k2 rfl (by rw [k3, h3])

/-- C57: the same when the server keeps the bytes it got at the time of the backup and sends them, cut up
in some other way, at the time of a restore. -/
theorem C57_stored (z : Zlib) (c : Crypt) (comp enc : Bool) (dev : Dev) (md5 md5' : Str → Str)
    (qr qr' : Option (Nat → Qr)) (hz : z.Faithful) (hc : c.Faithful) (hd : Takes dev) (hq : Quiet qr)
    (hq' : Quiet qr') (hm : comp = true ∨ enc = true) (chunks cs : List Str) (got rest : List Msg)
    (hs : cs.flatten = (payloads (sendGz z c comp enc md5 qr chunks .eof).1).flatten)
    (hg : WithNoise (sendRaw md5' qr' cs .eof).1 got) :
    receive z c comp enc dev (got ++ rest) = ⟨true, chunks.flatten, rest⟩ := by
  obtain ⟨pre, h1, h2, h3⟩ := sendGz_spec z c comp enc md5 qr hq chunks
  obtain ⟨pre', r1, r2, r3⟩ := sendRaw_spec md5' qr' hq' cs
  have hp : payloads (sendGz z c comp enc md5 qr chunks .eof).1 = payloads pre := by
    rw [h1, payloads_append]; simp [payloads]
  rw [hp, h3] at hs
  rw [r1] at hg
  obtain ⟨g, k1, k2, k3⟩ := withNoise_split hg pre' _ rfl (fun m hm => (r2 m hm).1)
  rw [k1, List.append_assoc]
  exact receive_pre z c comp enc dev hz hc hd hm chunks g _ rest k2 rfl (by rw [k3, r3, hs])

/-- C57: the end marker says how long the file was and gives the digest, of the file itself, or of what was
sent if it was encrypted. -/
theorem C57_end_marker (z : Zlib) (c : Crypt) (comp enc : Bool) (md5 : Str → Str)
    (qr : Option (Nat → Qr)) (hq : Quiet qr) (chunks : List Str) :
    (sendGz z c comp enc md5 qr chunks .eof).1.getLast? = some ⟨.endFile,
      BackupNumber.decimal chunks.flatten.length ++ 58 :: md5
        (if enc then (payloads (sendGz z c comp enc md5 qr chunks .eof).1).flatten else chunks.flatten)⟩ := by
  obtain ⟨pre, h1, h2, h3⟩ := sendGz_spec z c comp enc md5 qr hq chunks
  have hp : payloads (sendGz z c comp enc md5 qr chunks .eof).1 = payloads pre := by
    rw [h1, payloads_append]; simp [payloads]
  rw [hp, h1, h3]
  simp

theorem Transfer.transfer_ok (z : Zlib) (c : Crypt) (comp enc : Bool) (dev : Dev) (ms : List Msg) (s : Rx z c)
    (h : (transfer z c comp enc dev s ms).ok = true) :
    ∃ pre e, ms = pre ++ e :: (transfer z c comp enc dev s ms).rest ∧ e.cmd = .endFile ∧
      ∀ m ∈ pre, m.cmd = .append ∨ Noise m := by
  induction ms generalizing s with
  | nil => simp [transfer] at h
  | cons m ms ih =>
    rw [transfer] at h ⊢
    cases hm : m.cmd with
    | append =>
      simp only [hm] at h ⊢
      cases ha : onAppend z c comp enc dev s m.buf with
      | none => simp [ha] at h
      | some s' =>
        simp only [ha] at h ⊢
        obtain ⟨pre, e, h1, h2, h3⟩ := ih s' h
        refine ⟨m :: pre, e, ?_, h2, ?_⟩
        · rw [List.cons_append, ← h1]
        · intro x hx
          rcases List.mem_cons.1 hx with rfl | hx
          · exact Or.inl hm
          · exact h3 x hx
    | endFile =>
      simp only [hm] at h ⊢
      cases ha : onEnd z c comp enc dev s with
      | none => simp [ha] at h
      | some s' => exact ⟨[], m, by simp, hm, by simp⟩
    | message | warning =>
      simp only [hm] at h ⊢
      obtain ⟨pre, e, h1, h2, h3⟩ := ih s h
      refine ⟨m :: pre, e, ?_, h2, ?_⟩
      · rw [List.cons_append, ← h1]
      · intro x hx
        rcases List.mem_cons.1 hx with rfl | hx
        · exact Or.inr (by simp [Noise, hm])
        · exact h3 x hx
    | _ => simp [hm] at h

/-- C57: success is reported only if there was an end marker and nothing but contents and messages for the
user before it. So a connection that is lost, or an unexpected message, is an error. -/
theorem C57_reported (z : Zlib) (c : Crypt) (comp enc : Bool) (dev : Dev) (ms : List Msg)
    (h : (receive z c comp enc dev ms).ok = true) :
    ∃ pre e, ms = pre ++ e :: (receive z c comp enc dev ms).rest ∧ e.cmd = .endFile ∧
      ∀ m ∈ pre, m.cmd = .append ∨ Noise m :=
  transfer_ok z c comp enc dev ms _ h

theorem Transfer.transfer_data (z : Zlib) (c : Crypt) (comp : Bool) (dev : Dev) (hd : Takes dev) (ms : List Msg)
    (s : Rx z c) (h : (transfer z c comp false dev s ms).ok = true) :
    ∃ pre e out, ms = pre ++ e :: (transfer z c comp false dev s ms).rest ∧ e.cmd = .endFile ∧
      z.decompressFrom s.infl (payloads pre) = some out ∧
      (transfer z c comp false dev s ms).file = s.file ++ out := by
  induction ms generalizing s with
  | nil => simp [transfer] at h
  | cons m ms ih =>
    rw [transfer] at h ⊢
    cases hm : m.cmd with
    | append =>
      simp only [hm] at h ⊢
      cases hi : z.inflate s.infl m.buf with
      | none => simp [onAppend, doInflate, hi] at h
      | some r =>
        obtain ⟨i, ps⟩ := r
        have ha : onAppend z c comp false dev s m.buf = some { s with infl := i, file := s.file ++ ps.flatten } := by
          simp [onAppend, doInflate, hi, writePieces_takes dev hd]
        simp only [ha] at h ⊢
        obtain ⟨pre, e, out, h1, h2, h3, h4⟩ := ih _ h
        refine ⟨m :: pre, e, ps.flatten ++ out, ?_, h2, ?_, ?_⟩
        · rw [List.cons_append, ← h1]
        · have : payloads (m :: pre) = m.buf :: payloads pre := by simp [payloads, hm]
          rw [this, Zlib.decompressFrom, hi]
          simp only [h3, Option.map_some]
        · rw [h4]; simp
    | endFile =>
      simp only [hm, onEnd, Bool.false_eq_true, if_false] at h ⊢
      exact ⟨[], m, [], by simp, hm, by simp [payloads, Zlib.decompressFrom], by simp⟩
    | message | warning =>
      simp only [hm] at h ⊢
      obtain ⟨pre, e, out, h1, h2, h3, h4⟩ := ih s h
      refine ⟨m :: pre, e, out, ?_, h2, ?_, h4⟩
      · rw [List.cons_append, ← h1]
      · have : payloads (m :: pre) = payloads pre := by simp [payloads, hm]
        rw [this]; exact h3
    | _ => simp [hm] at h

/-- C57: what is accepted without encryption is what the contents before the end marker uncompress to. -/
theorem C57_accepted (z : Zlib) (c : Crypt) (comp : Bool) (dev : Dev) (hd : Takes dev) (ms : List Msg)
    (h : (receive z c comp false dev ms).ok = true) :
    ∃ pre e, ms = pre ++ e :: (receive z c comp false dev ms).rest ∧ e.cmd = .endFile ∧
      z.decompressFrom z.iinit (payloads pre) = some (receive z c comp false dev ms).file := by
  obtain ⟨pre, e, out, h1, h2, h3, h4⟩ := transfer_data z c comp dev hd ms ⟨z.iinit, c.dinit, []⟩ h
  refine ⟨pre, e, h1, h2, ?_⟩
  unfold receive
  rw [h4, h3]
  simp

theorem Transfer.doInflate_takes (z : Zlib) (c : Crypt) (comp : Bool) (dev : Dev) (hd : Takes dev) (s s' : Rx z c)
    (b : Str) (hb : b ≠ []) (h : doInflate z c comp true dev s b = some s') :
    s'.dec = s.dec ∧ ∃ ps : List Str, s'.file = s.file ++ ps.flatten ∧
      if comp then z.inflate s.infl b = some (s'.infl, ps) else ps = [b] := by
  cases comp with
  | false =>
    unfold doInflate doWrite at h
    have hl : 0 < b.length := List.length_pos_iff.2 hb
    have hdev := hd s.file b
    simp only [Bool.not_false, Bool.and_self, if_true, hdev] at h
    rw [if_neg (by omega)] at h
    simp only [Option.some.injEq] at h
    subst h
    exact ⟨rfl, [b], by simp, rfl⟩
  | true =>
    unfold doInflate at h
    simp only [Bool.not_true, Bool.and_false, Bool.false_eq_true, if_false] at h
    cases hi : z.inflate s.infl b with
    | none => rw [hi] at h; cases h
    | some r =>
      obtain ⟨i, ps⟩ := r
      rw [hi] at h
      simp only [writePieces_takes dev hd, Option.some.injEq] at h
      subst h
      exact ⟨rfl, ps, rfl, by simp⟩

theorem Transfer.transfer_encrypted (z : Zlib) (c : Crypt) (comp : Bool) (dev : Dev) (hd : Takes dev)
    (ms : List Msg) (s : Rx z c) (h : (transfer z c comp true dev s ms).ok = true) :
    ∃ (pre : List Msg) (e : Msg) (pieces : List Str) (out : Str),
      ms = pre ++ e :: (transfer z c comp true dev s ms).rest ∧ e.cmd = .endFile ∧
      c.decryptFrom s.dec (payloads pre) = some pieces.flatten ∧
      (transfer z c comp true dev s ms).file = s.file ++ out ∧
      if comp then z.decompressFrom s.infl pieces = some out else out = pieces.flatten := by
  induction ms generalizing s with
  | nil => simp [transfer] at h
  | cons m ms ih =>
    rw [transfer] at h ⊢
    cases hm : m.cmd with
    | append =>
      simp only [hm] at h ⊢
      have hp : ∀ pre, payloads (m :: pre) = m.buf :: payloads pre := by intro pre; simp [payloads, hm]
      cases hi : c.decrypt s.dec m.buf with
      | none => simp [onAppend, hi] at h
      | some r =>
        obtain ⟨d, o⟩ := r
        by_cases ho : o = []
        · have ha : onAppend z c comp true dev s m.buf = some { s with dec := d } := by
            simp [onAppend, hi, ho]
          simp only [ha] at h ⊢
          obtain ⟨pre, e, pieces, out, h1, h2, h3, h4, h5⟩ := ih _ h
          refine ⟨m :: pre, e, pieces, out, by rw [List.cons_append, ← h1], h2, ?_, h4, h5⟩
          rw [hp, Crypt.decryptFrom, hi]
          simp only [h3, Option.map_some, ho, List.nil_append]
        · have ha : onAppend z c comp true dev s m.buf = doInflate z c comp true dev { s with dec := d } o := by
            simp [onAppend, hi, ho]
          rw [ha] at h ⊢
          cases hd' : doInflate z c comp true dev { s with dec := d } o with
          | none => rw [hd'] at h; simp at h
          | some s' =>
            rw [hd'] at h
            simp only [] at h ⊢
            obtain ⟨k1, ps, k2, k3⟩ := doInflate_takes z c comp dev hd _ s' o ho hd'
            obtain ⟨pre, e, pieces, out, h1, h2, h3, h4, h5⟩ := ih _ h
            refine ⟨m :: pre, e, o :: pieces, ps.flatten ++ out, by rw [List.cons_append, ← h1], h2, ?_, ?_, ?_⟩
            · rw [hp, Crypt.decryptFrom, hi]
              simp only [k1] at h3
              simp only [h3, Option.map_some, List.flatten_cons]
            · rw [h4, k2]; simp
            · cases comp with
              | true =>
                simp only [if_true] at h5 k3 ⊢
                rw [Zlib.decompressFrom, k3]
                simp only [h5, Option.map_some]
              | false =>
                simp only [Bool.false_eq_true, if_false] at h5 k3 ⊢
                rw [k3, h5]; simp
    | endFile =>
      simp only [hm, onEnd, if_true] at h ⊢
      cases hf : c.decryptFinal s.dec with
      | none => rw [hf] at h; simp at h
      | some o =>
        rw [hf] at h
        by_cases ho : o = []
        · subst ho
          refine ⟨[], m, [], [], by simp, hm, by simp [payloads, Crypt.decryptFrom, hf], by simp, ?_⟩
          cases comp <;> simp [Zlib.decompressFrom]
        · have hoe : o.isEmpty = false := by cases o <;> simp_all
          simp only [hoe, Bool.false_eq_true, if_false] at h ⊢
          cases hd' : doInflate z c comp true dev s o with
          | none => rw [hd'] at h; simp at h
          | some s' =>
            obtain ⟨k1, ps, k2, k3⟩ := doInflate_takes z c comp dev hd _ s' o ho hd'
            refine ⟨[], m, [o], ps.flatten, by simp, hm, by simp [payloads, Crypt.decryptFrom, hf], ?_, ?_⟩
            · simp [k2]
            · cases comp with
              | true =>
                simp only [if_true] at k3 ⊢
                rw [Zlib.decompressFrom, k3]
                simp [Zlib.decompressFrom]
              | false =>
                simp only [Bool.false_eq_true, if_false] at k3 ⊢
                rw [k3]
    | message | warning =>
      simp only [hm] at h ⊢
      obtain ⟨pre, e, pieces, out, h1, h2, h3, h4, h5⟩ := ih s h
      refine ⟨m :: pre, e, pieces, out, ?_, h2, ?_, h4, h5⟩
      · rw [List.cons_append, ← h1]
      · have : payloads (m :: pre) = payloads pre := by simp [payloads, hm]
        rw [this]; exact h3
    | _ => simp [hm] at h

/-- C57: what is accepted with encryption is what the contents before the end marker decrypt to, up to and
including the padding, and then uncompress to. -/
theorem C57_accepted_encrypted (z : Zlib) (c : Crypt) (comp : Bool) (dev : Dev) (hd : Takes dev) (ms : List Msg)
    (h : (receive z c comp true dev ms).ok = true) :
    ∃ (pre : List Msg) (e : Msg) (pieces : List Str),
      ms = pre ++ e :: (receive z c comp true dev ms).rest ∧ e.cmd = .endFile ∧
      c.decryptFrom c.dinit (payloads pre) = some pieces.flatten ∧
      (comp = true → z.decompressFrom z.iinit pieces = some (receive z c comp true dev ms).file) ∧
      (comp = false → (receive z c comp true dev ms).file = pieces.flatten) := by
  obtain ⟨pre, e, pieces, out, h1, h2, h3, h4, h5⟩ := transfer_encrypted z c comp dev hd ms ⟨z.iinit, c.dinit, []⟩ h
  refine ⟨pre, e, pieces, h1, h2, h3, ?_, ?_⟩
  · intro hc; subst hc; unfold receive; rw [h4]; simpa using h5
  · intro hc; subst hc; unfold receive; rw [h4]; simpa using h5

/-! ## Instances -/

/-- A compressor that stores the bytes as they are. -/
def storeZlib : Zlib where
  D := Unit
  dinit := ()
  deflate := fun _ b => ((), [b])
  finish := fun _ => []
  I := Unit
  iinit := ()
  inflate := fun _ b => some ((), [b])

/-- A cipher that turns every bit round. -/
def flipCrypt : Crypt where
  E := Unit
  einit := ()
  encrypt := fun _ b => ((), b.map (~~~ ·))
  encryptFinal := fun _ => []
  D := Unit
  dinit := ()
  decrypt := fun _ b => some ((), b.map (~~~ ·))
  decryptFinal := fun _ => some []

theorem storeZlib_faithful : storeZlib.Faithful := by
  intro chunks ms h
  have h1 : ∀ chunks : List Str, storeZlib.compressFrom () chunks = chunks := by
    intro chunks
    induction chunks with
    | nil => rfl
    | cons ch chs ih => exact congrArg (ch :: ·) ih
  have h2 : ∀ ms : List Str, storeZlib.decompressFrom () ms = some ms.flatten := by
    intro ms
    induction ms with
    | nil => rfl
    | cons m ms ih =>
      show Option.map _ (storeZlib.decompressFrom () ms) = _
      rw [ih]
      simp
  have h3 : ms.flatten = chunks.flatten := h.trans (congrArg List.flatten (h1 chunks))
  rw [← h3]
  exact h2 ms

theorem flipCrypt_faithful : flipCrypt.Faithful := by
  intro ps ms h
  have inv : ∀ l : Str, (l.map (~~~ ·)).map (~~~ ·) = l := by
    intro l
    rw [List.map_map]
    have : ((fun x : Byte => ~~~ x) ∘ fun x => ~~~ x) = id := by
      funext x; simp
    rw [this, List.map_id]
  have h1 : ∀ ps : List Str, flipCrypt.encryptFrom () ps = ps.flatten.map (~~~ ·) := by
    intro ps
    induction ps with
    | nil => rfl
    | cons p ps ih =>
      show p.map (~~~ ·) ++ flipCrypt.encryptFrom () ps = _
      rw [ih]; simp
  have h2 : ∀ ms : List Str, flipCrypt.decryptFrom () ms = some (ms.flatten.map (~~~ ·)) := by
    intro ms
    induction ms with
    | nil => rfl
    | cons m ms ih =>
      show Option.map _ (flipCrypt.decryptFrom () ms) = _
      rw [ih]; simp
  have h3 : ms.flatten = ps.flatten.map (~~~ ·) := h.trans (h1 ps)
  have h4 := h2 ms
  rw [h3, inv] at h4
  exact h4

/-- A file on a disc with room. -/
def roomy : Dev := fun _ out => out.length

theorem roomy_takes : Takes roomy := fun _ _ => rfl

/-- The hypotheses of `C57_intact` hold of a file of two pieces, encrypted, with a warning in between. -/
example : ∃ got, WithNoise (sendGz storeZlib flipCrypt true true id none [bytes "ab", bytes "c"] .eof).1 got ∧
    got.length = 4 ∧ receive storeZlib flipCrypt true true roomy got = ⟨true, bytes "abc", []⟩ := by
  refine ⟨[⟨.append, (bytes "ab").map (~~~ ·)⟩, ⟨.warning, bytes "w"⟩, ⟨.append, (bytes "c").map (~~~ ·)⟩,
    ⟨.endFile, bytes "3:" ++ (bytes "abc").map (~~~ ·)⟩], ?_, rfl, by decide⟩
  have : (sendGz storeZlib flipCrypt true true id none [bytes "ab", bytes "c"] .eof).1 =
      [⟨.append, (bytes "ab").map (~~~ ·)⟩, ⟨.append, (bytes "c").map (~~~ ·)⟩,
        ⟨.endFile, bytes "3:" ++ (bytes "abc").map (~~~ ·)⟩] := by decide +kernel
  rw [this]
  exact .same _ (.noise (by decide) (.same _ (.last _)))

/-! ## What is not so -/

/-- C57 fails for a stored file that has become shorter: neither the length nor the digest that the end
marker gives is compared by the receiver, and the end of the compressed data need not have been reached. -/
theorem C57_truncated_violated :
    ∃ (z : Zlib) (c : Crypt), z.Faithful ∧ c.Faithful ∧ ∃ ms : List Msg,
      ms = [⟨.append, bytes "ab"⟩, ⟨.endFile, bytes "4:" ++ bytes "e2fc714c4727ee9395f324cd2e7f331f"⟩] ∧
      receive z c true false roomy ms = ⟨true, bytes "ab", []⟩ :=
  ⟨storeZlib, flipCrypt, storeZlib_faithful, flipCrypt_faithful, _, rfl, by decide⟩

/-- C57 fails when the file system takes only some of the bytes (the last of them before it is full):
`write` returning less than it was given is taken for success. -/
theorem C57_short_write_violated :
    ∃ (z : Zlib) (c : Crypt) (dev : Dev), z.Faithful ∧ c.Faithful ∧
      (receive z c true false dev (sendGz z c true false id none [bytes "abcd"] .eof).1) =
        ⟨true, bytes "ab", []⟩ :=
  ⟨storeZlib, flipCrypt, fun _ _ => 2, storeZlib_faithful, flipCrypt_faithful, by decide⟩

/-- C57 fails for certificates and configuration files: the result of the transfer is thrown away, so a
connection that is lost in the middle counts as success. -/
theorem C57_receive_a_file_violated :
    ∃ (z : Zlib) (c : Crypt), z.Faithful ∧ c.Faithful ∧
      (receiveAFile z c roomy ((sendGz z c true false id none [bytes "ab", bytes "cd"] .eof).1.take 1)) =
        ⟨true, bytes "ab", []⟩ :=
  ⟨storeZlib, flipCrypt, storeZlib_faithful, flipCrypt_faithful, by decide⟩

/-- C57 fails for a file that cannot be read to its end and is sent as it is: an end marker that fits the
part that was read is sent all the same. -/
theorem C57_read_error_violated :
    ∃ (z : Zlib) (c : Crypt), z.Faithful ∧ c.Faithful ∧
      sendRaw id none [bytes "ab"] .error = ([⟨.append, bytes "ab"⟩, readWarning, ⟨.endFile, bytes "2:ab"⟩], .error) ∧
      receive z c true false roomy (sendRaw id none [bytes "ab"] .error).1 = ⟨true, bytes "ab", []⟩ :=
  ⟨storeZlib, flipCrypt, storeZlib_faithful, flipCrypt_faithful, by decide +kernel, by decide⟩

end Verif
