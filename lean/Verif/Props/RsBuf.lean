import Verif.Lemmas.RsBuf
import Verif.Props.Net

/-!
# C90: signatures and differences pass between librsync, the network and files unaltered
-/

namespace Verif
open Verif.RsBuf Verif.Iobuf Verif.Asfd

variable {σ : Type}

/-- C90: when a job has finished, what has been written is what it computes of the whole of its input,
in order and each piece once - however much each read gave, whatever the length of the buffers, and however
often the network did not take a message. No piece is empty or longer than the buffer. -/
theorem C90_written (u : Setup σ) (f : Str → Str) (hj : Lawful u.job) (hf : Computes u.job f) (hl : 0 < u.inLen)
    (content : Str) (n : Nat) (hs : u.src = .fzp → n = 0) (ts : List Turn) (s : St σ)
    (h : run u ts (begin_ u.job content n) = .done s ∨ whole u ts (begin_ u.job content n) = .done s) :
    s.sent.flatten = f (given content n) ∧ ∀ p ∈ s.sent, p ≠ [] ∧ p.length ≤ u.outLen := by
  have := ((run_inv hj hf hl ts _ _ _ (inv_begin content n hs)).1 s h)
  exact ⟨this.1, this.2.1⟩

/-- C90: at no time is anything but what the job has put out written: it is always a beginning of the whole. -/
theorem C90_going (u : Setup σ) (f : Str → Str) (hj : Lawful u.job) (hf : Computes u.job f) (hl : 0 < u.inLen)
    (content : Str) (n : Nat) (hs : u.src = .fzp → n = 0) (ts : List Turn) (s : St σ)
    (h : run u ts (begin_ u.job content n) = .going s ∨ whole u ts (begin_ u.job content n) = .going s) :
    s.sent.flatten <+: f (given content n) ∧ s.seen <+: given content n ∧
      ∀ p ∈ s.sent, p ≠ [] ∧ p.length ≤ u.outLen := by
  obtain ⟨x, y, hi⟩ := (run_inv hj hf hl ts _ _ _ (inv_begin content n hs)).2 s h
  refine ⟨?_, ⟨_, hi.whole⟩, hi.pieces⟩
  have := hf.part _ _ _ _ _ hi.reach [] s.buf.eof 0 (fun c => ⟨rfl, c⟩) (toCome u.src s) hi.ended
  rw [List.append_nil, hi.input, hi.whole] at this
  refine List.IsPrefix.trans ⟨s.buf.out.getD [], hi.output⟩ (List.IsPrefix.trans (List.prefix_append ..) this)

/-- C90: the messages for a difference are the pieces of it, each in one message, and then the length and
the checksum of the file as it was read, all of it. -/
theorem C90_delta_messages (u : Setup σ) (f : Str → Str) (hj : Lawful u.job) (hf : Computes u.job f)
    (hw : Waits u.job) (hl : 0 < u.inLen) (content : Str) (n : Nat) (hs : u.src = .fzp → n = 0)
    (ts : List Turn) (md5 : Str → Str) (ms : List Rec)
    (h : deltaMessages md5 (run u ts (begin_ u.job content n)) = some ms) :
    ∃ ps : List Str, ps.flatten = f (given content n) ∧ (∀ p ∈ ps, p ≠ [] ∧ p.length ≤ u.outLen) ∧
      ms = ps.map (fun p => ⟨97, p⟩) ++
        [⟨120, BackupNumber.decimal (given content n).length ++ bytes ":" ++ md5 (given content n)⟩] := by
  cases hr : run u ts (begin_ u.job content n) with
  | going s => rw [hr] at h; cases h
  | failed => rw [hr] at h; cases h
  | done s =>
    rw [hr] at h
    obtain ⟨h1, h2, h3⟩ := (run_inv hj hf hl ts _ _ _ (inv_begin content n hs)).1 s (.inl hr)
    refine ⟨s.sent, h1, h2, ?_⟩
    rw [← h3 hw, List.append_assoc]
    exact (Option.some.inj h).symm

/-- C90: when nothing goes wrong the job comes to its end. -/
theorem C90_ends (u : Setup σ) (f : Str → Str) (hj : Lawful u.job) (hf : Computes u.job f) (hb : Busy u.job)
    (hl : 0 < u.inLen) (ho : 0 < u.outLen) (content : Str) (n : Nat) (hs : u.src = .fzp → n = 0) (ts : List Turn)
    (hts : ∀ t ∈ ts, t.Good) (hlen : 2 * content.length + (f (given content n)).length + 3 ≤ ts.length) :
    (∃ s, run u ts (begin_ u.job content n) = .done s) ∧ ∃ s, whole u ts (begin_ u.job content n) = .done s := by
  refine run_ends hj hf hb hl ho ts _ _ _ (inv_begin content n hs) (.inl rfl) hts ?_
  show 2 * content.length + 0 + 1 + ((f (given content n)).length - 0) + 1 < _
  omega

/-! ### Loading the signature -/

theorem load_ended {S} {j : Job σ} {value : σ → S} {load : Str → S} (hL : Loads j value load) (len : Nat) :
    ∀ (ms : List Rec) (s : σ) (x y : Str), Reach j s x y [] true → ∀ s',
      loadSig j len ms s [] true = .done s' → value s' = load x
  | [], _, _, _, _, _, h => by cases h
  | m :: ms, s, x, y, hr, s', h => by
    rw [loadSig] at h
    split at h
    · exact load_ended hL len ms s x y hr s' h
    · have e : takeMsg j len m s [] true = some ((j.iter s [] true 0).res, (j.iter s [] true 0).job,
          [].drop (j.iter s [] true 0).used, true) := rfl
      rw [e, List.drop_nil] at h
      have hst := Reach.step [] true 0 hr (fun _ => ⟨rfl, rfl⟩)
      have hd := hL.done _ _ _ _ _ hr [] (fun _ => rfl)
      rw [List.append_nil, List.append_nil] at hd
      rw [List.append_nil, List.take_nil, List.drop_nil, List.append_nil] at hst
      generalize j.iter s [] true 0 = r at *
      obtain ⟨rj, ru, ro, rr⟩ := r
      cases rr with
      | done => cases h; exact hd rfl
      | blocked => exact load_ended hL len ms _ x _ hst s' h
      | running => exact load_ended hL len ms _ x _ hst s' h
      | ioError => cases h
      | other => cases h

theorem load_inv {S} {j : Job σ} {value : σ → S} {load : Str → S} (hL : Loads j value load) (len : Nat) :
    ∀ (ms : List Rec) (s : σ) (x y : Str), Reach j s x y [] false → ∀ s',
      loadSig j len ms s [] false = .done s' →
      ∃ ps r rest, unlogged ms = asMessages ps ++ r :: rest ∧ r.cmd = Cmd.endFile.toByte ∧
        value s' = load (x ++ ps.flatten)
  | [], _, _, _, _, _, h => by cases h
  | m :: ms, s, x, y, hr, s', h => by
    rw [loadSig] at h
    split at h
    · rename_i hm
      obtain ⟨ps, r, rest, h1, h2, h3⟩ := load_inv hL len ms s x y hr s' h
      refine ⟨ps, r, rest, ?_, h2, h3⟩
      rw [← h1]
      unfold unlogged
      rw [List.filter_cons_of_neg]
      rcases hm with hm | hm <;> rw [hm] <;> decide
    · rename_i hm
      have hul : unlogged (m :: ms) = m :: unlogged ms := by
        unfold unlogged
        rw [List.filter_cons_of_pos]
        rw [Bool.not_eq_true', Bool.or_eq_false_iff]
        exact ⟨beq_false_of_ne (fun c => hm (.inl c)), beq_false_of_ne (fun c => hm (.inr c))⟩
      rw [hul]
      unfold takeMsg at h
      rw [if_neg Bool.false_ne_true, if_neg (show ¬ ([] : Str).length > len from Nat.not_lt_zero _), if_neg (fun c => c rfl)] at h
      by_cases ha : m.cmd = Cmd.append.toByte
      · rw [if_pos ha] at h
        by_cases hbig : m.buf.length > len
        · rw [if_pos hbig] at h; cases h
        · rw [if_neg hbig] at h
          dsimp only at h
          have hst := Reach.step m.buf false 0 hr (fun c => by cases c)
          have hall := hL.all s m.buf false 0
          have hwt := hL.waits s m.buf false 0
          rw [List.nil_append, hall, List.take_length, List.drop_length] at hst
          rw [hall, List.drop_length] at h
          generalize j.iter s m.buf false 0 = r at *
          obtain ⟨rj, ru, ro, rr⟩ := r
          have key : loadSig j len ms rj [] false = .done s' → _ :=
            fun h => load_inv hL len ms rj (x ++ m.buf) _ hst s' h
          have fin : loadSig j len ms rj [] false = .done s' →
              ∃ ps r rest, m :: unlogged ms = asMessages ps ++ r :: rest ∧ r.cmd = Cmd.endFile.toByte ∧
                value s' = load (x ++ ps.flatten) := by
            intro h
            obtain ⟨ps, r, rest, h1, h2, h3⟩ := key h
            refine ⟨m.buf :: ps, r, rest, ?_, h2, ?_⟩
            · rw [h1]
              show m :: _ = ⟨Cmd.append.toByte, m.buf⟩ :: (asMessages ps ++ r :: rest)
              congr 1
              rw [← ha]
            · rw [h3, List.flatten_cons, List.append_assoc]
          cases rr with
          | done => cases hwt rfl
          | blocked => exact fin h
          | running => exact fin h
          | ioError => cases h
          | other => cases h
      · rw [if_neg ha] at h
        by_cases hen : m.cmd = Cmd.endFile.toByte
        · rw [if_pos hen] at h
          dsimp only at h
          refine ⟨[], m, unlogged ms, rfl, hen, ?_⟩
          rw [List.flatten_nil, List.append_nil]
          have hst := Reach.step [] true 0 hr (fun c => by cases c)
          have hd := hL.done _ _ _ _ _ hr [] (fun c => by cases c)
          rw [List.append_nil, List.append_nil] at hd
          rw [List.append_nil, List.take_nil, List.drop_nil, List.append_nil] at hst
          rw [List.drop_nil] at h
          generalize j.iter s [] true 0 = r at *
          obtain ⟨rj, ru, ro, rr⟩ := r
          cases rr with
          | done => cases h; exact hd rfl
          | blocked => exact load_ended hL len ms _ x _ hst s' h
          | running => exact load_ended hL len ms _ x _ hst s' h
          | ioError => cases h
          | other => cases h
        · rw [if_neg hen] at h
          cases h

theorem pieces_unique : ∀ {ps qs : List Str} {r q : Rec} {rest rest' : List Rec},
    asMessages ps ++ r :: rest = asMessages qs ++ q :: rest' → r.cmd = Cmd.endFile.toByte →
    q.cmd = Cmd.endFile.toByte → ps = qs
  | [], [], _, _, _, _, _, _, _ => rfl
  | [], p :: qs, r, q, _, _, h, hr, _ => by
    have := (List.cons.inj h).1
    rw [this] at hr
    exact absurd hr (show ¬ Cmd.append.toByte = Cmd.endFile.toByte by decide)
  | p :: ps, [], r, q, _, _, h, _, hq => by
    have := (List.cons.inj h).1
    rw [← this] at hq
    exact absurd hq (show ¬ Cmd.append.toByte = Cmd.endFile.toByte by decide)
  | p :: ps, q :: qs, _, _, _, _, h, hr, hq => by
    have h1 := (List.cons.inj h).1
    have h2 := pieces_unique (List.cons.inj h).2 hr hq
    rw [(Rec.mk.inj h1).2, h2]

/-- C90: the signature that the client has loaded is that of the bytes in the messages up to the end
marker, in order; messages for the log that come between make no difference. -/
theorem C90_signature_loaded {S} (j : Job σ) (value : σ → S) (load : Str → S) (hL : Loads j value load) (len : Nat)
    (ms : List Rec) (s : σ) (h : loadSig j len ms j.init [] false = .done s) :
    ∃ ps r rest, unlogged ms = asMessages ps ++ r :: rest ∧ r.cmd = 120 ∧ value s = load ps.flatten :=
  load_inv hL len ms _ _ _ .start s h

/-- C90: the buffer that a signature is read into holds every message of at most its length. -/
theorem C90_no_overflow (j : Job σ) (len : Nat) : ∀ (ms : List Rec) (s : σ) (d : Str) (e : Bool),
    (∀ m ∈ ms, m.buf.length ≤ len) → loadSig j len ms s d e ≠ .overflow
  | [], _, _, _, _ => fun h => by cases h
  | m :: ms, s, d, e, hm => by
    have ih := fun s d e => C90_no_overflow j len ms s d e (fun m h => hm m (List.mem_cons_of_mem _ h))
    rw [loadSig]
    split
    · exact ih s d e
    · have : takeMsg j len m s d e ≠ none := by
        unfold takeMsg
        dsimp only
        repeat' split
        all_goals first | (intro c; cases c; done) | (rename_i c; exact absurd (hm m (List.mem_cons_self ..)) (by omega))
      cases ht : takeMsg j len m s d e with
      | none => exact absurd ht this
      | some o =>
        obtain ⟨r, s', d', e'⟩ := o
        cases r with
        | done => exact fun h => by cases h
        | blocked => exact ih s' d' e'
        | running => exact ih s' d' e'
        | ioError => exact fun h => by cases h
        | other => exact fun h => by cases h

/-- C90: a file that has changed. The server makes the signature of what it has (`basis`), the client loads
it and sends the difference, the server puts the two together: what comes of it is the file on the client,
given that librsync does what it is for, whatever the network and the files did in between. -/
theorem C90_changed_file {S σ₁ σ₂ σ₃ σ₄ : Type} (sigJob : Job σ₁) (loadJob : Job σ₂) (deltaJob : S → Job σ₃)
    (patchJob : Job σ₄) (sig : Str → Str) (load : Str → S) (delta : S → Str → Str) (patch : Str → Str)
    (value : σ₂ → S) (l1 : Lawful sigJob) (c1 : Computes sigJob sig) (c2 : Loads loadJob value load)
    (l3 : ∀ S, Lawful (deltaJob S)) (c3 : ∀ S, Computes (deltaJob S) (delta S)) (w3 : ∀ S, Waits (deltaJob S))
    (l4 : Lawful patchJob) (c4 : Computes patchJob patch)
    (basis : Str) (law : ∀ new, patch (delta (load (sig basis)) new) = new)
    (new : Str) (n blen : Nat) (hb : 0 < blen) (t1 t3 t4 : List Turn) (s1 : St σ₁) (s2 : σ₂) (s3 : St σ₃) (s4 : St σ₄)
    (ms rest : List Rec) (e : Str)
    (h1 : run ⟨sigJob, .fzp, .net, blen, asyncBufLen⟩ t1 (begin_ sigJob basis 0) = .done s1)
    (hms : unlogged ms = asMessages s1.sent ++ ⟨Cmd.endFile.toByte, e⟩ :: rest)
    (h2 : loadSig loadJob asyncBufLen ms loadJob.init [] false = .done s2)
    (h3 : run ⟨deltaJob (value s2), .bfd, .net, asyncBufLen, asyncBufLen⟩ t3 (begin_ (deltaJob (value s2)) new n) = .done s3)
    (h4 : whole ⟨patchJob, .fzp, .file, asyncBufLen, asyncBufLen⟩ t4 (begin_ patchJob s3.sent.flatten 0) = .done s4) :
    s4.sent.flatten = given new n ∧ s3.seen = given new n := by
  have k1 := (C90_written ⟨sigJob, .fzp, .net, blen, asyncBufLen⟩ sig l1 c1 hb basis 0 (fun _ => rfl) t1 s1 (.inl h1)).1
  obtain ⟨ps, r, rest', q1, q2, q3⟩ := C90_signature_loaded loadJob value load c2 asyncBufLen ms s2 h2
  have hps := pieces_unique (q1.symm.trans hms) q2 rfl
  subst hps
  have k3 := (run_inv (u := ⟨deltaJob (value s2), .bfd, .net, asyncBufLen, asyncBufLen⟩) (l3 _) (c3 _)
    (by decide : 0 < asyncBufLen) t3 _ _ _ (inv_begin new n (fun c => by cases c))).1 s3 (.inl h3)
  have k4 := (C90_written ⟨patchJob, .fzp, .file, asyncBufLen, asyncBufLen⟩ patch l4 c4
    (by decide : 0 < asyncBufLen) s3.sent.flatten 0 (fun _ => rfl) t4 s4 (.inr h4)).1
  refine ⟨?_, k3.2.2 (w3 _)⟩
  rw [k4, show given s3.sent.flatten 0 = s3.sent.flatten from rfl, k3.1, q3, k1]
  exact law _

/-- C90: the pieces of a signature that a server sends fit the buffer they are read into. -/
theorem C90_own_messages_fit (j : Job σ) (f : Str → Str) (hj : Lawful j) (hf : Computes j f) (blen : Nat)
    (hb : 0 < blen) (basis : Str) (t : List Turn) (s : St σ)
    (h : run ⟨j, .fzp, .net, blen, asyncBufLen⟩ t (begin_ j basis 0) = .done s) {σ'} (j' : Job σ')
    (st : σ') (d : Str) (e : Bool) :
    loadSig j' asyncBufLen (asMessages s.sent ++ [⟨Cmd.endFile.toByte, bytes "endfile"⟩]) st d e ≠ .overflow := by
  refine C90_no_overflow j' asyncBufLen _ st d e ?_
  intro m hm
  rcases List.mem_append.mp hm with hm | hm
  · obtain ⟨p, hp, rfl⟩ := List.mem_map.mp hm
    exact ((C90_written ⟨j, .fzp, .net, blen, asyncBufLen⟩ f hj hf hb basis 0 (fun _ => rfl) t s (.inl h)).2 p hp).2
  · rw [List.mem_singleton.mp hm]
    decide

/-- C90 fails: the bytes of a message of a signature are copied into a buffer of 16000 bytes whatever their
number, `memcpy` in `rs_infilebuf_fill`, src/rs_buf.c:157, and the network layer passes on messages of up to
32026 bytes: a server can make a client write past the end of the buffer. -/
theorem C90_overflow_violated :
    ∃ m : Rec,
      -- the message arrives whole, however the bytes come
      (∀ (history : List Ev) (rounds : List (Nat × Str × Str)), (∀ x ∈ rounds, 0 < x.1) →
        1 + (m.cmd :: hex04 m.buf.length ++ m.buf).length ≤ rounds.length →
        (Asfd.run (arriving (m.cmd :: hex04 m.buf.length ++ m.buf))
          (history ++ rounds.flatMap (fun x => round x.1 x.2.1 x.2.2))).delivered = [m]) ∧
      -- and whatever the job, the buffer overflows
      ∀ (σ : Type) (j : Job σ) (ms : List Rec), loadSig j asyncBufLen (m :: ms) j.init [] false = .overflow := by
  refine ⟨⟨Cmd.append.toByte, List.replicate 16001 0⟩, ?_, ?_⟩
  · intro history rounds hr hlen
    refine C11_everything_delivered [⟨Cmd.append.toByte, List.replicate 16001 0⟩] ?_ _ ?_ history rounds hr hlen
    · intro r hr
      rw [List.mem_singleton.mp hr]
      refine ⟨by show Cmd.append.toByte ≠ 0; decide, ?_⟩
      show (List.replicate 16001 (0 : Byte)).length + 5 < bufMax
      rw [List.length_replicate]
      decide
    · show _ = [_].flatten
      rw [List.flatten_cons, List.flatten_nil, List.append_nil]
  · intro σ j ms
    rw [loadSig, if_neg (show ¬ (Cmd.append.toByte = Cmd.message.toByte ∨ Cmd.append.toByte = Cmd.warning.toByte) by decide)]
    unfold takeMsg
    rw [if_neg Bool.false_ne_true, if_neg (show ¬ ([] : Str).length > asyncBufLen by decide), if_neg (fun c => c rfl),
      if_pos rfl, if_pos (show (List.replicate 16001 (0 : Byte)).length > asyncBufLen by
        rw [List.length_replicate]; decide)]

/-! ### The length of a block -/

theorem ceilSqrt_spec : ∀ n, n ≤ ceilSqrt n * ceilSqrt n ∧ ∀ m, n ≤ m * m → ceilSqrt n ≤ m
  | 0 => ⟨Nat.le_refl _, fun _ _ => Nat.zero_le _⟩
  | n + 1 => by
    obtain ⟨h1, h2⟩ := ceilSqrt_spec n
    rw [ceilSqrt]
    split
    · rename_i h
      exact ⟨h, fun m hm => h2 m (by omega)⟩
    · rename_i h
      refine ⟨?_, fun m hm => ?_⟩
      · have : (ceilSqrt n + 1) * (ceilSqrt n + 1) = ceilSqrt n * ceilSqrt n + 2 * ceilSqrt n + 1 := by
          rw [Nat.add_mul, Nat.mul_add]; omega
        omega
      · have hle := h2 m (by omega)
        rcases Nat.lt_or_ge (ceilSqrt n) m with c | c
        · omega
        · have : m = ceilSqrt n := by omega
          subst this
          omega

/-- C90: the length of a block is a multiple of 16 from 64 to 131072, and between those the least one whose
square is at least the size of the old file. -/
theorem C90_block_length (size : Nat) :
    blockLen size % 16 = 0 ∧ 64 ≤ blockLen size ∧ blockLen size ≤ 131072 ∧
      (blockLen size < 131072 → size ≤ blockLen size * blockLen size) ∧
      (64 < blockLen size → ∀ m, m % 16 = 0 → size ≤ m * m → blockLen size ≤ m) := by
  obtain ⟨h1, h2⟩ := ceilSqrt_spec size
  unfold blockLen
  dsimp only
  generalize hc : ceilSqrt size = c at *
  have hle : c ≤ (c + 15) / 16 * 16 := by omega
  generalize hr : (c + 15) / 16 * 16 = r at *
  have hsq : size ≤ r * r := Nat.le_trans h1 (Nat.mul_le_mul hle hle)
  have hmin : ∀ m, m % 16 = 0 → size ≤ m * m → r ≤ m := by
    intro m hm hs
    have := h2 m hs
    omega
  split
  · refine ⟨by decide, by decide, by decide, fun _ => ?_, fun h => absurd h (by decide)⟩
    exact Nat.le_trans hsq (Nat.mul_le_mul (by omega) (by omega))
  split
  · refine ⟨by decide, by decide, by decide, fun h => absurd h (by decide), fun _ m hm hs => ?_⟩
    have := hmin m hm hs
    omega
  · exact ⟨by omega, by omega, by omega, fun _ => hsq, fun _ => hmin⟩

end Verif
