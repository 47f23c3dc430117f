import Verif.Spec.Transfer

/-! # Lemmas about transfers -/

namespace Verif.Transfer

variable (z : Zlib) (c : Crypt) (comp enc : Bool) (dev : Dev)

/-- The receiver after some pieces of payload. -/
def rxRun (s : Rx z c) : List Str → Option (Rx z c)
  | [] => some s
  | b :: bs => match onAppend z c comp enc dev s b with
    | none => none
    | some s' => rxRun s' bs

theorem transfer_pre (pre : List Msg) (ms : List Msg) (h : ∀ m ∈ pre, m.cmd = .append ∨ Noise m)
    (s : Rx z c) :
    match rxRun z c comp enc dev s (payloads pre) with
    | some s' => transfer z c comp enc dev s (pre ++ ms) = transfer z c comp enc dev s' ms
    | none => (transfer z c comp enc dev s (pre ++ ms)).ok = false := by
  induction pre generalizing s with
  | nil => simp [payloads, rxRun]
  | cons m pre ih =>
    have ih := fun s => ih (fun x hx => h x (by simp [hx])) s
    rcases h m (by simp) with hm | hm | hm
    · have hp : payloads (m :: pre) = m.buf :: payloads pre := by simp [payloads, hm]
      rw [hp, rxRun, List.cons_append, transfer, hm]
      cases ha : onAppend z c comp enc dev s m.buf with
      | none => simp
      | some s' => exact ih s'
    · have hp : payloads (m :: pre) = payloads pre := by simp [payloads, hm]
      rw [hp, List.cons_append, transfer, hm]
      exact ih s
    · have hp : payloads (m :: pre) = payloads pre := by simp [payloads, hm]
      rw [hp, List.cons_append, transfer, hm]
      exact ih s

theorem writePieces_takes (hd : Takes dev) (ps : List Str) (file : Str) :
    writePieces dev file ps = some (file ++ ps.flatten) := by
  induction ps generalizing file with
  | nil => simp [writePieces]
  | cons p ps ih =>
    rw [writePieces]
    cases p with
    | nil => simpa using ih file
    | cons b p =>
      have h1 : doWrite dev file (b :: p) = some (file ++ (b :: p)) := by
        unfold doWrite
        rw [hd, if_neg (by simp)]
        simp
      rw [if_neg (by simp), h1]
      simpa using ih (file ++ (b :: p))

theorem doWrite_takes (hd : Takes dev) (file out : Str) (h : out ≠ []) :
    doWrite dev file out = some (file ++ out) := by
  unfold doWrite
  have : 0 < out.length := List.length_pos_iff.2 h
  rw [hd, if_neg (by omega)]
  simp

theorem rxRun_plain (hd : Takes dev) (bs : List Str) (s : Rx z c) (out : Str)
    (h : z.decompressFrom s.infl bs = some out) :
    ∃ s', rxRun z c comp false dev s bs = some s' ∧ s'.file = s.file ++ out := by
  induction bs generalizing s out with
  | nil =>
    simp only [Zlib.decompressFrom, Option.some.injEq] at h
    exact ⟨s, rfl, by simp [← h]⟩
  | cons b bs ih =>
    rw [Zlib.decompressFrom] at h
    cases hi : z.inflate s.infl b with
    | none => rw [hi] at h; exact absurd h (by simp)
    | some r =>
      obtain ⟨i, ps⟩ := r
      rw [hi] at h
      simp only [Option.map_eq_some_iff] at h
      obtain ⟨o, ho, he⟩ := h
      have ha : onAppend z c comp false dev s b = some { s with infl := i, file := s.file ++ ps.flatten } := by
        simp [onAppend, doInflate, hi, writePieces_takes dev hd]
      obtain ⟨s', h1, h2⟩ := ih { s with infl := i, file := s.file ++ ps.flatten } o ho
      refine ⟨s', ?_, ?_⟩
      · rw [rxRun, ha]; exact h1
      · rw [h2, ← he]; simp

/-- What the cipher puts out piece by piece, and its state after that. -/
def decryptRun (d : c.D) : List Str → Option (c.D × List Str)
  | [] => some (d, [])
  | m :: ms => match c.decrypt d m with
    | none => none
    | some (d', o) => (decryptRun d' ms).map (fun r => (r.1, o :: r.2))

theorem decryptFrom_run (ms : List Str) (d : c.D) (out : Str) (h : c.decryptFrom d ms = some out) :
    ∃ d' os fin, decryptRun c d ms = some (d', os) ∧ c.decryptFinal d' = some fin ∧ out = os.flatten ++ fin := by
  induction ms generalizing d out with
  | nil => exact ⟨d, [], out, rfl, h, by simp⟩
  | cons m ms ih =>
    rw [Crypt.decryptFrom] at h
    cases hc : c.decrypt d m with
    | none => rw [hc] at h; exact absurd h (by simp)
    | some r =>
      obtain ⟨d1, o⟩ := r
      rw [hc] at h
      simp only [Option.map_eq_some_iff] at h
      obtain ⟨o2, ho2, he⟩ := h
      obtain ⟨d', os, fin, h1, h2, h3⟩ := ih d1 o2 ho2
      refine ⟨d', o :: os, fin, ?_, h2, ?_⟩
      · rw [decryptRun, hc]; simp [h1]
      · rw [← he, h3]; simp

/-- The decompressor and the file after some pieces of decrypted bytes. -/
def inflRun (s : Rx z c) : List Str → Option (Rx z c)
  | [] => some s
  | b :: bs => match doInflate z c comp true dev s b with
    | none => none
    | some s' => inflRun s' bs

theorem inflRun_append (a b : List Str) (s : Rx z c) :
    inflRun z c comp dev s (a ++ b) = (inflRun z c comp dev s a).bind (fun s' => inflRun z c comp dev s' b) := by
  induction a generalizing s with
  | nil => rfl
  | cons x a ih =>
    rw [List.cons_append, inflRun, inflRun]
    cases doInflate z c comp true dev s x with
    | none => rfl
    | some s' => exact ih s'

theorem doInflate_dec (s : Rx z c) (b : Str) (d : c.D) :
    doInflate z c comp true dev { s with dec := d } b =
      (doInflate z c comp true dev s b).map (fun t => { t with dec := d }) := by
  unfold doInflate
  by_cases h : (true && !comp) = true
  · simp only [h, if_true]
    cases doWrite dev s.file b <;> rfl
  · simp only [h]
    cases z.inflate s.infl b with
    | none => rfl
    | some r =>
      obtain ⟨i, ps⟩ := r
      cases hw : writePieces dev s.file ps <;> simp [hw]

theorem inflRun_dec (bs : List Str) (s : Rx z c) (d : c.D) :
    inflRun z c comp dev { s with dec := d } bs =
      (inflRun z c comp dev s bs).map (fun t => { t with dec := d }) := by
  induction bs generalizing s with
  | nil => rfl
  | cons b bs ih =>
    rw [inflRun, inflRun, doInflate_dec]
    cases doInflate z c comp true dev s b with
    | none => rfl
    | some s' => exact ih s'

theorem rxRun_enc (bs : List Str) (s : Rx z c) (d' : c.D) (os : List Str)
    (h : decryptRun c s.dec bs = some (d', os)) :
    rxRun z c comp true dev s bs =
      (inflRun z c comp dev s (os.filter (fun o => !o.isEmpty))).map (fun t => { t with dec := d' }) := by
  induction bs generalizing s os with
  | nil =>
    simp only [decryptRun, Option.some.injEq, Prod.mk.injEq] at h
    obtain ⟨rfl, rfl⟩ := h
    rfl
  | cons b bs ih =>
    rw [decryptRun] at h
    cases hc : c.decrypt s.dec b with
    | none => rw [hc] at h; exact absurd h (by simp)
    | some r =>
      obtain ⟨d1, o⟩ := r
      rw [hc] at h
      simp only [Option.map_eq_some_iff] at h
      obtain ⟨⟨d2, os2⟩, h1, h2⟩ := h
      simp only [Prod.mk.injEq] at h2
      obtain ⟨rfl, rfl⟩ := h2
      rw [rxRun, onAppend]
      simp only [if_true, hc]
      cases o with
      | nil =>
        simp only [List.isEmpty_nil, if_true]
        have hf : ([] :: os2 : List Str).filter (fun o => !o.isEmpty) = os2.filter (fun o => !o.isEmpty) := by
          simp
        rw [ih { s with dec := d1 } os2 h1, inflRun_dec, hf]
        cases inflRun z c comp dev s (os2.filter (fun o => !o.isEmpty)) <;> rfl
      | cons x o =>
        have hf : ((x :: o) :: os2).filter (fun o => !o.isEmpty) = (x :: o) :: os2.filter (fun o => !o.isEmpty) := by
          simp
        rw [hf, inflRun, if_neg (by simp), doInflate_dec]
        cases hdi : doInflate z c comp true dev s (x :: o) with
        | none => rfl
        | some s' =>
          simp only [Option.map_some]
          rw [ih { s' with dec := d1 } os2 h1, inflRun_dec]
          cases inflRun z c comp dev s' (os2.filter (fun o => !o.isEmpty)) <;> rfl

theorem inflRun_gz (hd : Takes dev) (bs : List Str) (s : Rx z c) (out : Str)
    (h : z.decompressFrom s.infl bs = some out) :
    ∃ s', inflRun z c true dev s bs = some s' ∧ s'.file = s.file ++ out := by
  induction bs generalizing s out with
  | nil =>
    simp only [Zlib.decompressFrom, Option.some.injEq] at h
    exact ⟨s, rfl, by simp [← h]⟩
  | cons b bs ih =>
    rw [Zlib.decompressFrom] at h
    cases hi : z.inflate s.infl b with
    | none => rw [hi] at h; exact absurd h (by simp)
    | some r =>
      obtain ⟨i, ps⟩ := r
      rw [hi] at h
      simp only [Option.map_eq_some_iff] at h
      obtain ⟨o, ho, he⟩ := h
      have ha : doInflate z c true true dev s b = some { s with infl := i, file := s.file ++ ps.flatten } := by
        simp [doInflate, hi, writePieces_takes dev hd]
      obtain ⟨s', h1, h2⟩ := ih { s with infl := i, file := s.file ++ ps.flatten } o ho
      refine ⟨s', ?_, ?_⟩
      · rw [inflRun, ha]; exact h1
      · rw [h2, ← he]; simp

theorem inflRun_raw (hd : Takes dev) (bs : List Str) (hb : ∀ b ∈ bs, b ≠ []) (s : Rx z c) :
    ∃ s', inflRun z c false dev s bs = some s' ∧ s'.file = s.file ++ bs.flatten := by
  induction bs generalizing s with
  | nil => exact ⟨s, rfl, by simp⟩
  | cons b bs ih =>
    have ha : doInflate z c false true dev s b = some { s with file := s.file ++ b } := by
      simp [doInflate, doWrite_takes dev hd s.file b (hb b (by simp))]
    obtain ⟨s', h1, h2⟩ := ih (fun x hx => hb x (by simp [hx])) { s with file := s.file ++ b }
    refine ⟨s', ?_, ?_⟩
    · rw [inflRun, ha]; exact h1
    · rw [h2]; simp

theorem flatten_filter (os : List Str) : (os.filter (fun o => !o.isEmpty)).flatten = os.flatten := by
  induction os with
  | nil => rfl
  | cons o os ih =>
    cases o with
    | nil => simpa using ih
    | cons x o => simp [ih]

/-- The end of an encrypted stream is one more piece. -/
theorem onEnd_enc (s : Rx z c) (fin : Str) (h : c.decryptFinal s.dec = some fin) :
    onEnd z c comp true dev s = inflRun z c comp dev s ([fin].filter (fun o => !o.isEmpty)) := by
  unfold onEnd
  simp only [if_true, h]
  cases fin with
  | nil => rfl
  | cons x fin =>
    simp only [List.isEmpty_cons, Bool.false_eq_true, if_false, List.filter_cons, Bool.not_false, if_true,
      List.filter_nil, inflRun]
    cases doInflate z c comp true dev s (x :: fin) <;> rfl

/-- The bytes that carry a file. -/
def wire (chunks : List Str) : Str :=
  let ps := if comp then z.compressFrom z.dinit chunks else chunks
  if enc then c.encryptFrom c.einit (ps.filter (fun p => !p.isEmpty)) else ps.flatten

theorem receive_pre (hz : z.Faithful) (hc : c.Faithful) (hd : Takes dev) (hm : comp = true ∨ enc = true)
    (chunks : List Str) (pre : List Msg) (e : Msg) (rest : List Msg)
    (hpre : ∀ m ∈ pre, m.cmd = .append ∨ Noise m) (he : e.cmd = .endFile)
    (hw : (payloads pre).flatten = wire z c comp enc chunks) :
    receive z c comp enc dev (pre ++ e :: rest) = ⟨true, chunks.flatten, rest⟩ := by
  unfold receive
  have key := transfer_pre z c comp enc dev pre (e :: rest) hpre ⟨z.iinit, c.dinit, []⟩
  have fin : ∀ s s' : Rx z c, onEnd z c comp enc dev s = some s' →
      transfer z c comp enc dev s (e :: rest) = ⟨true, s'.file, rest⟩ := by
    intro s s' h
    rw [transfer, he]
    simp [h]
  cases enc with
  | false =>
    have hcomp : comp = true := by simpa using hm
    subst hcomp
    have h1 := hz chunks (payloads pre) (by simpa [wire] using hw)
    obtain ⟨s', h2, h3⟩ := rxRun_plain z c true dev hd (payloads pre) ⟨z.iinit, c.dinit, []⟩ _ h1
    rw [h2] at key
    simp only at key
    rw [key, fin s' s' (by simp [onEnd]), h3]
    simp
  | true =>
    have h1 := hc _ (payloads pre) (by simpa [wire] using hw)
    obtain ⟨d', os, f, h2, h3, h4⟩ := decryptFrom_run c _ _ _ h1
    have hr := rxRun_enc z c comp dev (payloads pre) ⟨z.iinit, c.dinit, []⟩ d' os h2
    -- all the decrypted pieces, the last included
    have all : ∃ t u, inflRun z c comp dev ⟨z.iinit, c.dinit, []⟩ (os.filter (fun o => !o.isEmpty)) = some t ∧
        inflRun z c comp dev t ([f].filter (fun o => !o.isEmpty)) = some u ∧ u.file = chunks.flatten := by
      have hsplit := inflRun_append z c comp dev (os.filter (fun o => !o.isEmpty))
        ([f].filter (fun o => !o.isEmpty)) ⟨z.iinit, c.dinit, []⟩
      have hflat : (os.filter (fun o => !o.isEmpty) ++ [f].filter (fun o => !o.isEmpty)).flatten =
          os.flatten ++ f := by
        rw [List.flatten_append, flatten_filter, flatten_filter]; simp
      have hx : ∃ u, inflRun z c comp dev ⟨z.iinit, c.dinit, []⟩
          (os.filter (fun o => !o.isEmpty) ++ [f].filter (fun o => !o.isEmpty)) = some u ∧
          u.file = chunks.flatten := by
        cases comp with
        | true =>
          have := hz chunks (os.filter (fun o => !o.isEmpty) ++ [f].filter (fun o => !o.isEmpty))
            (by rw [hflat, ← h4, flatten_filter]; rfl)
          obtain ⟨u, hu1, hu2⟩ := inflRun_gz z c dev hd _ ⟨z.iinit, c.dinit, []⟩ _ this
          exact ⟨u, hu1, by simpa using hu2⟩
        | false =>
          obtain ⟨u, hu1, hu2⟩ := inflRun_raw z c dev hd
            (os.filter (fun o => !o.isEmpty) ++ [f].filter (fun o => !o.isEmpty))
            (by
              intro b hb
              rw [← List.filter_append, List.mem_filter] at hb
              intro h
              rw [h] at hb
              exact absurd hb.2 (by simp))
            ⟨z.iinit, c.dinit, []⟩
          refine ⟨u, hu1, ?_⟩
          rw [hu2, hflat, ← h4, flatten_filter]
          rfl
      obtain ⟨u, hu1, hu2⟩ := hx
      rw [hsplit] at hu1
      obtain ⟨t, ht1, ht2⟩ := Option.bind_eq_some_iff.1 hu1
      exact ⟨t, u, ht1, ht2, hu2⟩
    obtain ⟨t, u, ht, hu, huf⟩ := all
    rw [ht] at hr
    simp only [Option.map_some] at hr
    rw [hr] at key
    simp only at key
    have hon := onEnd_enc z c comp dev { t with dec := d' } f h3
    rw [inflRun_dec, hu] at hon
    simp only [Option.map_some] at hon
    rw [key, fin _ _ hon]
    simp [huf]

end Verif.Transfer
