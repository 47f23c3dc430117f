import Verif.Model.VssStrip
import Verif.Spec.VssStrip
import Verif.Spec.Transfer

/-!
# C48: VSS headers are stripped exactly
-/

namespace Verif
open Verif.VssStrip Verif.Transfer

namespace VssStrip

theorem length_lowFirst (k n : Nat) : (lowFirst k n).length = k := by
  induction k generalizing n with
  | zero => rfl
  | succ k ih => simp [lowFirst, ih]

theorem little_lowFirst (k n : Nat) (h : n < 256 ^ k) : little (lowFirst k n) = n := by
  induction k generalizing n with
  | zero => simp only [Nat.pow_zero] at h; simp only [lowFirst, little]; omega
  | succ k ih =>
    rw [lowFirst, little, ih (n / 256) (by rw [Nat.pow_succ] at h; omega)]
    rw [UInt8.toNat_ofNat']
    omega

/-- The header of a stream. -/
def Stream.head (s : Stream) : Str :=
  lowFirst 4 s.kind ++ lowFirst 4 s.attributes ++ lowFirst 8 s.content.length ++ lowFirst 4 s.name.length

/-- What follows it. -/
def Stream.body (s : Stream) : Str := s.name ++ s.content

theorem write_eq (s : Stream) : s.write = s.head ++ s.body := by simp [Stream.write, Stream.head, Stream.body]

theorem head_length (s : Stream) : s.head.length = bsidsize := by
  simp [Stream.head, length_lowFirst, bsidsize]

theorem head_id (s : Stream) (h : s.Fits) : streamId s.head = s.kind := by
  have : s.head.take 4 = lowFirst 4 s.kind := by
    rw [Stream.head, List.append_assoc, List.append_assoc, List.take_append_of_le_length (Nat.le_of_eq (length_lowFirst 4 _).symm)]
    rw [List.take_of_length_le (Nat.le_of_eq (by simp [length_lowFirst]))]
  rw [streamId, this, little_lowFirst]
  exact h.1

theorem drop_exact (a b : Str) (n : Nat) (h : a.length = n) : (a ++ b).drop n = b := by
  rw [← h]; simp

theorem take_exact (a b : Str) (n : Nat) (h : a.length = n) : (a ++ b).take n = a := by
  rw [← h]; simp

theorem head_total (s : Stream) (h : s.Fits) : total s.head = s.body.length := by
  have h1 : (s.head.drop 8).take 8 = lowFirst 8 s.content.length := by
    have : s.head = (lowFirst 4 s.kind ++ lowFirst 4 s.attributes) ++ (lowFirst 8 s.content.length ++ lowFirst 4 s.name.length) := by
      simp [Stream.head]
    rw [this, drop_exact _ _ 8 (by simp [length_lowFirst]), take_exact _ _ 8 (by simp [length_lowFirst])]
  have h2 : (s.head.drop 16).take 4 = lowFirst 4 s.name.length := by
    rw [Stream.head, drop_exact _ _ 16 (by simp [length_lowFirst]), List.take_of_length_le (Nat.le_of_eq (by simp [length_lowFirst]))]
  obtain ⟨_, g2, g3⟩ := h
  unfold total
  simp only [h1, h2]
  rw [little_lowFirst 8 _ (by omega), little_lowFirst 4 _ (by omega), if_pos g2, Stream.body, List.length_append]
  omega

theorem mainWork_stream (s : Stream) (h : s.Fits) (rest : Str) :
    mainWork (s.write ++ rest) = if s.isData then (true, s.body) else mainWork rest := by
  have ht : (s.write ++ rest).take bsidsize = s.head := by
    rw [write_eq, List.append_assoc, take_exact _ _ _ (head_length s)]
  have hd : (s.write ++ rest).drop bsidsize = s.body ++ rest := by
    rw [write_eq, List.append_assoc, drop_exact _ _ _ (head_length s)]
  have hl : ¬ (s.write ++ rest).length < bsidsize := by
    rw [write_eq, List.length_append, List.length_append, head_length]; omega
  rw [mainWork, if_neg hl]
  simp only [ht, hd, head_id s h, head_total s h]
  by_cases hk : s.kind = 1
  · rw [if_pos hk, if_pos (by simp [Stream.isData, hk]), take_exact _ _ _ rfl]
    simp
  · have hk' : ¬ s.isData = true := by simpa [Stream.isData] using hk
    rw [if_neg hk, if_neg hk', if_pos (by simp), drop_exact _ _ _ rfl]

end VssStrip

/-- C48: whatever streams a file is made of, exactly what the first data stream holds is written, and
nothing if there is none. (A data stream has no name; a name would be written too.) -/
theorem C48_exact (l : List Stream) (h : ∀ s ∈ l, s.Fits) :
    mainWork (l.flatMap Stream.write) =
      (true, match l.find? Stream.isData with | some s => s.name ++ s.content | none => []) := by
  induction l with
  | nil => rw [List.flatMap_nil, mainWork]; rfl
  | cons s l ih =>
    rw [List.flatMap_cons, mainWork_stream s (h s (by simp)), List.find?_cons]
    cases hd : s.isData with
    | true => simp [Stream.body]
    | false => simpa using ih (fun x hx => h x (by simp [hx]))

/-- C48: nothing of what follows the first data stream matters. -/
theorem C48_only_first (l : List Stream) (s : Stream) (h : ∀ x ∈ l, x.Fits) (hs : s.Fits)
    (hd : s.isData = true) (hn : ∀ x ∈ l, x.isData = false) (rest : Str) :
    mainWork (l.flatMap Stream.write ++ s.write ++ rest) = (true, s.name ++ s.content) := by
  induction l with
  | nil => rw [List.flatMap_nil, List.nil_append, mainWork_stream s hs, if_pos hd]; rfl
  | cons x l ih =>
    rw [List.flatMap_cons, List.append_assoc, List.append_assoc, mainWork_stream x (h x (by simp)),
      hn x (by simp)]
    have := ih (fun y hy => h y (by simp [hy])) (fun y hy => hn y (by simp [hy]))
    rw [List.append_assoc] at this
    simpa using this

/-- C48 (partial: see `C48_truncated_violated` for a file that ends within a header): a file that ends within
the name or the data of a stream that would have been looked at is reported. -/
theorem C48_truncated_partial (l : List Stream) (s : Stream) (h : ∀ x ∈ l, x.Fits) (hs : s.Fits)
    (hn : ∀ x ∈ l, x.isData = false) (k : Nat) (hk1 : 20 ≤ k) (hk2 : k < s.write.length) :
    (mainWork (l.flatMap Stream.write ++ s.write.take k)).1 = false := by
  induction l with
  | nil =>
    have ht : (s.write.take k).take bsidsize = s.head := by
      rw [List.take_take, Nat.min_eq_left (show bsidsize ≤ k from hk1), write_eq, take_exact _ _ _ (head_length s)]
    have hd : (s.write.take k).drop bsidsize = s.body.take (k - 20) := by
      rw [List.drop_take, write_eq, drop_exact _ _ _ (head_length s)]; rfl
    have hl : s.write.length = 20 + s.body.length := by
      rw [write_eq, List.length_append, head_length]; rfl
    rw [List.flatMap_nil, List.nil_append, mainWork, if_neg (by rw [List.length_take]; simp only [bsidsize]; omega)]
    simp only [ht, hd, head_id s hs, head_total s hs]
    have hshort : ¬ s.body.length ≤ (s.body.take (k - 20)).length := by
      rw [List.length_take]; omega
    by_cases hkind : s.kind = 1
    · rw [if_pos hkind]; simpa using hshort
    · rw [if_neg hkind, if_neg hshort]
  | cons x l ih =>
    rw [List.flatMap_cons, List.append_assoc, mainWork_stream x (h x (by simp)), hn x (by simp)]
    simpa using ih (fun y hy => h y (by simp [hy])) (fun y hy => hn y (by simp [hy]))

/-- An instance: a security descriptor, the data, another stream. -/
def exStreams : List Stream :=
  [⟨3, 2, [], bytes "security"⟩, ⟨1, 0, [], bytes "hello"⟩, ⟨4, 0, bytes ":x", bytes "other"⟩]

example : ∀ s ∈ exStreams, s.Fits := by decide
example : mainWork (exStreams.flatMap Stream.write) = (true, bytes "hello") :=
  C48_exact exStreams (by decide)
example : (exStreams[1]).write = 1 :: 0 :: 0 :: 0 :: 0 :: 0 :: 0 :: 0 :: 5 :: 0 :: 0 :: 0 :: 0 :: 0 :: 0 :: 0 ::
    0 :: 0 :: 0 :: 0 :: bytes "hello" := by decide

/-- C48 fails for a file that ends within a header: there is no output and no error, wherever the cut is. -/
theorem C48_truncated_violated (l : List Stream) (s : Stream) (h : ∀ x ∈ l, x.Fits)
    (hn : ∀ x ∈ l, x.isData = false) (k : Nat) (hk : k < 20) :
    mainWork (l.flatMap Stream.write ++ s.write.take k) = (true, []) := by
  induction l with
  | nil =>
    rw [List.flatMap_nil, List.nil_append, mainWork, if_pos (by rw [List.length_take]; simp only [bsidsize]; omega)]
  | cons x l ih =>
    rw [List.flatMap_cons, List.append_assoc, mainWork_stream x (h x (by simp)), hn x (by simp)]
    simpa using ih (fun y hy => h y (by simp [hy])) (fun y hy => hn y (by simp [hy]))

/-- C48: printing the headers prints those of all streams. -/
theorem C48_dump (l : List Stream) (h : ∀ s ∈ l, s.Fits) :
    dumpHeaders (l.flatMap Stream.write) = (true, l.map Stream.head) := by
  induction l with
  | nil => rw [List.flatMap_nil, dumpHeaders]; rfl
  | cons s l ih =>
    have ht : (s.write ++ l.flatMap Stream.write).take bsidsize = s.head := by
      rw [write_eq, List.append_assoc, take_exact _ _ _ (head_length s)]
    have hd : (s.write ++ l.flatMap Stream.write).drop bsidsize = s.body ++ l.flatMap Stream.write := by
      rw [write_eq, List.append_assoc, drop_exact _ _ _ (head_length s)]
    have hl : ¬ (s.write ++ l.flatMap Stream.write).length < bsidsize := by
      rw [write_eq, List.length_append, List.length_append, head_length]; omega
    rw [List.flatMap_cons, dumpHeaders, if_neg hl]
    simp only [ht, hd, head_total s (h s (by simp))]
    rw [if_pos (by simp), drop_exact _ _ _ rfl, ih (fun x hx => h x (by simp [hx]))]
    rfl

/-- C48: a file that ends within the name or the data of a stream is reported when the headers are printed, after
the header of that stream. -/
theorem C48_dump_truncated (l : List Stream) (s : Stream) (h : ∀ x ∈ l, x.Fits) (hs : s.Fits) (k : Nat)
    (hk1 : 20 ≤ k) (hk2 : k < s.write.length) :
    dumpHeaders (l.flatMap Stream.write ++ s.write.take k) = (false, l.map Stream.head ++ [s.head]) := by
  induction l with
  | nil =>
    have ht : (s.write.take k).take bsidsize = s.head := by
      rw [List.take_take, Nat.min_eq_left (show bsidsize ≤ k from hk1), write_eq, take_exact _ _ _ (head_length s)]
    have hd : (s.write.take k).drop bsidsize = s.body.take (k - 20) := by
      rw [List.drop_take, write_eq, drop_exact _ _ _ (head_length s)]; rfl
    have hl : s.write.length = 20 + s.body.length := by
      rw [write_eq, List.length_append, head_length]; rfl
    rw [List.flatMap_nil, List.nil_append, dumpHeaders, if_neg (by rw [List.length_take]; simp only [bsidsize]; omega)]
    simp only [ht, hd, head_total s hs]
    rw [if_neg (by rw [List.length_take]; omega)]
    rfl
  | cons x l ih =>
    have ht : (x.write ++ (l.flatMap Stream.write ++ s.write.take k)).take bsidsize = x.head := by
      rw [write_eq, List.append_assoc, take_exact _ _ _ (head_length x)]
    have hd : (x.write ++ (l.flatMap Stream.write ++ s.write.take k)).drop bsidsize =
        x.body ++ (l.flatMap Stream.write ++ s.write.take k) := by
      rw [write_eq x, List.append_assoc, drop_exact _ _ _ (head_length x)]
    have hl : ¬ (x.write ++ (l.flatMap Stream.write ++ s.write.take k)).length < bsidsize := by
      rw [write_eq x, List.length_append, List.length_append, head_length]; omega
    rw [List.flatMap_cons, List.append_assoc, dumpHeaders, if_neg hl]
    simp only [ht, hd, head_total x (h x (by simp))]
    rw [if_pos (by simp), drop_exact _ _ _ rfl, ih (fun y hy => h y (by simp [hy]))]
    rfl

/-- An instance of the hypotheses. -/
example : Stream.Fits ⟨1, 0, [], bytes "hello"⟩ ∧ 20 ≤ 22 ∧ 22 < (Stream.write ⟨1, 0, [], bytes "hello"⟩).length := by
  decide

/-! ### The client's version -/

namespace VssStrip

/-- One byte. -/
def byte (st : St) (b : Byte) : St × Str :=
  match st with
  | .header got => (if (got ++ [b]).length = bsidsize then afterHeader (got ++ [b]) else .header (got ++ [b]), [])
  | .data h left => (if left - 1 = 0 then .header [] else .data h (left - 1), if streamId h = 1 then [b] else [])

/-- All bytes. -/
def allBytes : St → Str → St × Str
  | st, [] => (st, [])
  | st, b :: bs => ((allBytes (byte st b).1 bs).1, (byte st b).2 ++ (allBytes (byte st b).1 bs).2)

/-- States that occur. -/
def St.Ok : St → Prop
  | .header got => got.length < bsidsize
  | .data h left => h.length = bsidsize ∧ 0 < left ∧ left ≤ total h

theorem afterHeader_ok (h : Str) (hl : h.length = bsidsize) : (afterHeader h).Ok := by
  unfold afterHeader
  split
  · simp [St.Ok, bsidsize]
  · exact ⟨hl, by omega, by omega⟩

theorem byte_ok (st : St) (b : Byte) (h : st.Ok) : (byte st b).1.Ok := by
  cases st with
  | header got =>
    simp only [byte]
    split
    · rename_i hl; exact afterHeader_ok _ hl
    · rename_i hl
      simp only [St.Ok, List.length_append, List.length_singleton] at h hl ⊢
      omega
  | data hd left =>
    obtain ⟨h1, h2, h3⟩ := h
    simp only [byte]
    split
    · simp [St.Ok, bsidsize]
    · exact ⟨h1, by omega, by omega⟩

theorem allBytes_append (st : St) (a b : Str) :
    allBytes st (a ++ b) = ((allBytes (allBytes st a).1 b).1, (allBytes st a).2 ++ (allBytes (allBytes st a).1 b).2) := by
  induction a generalizing st with
  | nil => simp [allBytes]
  | cons x a ih => simp [allBytes, ih]

theorem allBytes_ok (st : St) (bs : Str) (h : st.Ok) : (allBytes st bs).1.Ok := by
  induction bs generalizing st with
  | nil => exact h
  | cons b bs ih => exact ih _ (byte_ok st b h)

/-- Reading some of a header. -/
theorem allBytes_header (a got : Str) (h : got.length + a.length < bsidsize) :
    allBytes (.header got) a = (.header (got ++ a), []) := by
  induction a generalizing got with
  | nil => simp [allBytes]
  | cons b a ih =>
    simp only [List.length_cons] at h
    have hb : byte (.header got) b = (.header (got ++ [b]), []) := by
      simp only [byte]
      rw [if_neg (by simp only [List.length_append, List.length_singleton]; omega)]
    rw [allBytes, hb, ih _ (by simp only [List.length_append, List.length_singleton]; omega)]
    simp

/-- Reading the rest of a header. -/
theorem allBytes_header_end (a got : Str) (h : got.length + a.length = bsidsize) (hg : got.length < bsidsize) :
    allBytes (.header got) a = (afterHeader (got ++ a), []) := by
  rcases List.eq_nil_or_concat a with rfl | ⟨a', b, rfl⟩
  · simp only [List.length_nil] at h; omega
  · rw [List.concat_eq_append] at h ⊢
    rw [List.length_append, List.length_singleton] at h
    rw [allBytes_append, allBytes_header a' got (by omega)]
    simp only [allBytes, byte]
    rw [if_pos (by simp only [List.length_append, List.length_singleton]; omega)]
    simp

/-- Reading data. -/
theorem allBytes_data (a h : Str) (left : Nat) (hl : a.length ≤ left) (hp : 0 < left) :
    allBytes (.data h left) a =
      (if left - a.length = 0 then .header [] else .data h (left - a.length), if streamId h = 1 then a else []) := by
  induction a generalizing left with
  | nil =>
    simp only [allBytes, List.length_nil, Nat.sub_zero]
    rw [if_neg (by omega)]
    simp
  | cons b a ih =>
    simp only [List.length_cons] at hl ⊢
    rw [allBytes]
    cases a with
    | nil =>
      simp only [allBytes, byte, List.length_nil, Nat.zero_add]
      split <;> simp
    | cons c a =>
      have hb : byte (.data h left) b = (.data h (left - 1), if streamId h = 1 then [b] else []) := by
        simp only [byte]
        rw [if_neg (by simp only [List.length_cons] at hl; omega)]
      simp only [List.length_cons] at hl
      rw [hb]
      simp only
      rw [ih (left - 1) (by simp only [List.length_cons]; omega) (by omega)]
      simp only [List.length_cons]
      have e : left - 1 - (a.length + 1) = left - (a.length + 1 + 1) := by omega
      rw [e]
      split <;> by_cases hid : streamId h = 1 <;> simp [hid]

/-- The end of the header of a data stream that is not empty. -/
def AtData : St → Prop
  | .header _ => False
  | .data h left => streamId h = 1 ∧ left = total h

instance (st : St) : Decidable (AtData st) := by
  cases st <;> unfold AtData <;> infer_instance

/-- The header part as bytes. -/
theorem headerPart_bytes (st : St) (hst : st.Ok) (buf : Str) :
    ∃ a, buf = a ++ (headerPart st buf).2 ∧ allBytes st a = ((headerPart st buf).1, []) ∧
      ((∃ g, (headerPart st buf).1 = .header g) → (headerPart st buf).2.length < buf.length ∨ buf = []) ∧
      (∀ h left, (headerPart st buf).1 = .data h left → (st = .data h left ∧ a = []) ∨ (left = total h ∧ a ≠ [])) := by
  cases st with
  | data h left =>
    refine ⟨[], rfl, rfl, ?_, ?_⟩
    · rintro ⟨g, hg⟩; exact absurd hg (by simp [headerPart])
    · intro h' left' he
      simp only [headerPart, St.data.injEq] at he
      exact .inl ⟨by rw [he.1, he.2], rfl⟩
  | header got =>
    simp only [St.Ok] at hst
    have hn : (buf.take (min (bsidsize - got.length) buf.length)).length = min (bsidsize - got.length) buf.length := by
      rw [List.length_take]; omega
    refine ⟨buf.take (min (bsidsize - got.length) buf.length), ?_, ?_, ?_, ?_⟩
    · simp [headerPart]
    · simp only [headerPart]
      by_cases hb : bsidsize - got.length ≤ buf.length
      · rw [if_pos (by rw [List.length_append, hn]; omega)]
        exact allBytes_header_end _ _ (by rw [hn]; omega) hst
      · rw [if_neg (by rw [List.length_append, hn]; omega)]
        exact allBytes_header _ _ (by rw [hn]; omega)
    · intro _
      simp only [headerPart, List.length_drop]
      cases buf with
      | nil => exact .inr rfl
      | cons b bs => simp only [List.length_cons] at *; left; omega
    · intro h left he
      right
      simp only [headerPart] at he
      split at he
      · rename_i hl
        unfold afterHeader at he
        split at he
        · exact absurd he (by simp)
        · simp only [St.data.injEq] at he
          refine ⟨by rw [← he.1, ← he.2], ?_⟩
          intro hnil
          rw [hnil, List.append_nil] at hl
          omega
      · exact absurd he (by simp)

/-- The data part as bytes, when the device takes everything. -/
theorem dataPart_bytes (dev : Dev) (hdev : Takes dev) (h : Str) (left : Nat) (file buf : Str) (hl : 0 < left)
    (hb : streamId h = 1 → buf ≠ []) :
    ∃ a rest st', buf = a ++ rest ∧ (buf ≠ [] → a ≠ []) ∧ dataPart dev (.data h left) file buf =
        .next st' (file ++ (allBytes (.data h left) a).2) rest ∧ (allBytes (.data h left) a).1 = st' := by
  have hn : (buf.take (min left buf.length)).length = min left buf.length := by
    rw [List.length_take]; omega
  have hall := allBytes_data (buf.take (min left buf.length)) h left (by rw [hn]; omega) hl
  rw [hn] at hall
  refine ⟨buf.take (min left buf.length), buf.drop (min left buf.length),
    if left - min left buf.length = 0 then .header [] else .data h (left - min left buf.length), by simp, ?_, ?_, ?_⟩
  · intro hne hnil
    have : (buf.take (min left buf.length)).length = 0 := by rw [hnil]; rfl
    rw [hn] at this
    have := List.length_pos_iff.2 hne
    omega
  · rw [hall]
    unfold dataPart
    simp only
    by_cases hid : streamId h = 1
    · have hpos := List.length_pos_iff.2 (hb hid)
      have hd : dev file (buf.take (min left buf.length)) = (min left buf.length : Nat) := by rw [hdev, hn]
      rw [if_pos hid, hd, if_neg (by omega), if_neg (by omega), if_pos hid]
      simp only [Int.toNat_natCast]
      rw [List.take_of_length_le (Nat.le_of_eq hn)]
    · rw [if_neg hid, if_neg hid, List.append_nil]
  · rw [hall]

theorem allBytes_data_not_at (h : Str) (left : Nat) (a : Str) (ha : a ≠ []) (hl : a.length ≤ left) (hp : 0 < left)
    (ht : left ≤ total h) : ¬ AtData (allBytes (.data h left) a).1 := by
  rw [allBytes_data a h left hl hp]
  have := List.length_pos_iff.2 ha
  simp only
  split
  · exact fun h => h
  · rintro ⟨_, h2⟩
    omega

theorem stripLoop_bytes (dev : Dev) (hdev : Takes dev) (fuel : Nat) (st : St) (hst : st.Ok) (file buf : Str)
    (hf : buf.length ≤ fuel) :
    stripLoop dev fuel st file buf =
      if buf ≠ [] ∧ AtData (allBytes st buf).1 then .error (file ++ (allBytes st buf).2)
      else .ok (allBytes st buf).1 (file ++ (allBytes st buf).2) := by
  induction fuel generalizing st file buf with
  | zero =>
    cases buf with
    | nil => simp [stripLoop, allBytes]
    | cons b bs => simp at hf
  | succ fuel ih =>
    cases buf with
    | nil => simp [stripLoop, allBytes]
    | cons b bs =>
      obtain ⟨a, h1, h2, h3, h4⟩ := headerPart_bytes st hst (b :: bs)
      have hok : (headerPart st (b :: bs)).1.Ok := by
        have := allBytes_ok st a hst
        rw [h2] at this
        exact this
      rw [stripLoop]
      generalize hbuf : b :: bs = buf at *
      have hne : buf ≠ [] := by rw [← hbuf]; simp
      clear hbuf
      generalize (headerPart st buf).1 = st1 at *
      generalize (headerPart st buf).2 = buf1 at *
      have hall : allBytes st buf = allBytes st1 buf1 := by
        rw [h1, allBytes_append, h2]
        simp
      rw [hall]
      cases st1 with
      | header g =>
        simp only [dataPart]
        have hlt : buf1.length < buf.length := by
          rcases h3 ⟨g, rfl⟩ with h | h
          · exact h
          · exact absurd h hne
        rw [ih _ hok _ _ (by omega)]
        cases buf1 with
        | nil => simp [allBytes, AtData]
        | cons c cs => simp [hne]
      | data h left =>
        obtain ⟨k1, k2, k3⟩ := hok
        by_cases hbad : streamId h = 1 ∧ buf1 = []
        · obtain ⟨hid, rfl⟩ := hbad
          have htot : left = total h := by
            rcases h4 h left rfl with ⟨_, rfl⟩ | ⟨ht, _⟩
            · exact absurd (by simpa using h1) hne
            · exact ht
          have hp : dataPart dev (.data h left) file [] = .stop (.error file) := by
            simp [dataPart, hid, hdev file []]
          rw [hp]
          simp only [allBytes, List.append_nil]
          rw [if_pos ⟨hne, hid, htot⟩]
        · obtain ⟨a2, rest, st2, e1, e2, e3, e4⟩ := dataPart_bytes dev hdev h left file buf1 k2
            (fun hid hnil => hbad ⟨hid, hnil⟩)
          rw [e3]
          simp only
          have hst2 : st2.Ok := by
            rw [← e4]; exact allBytes_ok _ _ ⟨k1, k2, k3⟩
          have hlen : rest.length ≤ fuel := by
            by_cases hb1 : buf1 = []
            · rw [hb1] at e1
              have : rest = [] := (List.append_eq_nil_iff.1 e1.symm).2
              rw [this]; simp
            · have ha2 := List.length_pos_iff.2 (e2 hb1)
              have : buf1.length = a2.length + rest.length := by rw [e1, List.length_append]
              have : buf.length = a.length + buf1.length := by
                have := congrArg List.length h1
                simpa using this
              omega
          rw [ih st2 hst2 _ _ hlen]
          have hall2 : allBytes (.data h left) buf1 =
              ((allBytes st2 rest).1, (allBytes (.data h left) a2).2 ++ (allBytes st2 rest).2) := by
            rw [e1, allBytes_append, e4]
          rw [hall2]
          simp only [List.append_assoc]
          cases rest with
          | cons c cs => simp [hne]
          | nil =>
            simp only [ne_eq, not_true, false_and, if_false, hne, not_false_eq_true, true_and]
            rw [if_neg]
            simp only [allBytes]
            rw [← e4]
            rw [List.append_nil] at e1
            subst e1
            by_cases hb1 : buf1 = []
            · -- nothing of another stream
              have hid : streamId h ≠ 1 := fun hid => hbad ⟨hid, hb1⟩
              rw [hb1]
              simp only [allBytes]
              rintro ⟨h5, _⟩
              exact hid h5
            · by_cases hle : buf1.length ≤ left
              · exact allBytes_data_not_at h left buf1 hb1 hle k2 k3
              · exfalso
                -- the data part takes at most `left` bytes
                have := e3
                unfold dataPart at this
                simp only at this
                by_cases hid : streamId h = 1
                · have hn : (buf1.take (min left buf1.length)).length = min left buf1.length := by
                    rw [List.length_take]; omega
                  have hd : dev file (buf1.take (min left buf1.length)) = (min left buf1.length : Nat) := by rw [hdev, hn]
                  rw [if_pos hid, hd, if_neg (by omega), if_neg (by omega)] at this
                  simp only [Part.next.injEq, Int.toNat_natCast] at this
                  have := congrArg List.length this.2.2
                  simp only [List.length_drop, List.length_nil] at this
                  omega
                · rw [if_neg hid] at this
                  simp only [Part.next.injEq] at this
                  have := congrArg List.length this.2.2
                  simp only [List.length_drop, List.length_nil] at this
                  omega

/-- The bytes of a whole stream. -/
theorem allBytes_stream (s : Stream) (h : s.Fits) :
    allBytes setup s.write = (setup, if s.isData then s.body else []) := by
  rw [write_eq, allBytes_append, setup, allBytes_header_end s.head [] (by simp [head_length]) (by simp [bsidsize])]
  simp only [List.nil_append]
  unfold afterHeader
  rw [head_total s h]
  by_cases hb : s.body = []
  · rw [hb]
    simp [allBytes]
  · have := List.length_pos_iff.2 hb
    rw [if_neg (by omega), allBytes_data _ _ _ (Nat.le_refl _) this, head_id s h]
    simp [Stream.isData]

theorem allBytes_streams (l : List Stream) (h : ∀ s ∈ l, s.Fits) :
    allBytes setup (l.flatMap Stream.write) = (setup, ((l.filter Stream.isData).map Stream.body).flatten) := by
  induction l with
  | nil => rfl
  | cons s l ih =>
    rw [List.flatMap_cons, allBytes_append, allBytes_stream s (h s (by simp)), ih (fun x hx => h x (by simp [hx]))]
    rw [List.filter_cons]
    split <;> simp

theorem stripAll_bytes (dev : Dev) (hdev : Takes dev) (pieces : List Str) (st : St) (hst : st.Ok) (file : Str) :
    (∃ f, stripAll dev st file pieces = .error f ∧ ∃ pre b post, pieces = pre ++ b :: post ∧ b ≠ [] ∧
      AtData (allBytes st (pre ++ [b]).flatten).1) ∨
    (stripAll dev st file pieces = .ok (allBytes st pieces.flatten).1 (file ++ (allBytes st pieces.flatten).2) ∧
      ∀ pre b post, pieces = pre ++ b :: post → b ≠ [] → ¬ AtData (allBytes st (pre ++ [b]).flatten).1) := by
  induction pieces generalizing st file with
  | nil => right; simp [stripAll, allBytes]
  | cons p ps ih =>
    rw [stripAll, stripWrite, stripLoop_bytes dev hdev _ st hst file p (Nat.le_refl _)]
    by_cases hc : p ≠ [] ∧ AtData (allBytes st p).1
    · rw [if_pos hc]
      left
      exact ⟨_, rfl, [], p, ps, rfl, hc.1, by simpa using hc.2⟩
    · rw [if_neg hc]
      have hfl : (p :: ps).flatten = p ++ ps.flatten := by simp
      simp only
      rcases ih (allBytes st p).1 (allBytes_ok st p hst) (file ++ (allBytes st p).2) with
        ⟨f, e1, pre, b, post, e2, e3, e4⟩ | ⟨e1, e2⟩
      · left
        refine ⟨f, e1, p :: pre, b, post, by rw [e2]; rfl, e3, ?_⟩
        rw [List.cons_append, List.flatten_cons, allBytes_append]
        exact e4
      · right
        refine ⟨?_, ?_⟩
        · rw [e1, hfl, allBytes_append]
          simp
        · intro pre b post hp hb hat
          cases pre with
          | nil =>
            simp only [List.nil_append, List.cons.injEq] at hp
            obtain ⟨rfl, rfl⟩ := hp
            exact hc ⟨hb, by simpa using hat⟩
          | cons q pre =>
            simp only [List.cons_append, List.cons.injEq] at hp
            obtain ⟨rfl, hp⟩ := hp
            rw [List.cons_append, List.flatten_cons, allBytes_append] at hat
            exact e2 pre b post hp hb hat

end VssStrip

/-- A piece ends exactly behind the header of a data stream: what comes before are whole streams and such a
header. -/
def VssStrip.CutAtHeader (l : List Stream) (k : Nat) : Prop :=
  ∃ pre s post, l = pre ++ s :: post ∧ s.isData = true ∧ s.name ++ s.content ≠ [] ∧
    k = (pre.flatMap Stream.write).length + 20

namespace VssStrip

/-- At the end of the header of a data stream, the bytes up to there are as `CutAtHeader` says. -/
theorem atData_cut (l : List Stream) (h : ∀ s ∈ l, s.Fits) (a b : Str) (hab : l.flatMap Stream.write = a ++ b)
    (hat : AtData (allBytes setup a).1) : CutAtHeader l a.length := by
  induction l generalizing a with
  | nil =>
    have : a = [] := (List.append_eq_nil_iff.1 hab.symm).1
    rw [this] at hat
    exact absurd hat (by simp [allBytes, setup, AtData])
  | cons s l ih =>
    rw [List.flatMap_cons] at hab
    by_cases hlen : s.write.length ≤ a.length
    · -- the whole of the first stream
      obtain ⟨a', ha'⟩ : ∃ a', a = s.write ++ a' := by
        refine ⟨a.drop s.write.length, ?_⟩
        have := congrArg (List.take s.write.length) hab
        rw [take_exact _ _ _ rfl, List.take_append_of_le_length hlen] at this
        conv => lhs; rw [← List.take_append_drop s.write.length a]
        rw [← this]
      rw [ha', List.append_assoc] at hab
      have hab' := List.append_cancel_left hab
      rw [ha', allBytes_append, allBytes_stream s (h s (by simp))] at hat
      obtain ⟨pre, t, post, e1, e2, e3, e4⟩ := ih (fun x hx => h x (by simp [hx])) a' hab' hat
      refine ⟨s :: pre, t, post, by rw [e1]; rfl, e2, e3, ?_⟩
      rw [ha', List.length_append, e4, List.flatMap_cons, List.length_append]
      omega
    · -- within the first stream
      obtain ⟨c, hc⟩ : ∃ c, s.write = a ++ c := by
        refine ⟨s.write.drop a.length, ?_⟩
        have := congrArg (List.take a.length) hab
        rw [take_exact _ _ _ rfl, List.take_append_of_le_length (by omega)] at this
        conv => lhs; rw [← List.take_append_drop a.length s.write]
        rw [this]
      have hfits := h s (by simp)
      have hwlen : s.write.length = 20 + s.body.length := by rw [write_eq, List.length_append, head_length]; rfl
      by_cases h20 : a.length < 20
      · have := allBytes_header a [] (by simpa [bsidsize] using h20)
        rw [setup, this] at hat
        exact absurd hat (by simp [AtData])
      · -- behind the header
        obtain ⟨a2, ha2⟩ : ∃ a2, a = s.head ++ a2 := by
          refine ⟨a.drop 20, ?_⟩
          have := congrArg (List.take 20) hc
          rw [write_eq, take_exact _ _ 20 (head_length s), List.take_append_of_le_length (by omega)] at this
          conv => lhs; rw [← List.take_append_drop 20 a]
          rw [← this]
        have hal : a.length = 20 + a2.length := by rw [ha2, List.length_append, head_length]; rfl
        rw [ha2, allBytes_append, setup,
          allBytes_header_end s.head [] (by simp [head_length]) (by simp [bsidsize])] at hat
        simp only [List.nil_append] at hat
        unfold afterHeader at hat
        rw [head_total s hfits, if_neg (by omega)] at hat
        by_cases hn : a2 = []
        · subst hn
          simp only [allBytes, AtData, head_id s hfits] at hat
          refine ⟨[], s, l, rfl, by simp [Stream.isData, hat.1], ?_, by simpa using hal⟩
          intro he
          have : s.body.length = 0 := by rw [Stream.body, he]; rfl
          omega
        · exfalso
          exact allBytes_data_not_at s.head s.body.length a2 hn (by omega) (by omega)
            (by rw [head_total s hfits]; omega) hat

end VssStrip

/-- C48, on the client (partial: see `C48_cut_at_header_violated` and `C48_write_error_violated`): however
the streams are cut into pieces, unless a piece ends exactly behind the header of a data stream, what is
written to the file is exactly what the data streams hold. -/
theorem C48_pieces_partial (dev : Dev) (hdev : Takes dev) (l : List Stream) (h : ∀ s ∈ l, s.Fits)
    (pieces : List Str) (hp : pieces.flatten = l.flatMap Stream.write)
    (hcut : ∀ pre post, pieces = pre ++ post → ¬ CutAtHeader l pre.flatten.length) :
    stripAll dev setup [] pieces = .ok setup ((l.filter Stream.isData).map (fun s => s.name ++ s.content)).flatten := by
  rcases stripAll_bytes dev hdev pieces setup (by simp [setup, St.Ok, bsidsize]) [] with
    ⟨f, e1, pre, b, post, e2, e3, e4⟩ | ⟨e1, _⟩
  · exfalso
    refine hcut (pre ++ [b]) post (by rw [e2]; simp) ?_
    refine atData_cut l h _ post.flatten ?_ e4
    rw [← hp, e2]
    simp
  · rw [e1, hp, allBytes_streams l h]
    rfl

/-- An instance of the hypotheses: the streams above in pieces of ten bytes, and a device that takes
everything. -/
example : (let w := exStreams.flatMap Stream.write
    stripAll (fun _ out => out.length) setup [] [w.take 10, (w.drop 10).take 40, w.drop 50]) =
    .ok setup (bytes "hello") := by decide +kernel

/-- C48 fails on the client when a piece ends exactly behind the header of a data stream: nothing is left to
be written, and writing nothing is taken for an error. The restore of the file fails. -/
theorem C48_cut_at_header_violated :
    ∃ (l : List Stream) (pieces : List Str), (∀ s ∈ l, s.Fits) ∧ pieces.flatten = l.flatMap Stream.write ∧
      ∀ dev, Takes dev → stripAll dev setup [] pieces = .error [] := by
  refine ⟨[⟨1, 0, [], bytes "hello"⟩],
    [(Stream.write ⟨1, 0, [], bytes "hello"⟩).take 20, bytes "hello"], by decide, by decide, ?_⟩
  intro dev hdev
  have : stripWrite dev setup [] ((Stream.write ⟨1, 0, [], bytes "hello"⟩).take 20) = .error [] := by
    rw [stripWrite, stripLoop_bytes dev hdev _ _ (by simp [setup, St.Ok, bsidsize]) _ _ (Nat.le_refl _)]
    decide +kernel
  rw [stripAll, this]

/-- C48: cutting there always fails. -/
theorem C48_cut_at_header_fails (dev : Dev) (hdev : Takes dev) (s : Stream) (h : s.Fits) (hd : s.isData = true)
    (hne : s.name ++ s.content ≠ []) : stripWrite dev setup [] (s.write.take 20) = .error [] := by
  have ht : s.write.take 20 = s.head := by rw [write_eq, take_exact _ _ 20 (head_length s)]
  have hl := List.length_pos_iff.2 (show s.body ≠ [] from hne)
  have hall : allBytes setup s.head = (.data s.head s.body.length, []) := by
    rw [setup, allBytes_header_end s.head [] (by simp [head_length]) (by simp [bsidsize])]
    rw [List.nil_append]
    unfold afterHeader
    rw [head_total s h, if_neg (by omega)]
  rw [ht, stripWrite, stripLoop_bytes dev hdev _ _ (by simp [setup, St.Ok, bsidsize]) _ _ (Nat.le_refl _), hall]
  rw [if_pos]
  · rfl
  · refine ⟨?_, ?_, ?_⟩
    · intro hnil
      have := head_length s
      rw [hnil] at this
      exact absurd this (by decide)
    · rw [head_id s h]; simpa [Stream.isData] using hd
    · exact (head_total s h).symm

/-- C48 fails on the client when the disc is full: the error is not noticed. -/
theorem C48_write_error_violated :
    ∃ l : List Stream, (∀ s ∈ l, s.Fits) ∧
      stripAll (fun _ _ => -1) setup [] [l.flatMap Stream.write] = .runaway [] := by
  refine ⟨[⟨1, 0, [], bytes "hello"⟩], by decide, by decide +kernel⟩

end Verif
