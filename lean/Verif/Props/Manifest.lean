import Verif.Lemmas.Sbuf

/-!
# C05, C08, C09, C10, C14: manifests
-/

namespace Verif
open Verif.PathCmp Verif.Iobuf Verif.Sbuf

/-! ### C05 -/

theorem iobufPathcmp_eq (a b : Cmd × Option Str) :
    iobufPathcmp a b =
      if pathcmpP a.2 b.2 ≠ 0 then pathcmpP a.2 b.2
      else if group a.1 = group b.1 then 0
      else if group a.1 = 0 then -1
      else if group a.1 = 1 then (if group b.1 = 0 then 1 else -1)
      else 1 := by
  obtain ⟨ca, pa⟩ := a
  obtain ⟨cb, pb⟩ := b
  unfold iobufPathcmp
  dsimp only
  split
  · rfl
  · have key : ∀ ca cb : Cmd,
      (if ca = .metadata ∨ ca = .encMetadata then
        if cb = .metadata ∨ cb = .encMetadata then 0 else 1
      else if ca = .vss ∨ ca = .encVss then
        if cb = .vss ∨ cb = .encVss then 0 else -1
      else if ca = .vssT ∨ ca = .encVssT then
        if cb = .vssT ∨ cb = .encVssT then 0 else 1
      else
        if cb = .metadata ∨ cb = .encMetadata then -1
        else if cb = .vss ∨ cb = .encVss then 1
        else if cb = .vssT ∨ cb = .encVssT then -1
        else 0 : Int) =
      if group ca = group cb then 0
      else if group ca = 0 then -1
      else if group ca = 1 then (if group cb = 0 then 1 else -1)
      else 1 := by
      intro ca cb
      cases ca <;> cases cb <;> rfl
    exact key ca cb

theorem group_le (c : Cmd) : group c ≤ 3 := by cases c <;> decide

/-- C05 (partial): the order of manifest entries is a total preorder on path and kind as long as no
path has both a metadata record and a VSS footer. Missing: paths that have both, where the code
answers "later" in both directions (`C05_entry_order_violated`). -/
theorem C05_entry_order_partial :
    (∀ a b, iobufPathcmp a b = 0 ↔ a.2 = b.2 ∧ group a.1 = group b.1) ∧
    (∀ a b, ¬ Clash a b → iobufPathcmp a b = -iobufPathcmp b a) ∧
    (∀ a b c, ¬ Clash a b → ¬ Clash b c → ¬ Clash a c →
      iobufPathcmp a b ≤ 0 → iobufPathcmp b c ≤ 0 → iobufPathcmp a c ≤ 0) ∧
    (∀ a b, a.2 ≠ b.2 → iobufPathcmp a b = pathcmpP a.2 b.2) ∧
    (∀ a b, a.2 = b.2 → ¬ Clash a b → (iobufPathcmp a b < 0 ↔ group a.1 < group b.1)) := by
  obtain ⟨hz, hanti, htr, _, _⟩ := C03_pathcmp_total_order
  have hself : ∀ p, pathcmpP p p = 0 := fun p => (hz p p).2 rfl
  have hsame : ∀ a b : Cmd × Option Str, a.2 = b.2 → ¬ Clash a b →
      (iobufPathcmp a b < 0 ↔ group a.1 < group b.1) ∧
      (iobufPathcmp a b ≤ 0 ↔ group a.1 ≤ group b.1) := by
    intro a b h hc
    rw [iobufPathcmp_eq, h, hself]
    have := group_le a.1
    have := group_le b.1
    have hc' : ¬ (group a.1 = 2 ∧ group b.1 = 3) ∧ ¬ (group a.1 = 3 ∧ group b.1 = 2) :=
      ⟨fun e => hc ⟨h, Or.inl e⟩, fun e => hc ⟨h, Or.inr e⟩⟩
    simp only [ne_eq, not_true_eq_false, if_false]
    repeat' split
    all_goals constructor <;> constructor <;> intro _ <;> omega
  have hdiff : ∀ a b : Cmd × Option Str, a.2 ≠ b.2 → iobufPathcmp a b = pathcmpP a.2 b.2 := by
    intro a b h
    have : pathcmpP a.2 b.2 ≠ 0 := fun e => h ((hz _ _).1 e)
    rw [iobufPathcmp_eq, if_pos this]
  refine ⟨?_, ?_, ?_, hdiff, fun a b h hc => (hsame a b h hc).1⟩
  · intro a b
    by_cases h : a.2 = b.2
    · rw [iobufPathcmp_eq, h, hself]
      simp only [ne_eq, not_true_eq_false, if_false, true_and]
      by_cases hg : group a.1 = group b.1
      · simp [hg]
      · simp only [hg, if_false, iff_false]
        repeat' split
        all_goals decide
    · rw [hdiff a b h]
      simp only [h, false_and, iff_false]
      exact fun e => h ((hz _ _).1 e)
  · intro a b hc
    by_cases h : a.2 = b.2
    · rw [iobufPathcmp_eq, iobufPathcmp_eq, h, hself]
      have := group_le a.1
      have := group_le b.1
      have hc' : ¬ (group a.1 = 2 ∧ group b.1 = 3) ∧ ¬ (group a.1 = 3 ∧ group b.1 = 2) :=
        ⟨fun e => hc ⟨h, Or.inl e⟩, fun e => hc ⟨h, Or.inr e⟩⟩
      simp only [ne_eq, not_true_eq_false, if_false]
      repeat' split
      all_goals first | rfl | (exfalso; omega)
    · rw [hdiff a b h, hdiff b a (fun e => h e.symm)]
      exact hanti _ _
  · intro a b c hab hbc hac h1 h2
    by_cases e1 : a.2 = b.2
    · by_cases e2 : b.2 = c.2
      · rw [(hsame a c (e1.trans e2) hac).2]
        rw [(hsame a b e1 hab).2] at h1
        rw [(hsame b c e2 hbc).2] at h2
        omega
      · rw [hdiff a c (fun e => e2 (e1.symm.trans e)), e1]
        rw [hdiff b c e2] at h2
        exact h2
    · by_cases e2 : b.2 = c.2
      · rw [hdiff a c (fun e => e1 (e.trans e2.symm)), ← e2]
        rw [hdiff a b e1] at h1
        exact h1
      · rw [hdiff a b e1] at h1
        rw [hdiff b c e2] at h2
        by_cases e3 : a.2 = c.2
        · exfalso
          rw [← e3] at h2
          have := hanti b.2 a.2
          exact e1 ((hz _ _).1 (by omega))
        · rw [hdiff a c e3]
          exact htr _ _ _ h1 h2

/-- C05 (violated): for a path with both a metadata record and a VSS footer each sorts after the
other, so the order of entries is not antisymmetric. -/
theorem C05_entry_order_violated :
    ∃ a b : Cmd × Option Str, iobufPathcmp a b = 1 ∧ iobufPathcmp b a = 1 :=
  ⟨(.metadata, some (bytes "/a")), (.vssT, some (bytes "/a")), by decide, by decide⟩

example : ¬ Clash (.file, some (bytes "/a")) (.metadata, some (bytes "/a")) ∧
    iobufPathcmp (.file, some (bytes "/a")) (.metadata, some (bytes "/a")) = -1 ∧
    iobufPathcmp (.file, some (bytes "/a")) (.vss, some (bytes "/a")) = 1 := by
  refine ⟨?_, by decide, by decide⟩
  rintro ⟨_, h | h⟩ <;> exact absurd h (by decide)

/-! ### C08 -/

/-- C08: any sequence of records with payloads of up to 65535 arbitrary bytes is written without
error and read back as the same sequence followed by a clean end of file. -/
theorem C08_records_roundtrip (rs : List Rec)
    (h : ∀ r ∈ rs, r.cmd ≠ 0 ∧ r.buf.length ≤ 65535) :
    ∃ f, writeAll [] rs = (f, true) ∧ readAll f = (rs, true) := by
  refine ⟨_, writeAll_ok (fun r hr => (h r hr).2) [], ?_⟩
  have := readAll_encs (rs := rs) (fun r hr => h r hr) []
  simpa [readAll_nil] using this

/-- C08, the form: a record is its command, four hexadecimal digits of the length, the payload and a
newline, added at the end of the file. -/
theorem C08_record_format (out : Str) (r : Rec) (h : r.buf.length ≤ 65535) :
    sendMsgFzp out r = (out ++ [r.cmd, hexChar (r.buf.length / 4096), hexChar (r.buf.length / 256 % 16),
      hexChar (r.buf.length / 16 % 16), hexChar (r.buf.length % 16)] ++ r.buf ++ [newline], true) := by
  have hd : ∀ n, n < 16 → hexDigit n = hexChar n := by decide
  have e : ∀ n, hexDigit n = hexChar (n % 16) := fun n => by
    rw [hexDigit_mod, hd _ (Nat.mod_lt _ (by decide))]
  rw [sendMsgFzp_ok out h, enc, hex04_small (by omega), e, e, e, e]
  have : r.buf.length / 4096 % 16 = r.buf.length / 4096 := by omega
  rw [this]
  simp

/-- C08: a longer payload is refused (up to the 4 GiB that an `unsigned int` can tell apart). -/
theorem C08_too_long_refused (out : Str) (r : Rec) (h : 65535 < r.buf.length)
    (h2 : r.buf.length < 2 ^ 32) : (sendMsgFzp out r).2 = false := by
  unfold sendMsgFzp
  rw [Nat.mod_eq_of_lt h2]
  have : (hex04 r.buf.length).length ≠ 4 := fun e => by
    have := (hex04_length _).1 e; omega
  have hl : (r.cmd :: hex04 r.buf.length).length ≠ 5 := by
    rw [List.length_cons]; omega
  simp only [hl, ne_eq, not_false_eq_true, if_true]

/-- C08: what follows a record in the file does not change how it is read, whatever it is. -/
theorem C08_record_then_anything (r : Rec) (h : r.cmd ≠ 0 ∧ r.buf.length ≤ 65535) (rest : Str) :
    ∃ f, sendMsgFzp [] r = (f, true) ∧ fill (f ++ rest) = .ok r rest :=
  ⟨_, sendMsgFzp_ok [] h.2, fill_enc h rest⟩

example : ∀ r ∈ [(⟨102, bytes "/a\nb"⟩ : Rec), ⟨120, []⟩], r.cmd ≠ 0 ∧ r.buf.length ≤ 65535 := by
  decide

/-! ### C09 -/

/-- C09: any list of manifest entries is written without error and read back as the same list. -/
theorem C09_manifest_roundtrip (es : List Entry) (h : ∀ e ∈ es, e.Ok) :
    ∃ f, writeEntries [] (es.map Entry.toSbuf) = (f, true) ∧
      readEntries f = (es.map Entry.toSbuf, true) := by
  refine ⟨_, writeEntries_ok h [], ?_⟩
  have := readEntries_entries h []
  have h0 : readEntries [] = ([], true) := by
    apply readEntries_none
    rw [fillFile]
    have e : fill [] = .eof := by decide
    split
    · rfl
    · rename_i h'; rw [e] at h'; simp at h'
    · rename_i h'; rw [e] at h'; simp at h'
  simpa [h0] using this

/-- C09: different entries have different representations, so nothing is confused. -/
theorem C09_entries_distinct (e1 e2 : Entry) (h : e1.toSbuf = e2.toSbuf) : e1 = e2 := by
  have inj : ∀ k k' : Cmd, k.toByte = k'.toByte → k = k' := by
    intro k k' hk
    have := ofByte_toByte k
    rw [hk, ofByte_toByte] at this
    exact (Option.some.inj this).symm
  cases e1 <;> cases e2 <;> simp [Entry.toSbuf] at h
  · simp [h, inj _ _ h.2.1]
  · simp [h, inj _ _ h.2.1.1]
  · simp [h, inj _ _ h.2.2.1.1]

/-- Entries of each kind for the examples. -/
def sampleEntries : List Entry :=
  [.plain .directory (bytes "attr") (bytes "/a"),
   .stored .file (bytes "t/0000/0000/0000") (bytes "attr") (bytes "/a/b") (bytes "3:abc"),
   .link .softLink (bytes "attr") (bytes "/a/l") (bytes "../x")]

theorem dotFree_of_check {p : Str} (h : hasDotComponent p = false) : DotFree p := by
  constructor <;> intro hc
  · rw [(C07_has_dot_component p).2 (Or.inl hc)] at h; simp at h
  · rw [(C07_has_dot_component p).2 (Or.inr hc)] at h; simp at h

theorem sampleEntries_ok : ∀ e ∈ sampleEntries, e.Ok := by
  intro e he
  simp [sampleEntries] at he
  rcases he with rfl | rfl | rfl
  · exact ⟨by decide, by unfold Fits; decide, by unfold Fits; decide, by decide,
      dotFree_of_check (by decide)⟩
  · exact ⟨by decide, by unfold Fits; decide, by unfold Fits; decide, by unfold Fits; decide,
      by unfold Fits; decide, by decide, dotFree_of_check (by decide), by decide,
      dotFree_of_check (by decide)⟩
  · exact ⟨by decide, by unfold Fits; decide, by unfold Fits; decide, by unfold Fits; decide,
      by decide, dotFree_of_check (by decide)⟩

/-! ### C10 -/

/-- C10: however a manifest is cut, reading it gives exactly a prefix of the entries written: those
that are whole. -/
theorem C10_cut_gives_prefix (es : List Entry) (h : ∀ e ∈ es, e.Ok) (f : Str)
    (hf : writeEntries [] (es.map Entry.toSbuf) = (f, true)) (k : Nat) :
    ∃ n, (readEntries (f.take k)).1 = (es.take n).map Entry.toSbuf ∧
      (∀ g, writeEntries [] ((es.take n).map Entry.toSbuf) = (g, true) → g.length ≤ k) ∧
      (∀ g, n < es.length → writeEntries [] ((es.take (n + 1)).map Entry.toSbuf) = (g, true) →
        k < g.length) := by
  rw [writeEntries_ok h] at hf
  simp only [List.nil_append, Prod.mk.injEq, and_true] at hf
  have hnil : readEntries [] = ([], true) := by
    have := C09_manifest_roundtrip [] (by simp)
    obtain ⟨f', h1, h2⟩ := this
    simp [writeEntries] at h1
    rw [h1] at h2; simpa using h2
  rcases cut_split encEntry (rs := es) k with h1 | ⟨pre, e, post, j, h1, h2, h3, h4⟩
  · refine ⟨es.length, ?_, ?_, ?_⟩
    · rw [← hf, List.take_of_length_le h1]
      have := readEntries_entries h []
      rw [hnil] at this
      simp at this
      rw [this]; simp
    · intro g hg
      rw [List.take_length, writeEntries_ok h] at hg
      simp only [List.nil_append, Prod.mk.injEq, and_true] at hg
      rw [← hg]; exact h1
    · intro g hn; omega
  · have hpre : ∀ x ∈ pre, x.Ok := fun x hx => h x (by rw [h1]; simp [hx])
    have he : e.Ok := h e (by rw [h1]; simp)
    refine ⟨pre.length, ?_, ?_, ?_⟩
    · rw [← hf, h3, readEntries_entries hpre]
      obtain ⟨b, hb, _⟩ := readEntries_cutEntry he h2
      rw [hb, h1]
      simp
    · intro g hg
      rw [h1, List.take_left, writeEntries_ok hpre] at hg
      simp only [List.nil_append, Prod.mk.injEq, and_true] at hg
      rw [← hg]; omega
    · intro g _ hg
      have ht : es.take (pre.length + 1) = pre ++ [e] := by
        rw [h1, List.take_append, List.take_of_length_le (by omega)]; simp
      rw [ht, writeEntries_ok (by
        intro x hx
        simp at hx
        rcases hx with hx | rfl
        · exact hpre x hx
        · exact he)] at hg
      simp only [List.nil_append, Prod.mk.injEq, and_true] at hg
      rw [← hg, List.map_append, List.flatten_append, List.length_append]
      simp only [List.map_cons, List.map_nil, List.flatten_cons, List.flatten_nil, List.append_nil]
      omega

/-- C10 (partial, reporting): a cut inside an entry is reported as an error unless it falls at the
end of one of the entry's records or directly after the five-byte lead of one. Missing: those cuts,
which look like the end of the manifest (`C10_cut_reported_violated`). -/
theorem C10_cut_reported_partial (e : Entry) (h : e.Ok) (f : Str)
    (hf : Sbuf.toManifest [] e.toSbuf = (f, true)) (j : Nat) (hj : j < f.length)
    (hc : ∀ pre post, toRecords e.toSbuf = pre ++ post →
      ∀ g, writeAll [] pre = (g, true) → j ≠ g.length ∧ j ≠ g.length + 5) :
    (readEntries (f.take j)).2 = false := by
  have hok := entry_records_ok h
  have hf' : f = encEntry e := by
    unfold Sbuf.toManifest at hf
    rw [writeAll_ok (fun r hr => (hok r hr).2)] at hf
    simp only [List.nil_append, Prod.mk.injEq, and_true] at hf
    rw [← hf]; rfl
  subst hf'
  obtain ⟨b, hb, hiff⟩ := readEntries_cutEntry h hj
  rw [hb]
  cases b with
  | false => rfl
  | true =>
    exfalso
    obtain ⟨pre, r, post, e1, e2⟩ := hiff.1 rfl
    have hpre : ∀ x ∈ pre, x.buf.length ≤ 65535 := fun x hx => (hok x (by rw [e1]; simp [hx])).2
    have := hc pre (r :: post) e1 _ (writeAll_ok hpre [])
    simp only [List.nil_append] at this
    rcases e2 with e2 | e2
    · exact this.1 e2
    · exact this.2 e2

/-- C10 (violated, reporting): a manifest that was cut in the middle of an entry is read as a
complete manifest without that entry: no error is reported. Here the last 9 bytes of a file entry
are missing (its whole end record), and then all but the lead of it. -/
theorem C10_cut_reported_violated :
    ∃ (es : List Entry) (f : Str), (∀ e ∈ es, e.Ok) ∧
      writeEntries [] (es.map Entry.toSbuf) = (f, true) ∧
      readEntries (f.take (f.length - 11)) = ([], true) ∧
      readEntries (f.take (f.length - 6)) = ([], true) := by
  refine ⟨[.stored .file (bytes "t/0000/0000/0000") (bytes "attr") (bytes "/a/b") (bytes "3:abc")],
    _, ?_, writeEntries_ok ?_ [], ?_, ?_⟩
  · exact fun e he => sampleEntries_ok e (by simp [sampleEntries] at he ⊢; exact Or.inr (Or.inl he))
  · exact fun e he => sampleEntries_ok e (by simp [sampleEntries] at he ⊢; exact Or.inr (Or.inl he))
  all_goals
    have he : (Entry.stored .file (bytes "t/0000/0000/0000") (bytes "attr") (bytes "/a/b")
      (bytes "3:abc")).Ok := sampleEntries_ok _ (by simp [sampleEntries])
    have hrec : toRecords (Entry.stored .file (bytes "t/0000/0000/0000") (bytes "attr")
      (bytes "/a/b") (bytes "3:abc")).toSbuf =
      [⟨116, bytes "t/0000/0000/0000"⟩, ⟨114, bytes "attr"⟩, ⟨102, bytes "/a/b"⟩] ++
        ⟨120, bytes "3:abc"⟩ :: [] := by rfl
    have h3 : ((([⟨116, bytes "t/0000/0000/0000"⟩, ⟨114, bytes "attr"⟩, ⟨102, bytes "/a/b"⟩] :
      List Rec).map enc).flatten).length = 42 := by
        simp only [List.map_cons, List.map_nil, List.flatten_cons, List.flatten_nil,
          List.length_append, enc, List.length_cons]
        rw [(hex04_length _).2 (by decide), (hex04_length _).2 (by decide),
          (hex04_length _).2 (by decide)]
        decide
    have hlen : (encEntry (Entry.stored .file (bytes "t/0000/0000/0000") (bytes "attr")
      (bytes "/a/b") (bytes "3:abc"))).length = 53 := by
        unfold encEntry
        rw [hrec, List.map_append, List.flatten_append, List.length_append, h3]
        simp only [List.map_cons, List.map_nil, List.flatten_cons, List.flatten_nil,
          List.length_append, enc, List.length_cons]
        rw [(hex04_length _).2 (by decide)]
        decide
    simp only [List.nil_append, List.map_cons, List.map_nil, List.flatten_cons, List.flatten_nil,
      List.append_nil, hlen]
  · obtain ⟨b, hb, hiff⟩ := readEntries_cutEntry he (j := 42) (by rw [hlen]; decide)
    have : b = true := hiff.2 ⟨_, _, [], hrec, Or.inl h3.symm⟩
    rw [this] at hb; exact hb
  · obtain ⟨b, hb, hiff⟩ := readEntries_cutEntry he (j := 47) (by rw [hlen]; decide)
    have : b = true := hiff.2 ⟨_, _, [], hrec, Or.inr (by rw [h3])⟩
    rw [this] at hb; exact hb

/-! ### C14 -/

private theorem cstr_eq {b c : Str} (h : CString b c) : cstr b = c := by
  obtain ⟨hn, h⟩ := h
  unfold cstr
  rcases h with rfl | ⟨r, rfl⟩
  · have := List.takeWhile_append_of_pos (p := fun x => decide (x ≠ 0)) (l₁ := b) (l₂ := [])
      (fun x hx => by simp; rintro rfl; exact hn hx)
    simpa using this
  · rw [List.takeWhile_append_of_pos (fun x hx => by simp; rintro rfl; exact hn hx)]
    simp

/-- C14: whatever bytes a manifest file holds, no entry read from it has a `.` or `..` component in
its path or in its data path. -/
theorem C14_no_dot_paths_from_file (f rest : Str) (sb : Sbuf.Sbuf)
    (h : fillFile Sbuf.empty f = (.entry sb, rest)) :
    (∀ p c, sb.path = some p → CString p.buf c → DotFree c) ∧
    (∀ d c, sb.datapth = some d → CString d c → DotFree c) :=
  have hs := safe_fillFile safe_empty h
  ⟨fun p _ hp hc => cstr_eq hc ▸ hs.1 p hp, fun d _ hd hc => cstr_eq hc ▸ hs.2 d hd⟩

/-- C14: the same for whatever messages arrive from the network. -/
theorem C14_no_dot_paths_from_net (msgs rest : List Rec) (hack : Bool) (sb : Sbuf.Sbuf)
    (h : fillNet { Sbuf.empty with hack := hack } msgs = (.entry sb, rest)) :
    (∀ p c, sb.path = some p → CString p.buf c → DotFree c) ∧
    (∀ d c, sb.datapth = some d → CString d c → DotFree c) :=
  have hs := safe_fillNet (by constructor <;> intro _ h <;> simp [Sbuf.empty] at h) h
  ⟨fun p _ hp hc => cstr_eq hc ▸ hs.1 p hp, fun d _ hd hc => cstr_eq hc ▸ hs.2 d hd⟩

/-- C14: an entry with a dot component is an error, not something that is quietly skipped. -/
theorem C14_dot_path_is_error (a p c : Str) (k : Cmd) (hk : k ∈ pathKinds) (rest : List Rec)
    (hcs : CString p c) (hp : Component [dot] c ∨ Component [dot, dot] c) :
    (fillNet Sbuf.empty (⟨Cmd.attribs.toByte, a⟩ :: ⟨k.toByte, p⟩ :: rest)).1 = .error := by
  rw [fillNet, parse_attribs_plain _ _ rfl]
  simp only
  rw [fillNet, parse_path _ (Or.inl hk)]
  have : relativePathAttack ⟨k.toByte, p⟩ = true := (C07_has_dot_component _).2 (by rw [cstr_eq hcs]; exact hp)
  simp [parsePath, Sbuf.empty, this]

example : ∃ sb rest, fillNet Sbuf.empty [⟨114, bytes "attr"⟩, ⟨102, bytes "/a/..b"⟩] =
    (.entry sb, rest) := ⟨_, _, rfl⟩
example : (fillNet Sbuf.empty [⟨114, bytes "attr"⟩, ⟨102, bytes "/a/../b"⟩]).1 = .error := by
  decide
example : CString (bytes "/a/..\x00b") (bytes "/a/..") ∧ Component [dot, dot] (bytes "/a/..") :=
  ⟨⟨by decide, Or.inr ⟨bytes "b", by decide⟩⟩, ⟨by decide, bytes "/a/", [], by decide, by decide, by decide⟩⟩

end Verif
