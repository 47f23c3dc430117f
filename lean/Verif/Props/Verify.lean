import Verif.Model.Verify
import Verif.Props.Transfer

/-!
# C58: verification detects corruption
-/

namespace Verif
open Verif.Transfer Verif.Verify

/-- The end marker that the sender of a file makes, see `C57_end_marker`. -/
def endMarker (md5 : Str → Str) (length : Nat) (digested : Str) : Str :=
  BackupNumber.decimal length ++ 58 :: md5 digested

theorem Verify.afterColon_marker (a b : Str) (hb : (58 : Byte) ∉ b) : afterColon (a ++ 58 :: b) = some b := by
  unfold afterColon
  rw [if_pos (by simp)]
  have : (a ++ 58 :: b).reverse = b.reverse ++ 58 :: a.reverse := by simp
  rw [this, List.takeWhile_append_of_pos (by
    intro x hx
    simp only [ne_eq, decide_eq_true_eq]
    intro h
    rw [h] at hx
    exact hb (List.mem_reverse.1 hx))]
  simp

theorem Verify.last_colon (e : Str) (h : (58 : Byte) ∈ e) : ∃ a b, e = a ++ 58 :: b ∧ (58 : Byte) ∉ b := by
  induction e with
  | nil => simp at h
  | cons x e ih =>
    by_cases he : (58 : Byte) ∈ e
    · obtain ⟨a, b, h1, h2⟩ := ih he
      exact ⟨x :: a, b, by simp [h1], h2⟩
    · rcases List.mem_cons.1 h with h | h
      · exact ⟨[], e, by simp [← h], he⟩
      · exact absurd h he

theorem Verify.afterColon_some (e sum : Str) (h : afterColon e = some sum) :
    ∃ a, e = a ++ 58 :: sum ∧ (58 : Byte) ∉ sum := by
  by_cases hm : (58 : Byte) ∈ e
  · obtain ⟨a, b, h1, h2⟩ := last_colon e hm
    rw [h1, afterColon_marker a b h2] at h
    have hb := Option.some.inj h
    exact ⟨a, by rw [h1, hb], by rw [← hb]; exact h2⟩
  · unfold afterColon at h
    rw [if_neg (by simpa using hm)] at h
    exact absurd h (by simp)

/-- C58: verification succeeds exactly when the stored file can be read and its digest is what follows the
last colon of the recorded end marker. -/
theorem C58_digest (md5 : Str → Str) (sb : Verify.Ent) (patches : Bool) (path : Str) (plain gz : Reading) :
    verifyFile md5 sb patches path plain gz = .verified ↔
      ∃ a b content, sb.endfile = some (a ++ 58 :: b) ∧ (58 : Byte) ∉ b ∧
        (if readsPlain sb patches path then plain else gz) = .all content ∧ md5 content = b := by
  constructor
  · intro h
    unfold verifyFile at h
    cases he : sb.endfile with
    | none => rw [he] at h; exact absurd h (by simp)
    | some e =>
      rw [he] at h
      simp only at h
      cases hc : afterColon e with
      | none => rw [hc] at h; exact absurd h (by simp)
      | some sum =>
        rw [hc] at h
        simp only at h
        cases hr : (if readsPlain sb patches path then plain else gz) with
        | cannotOpen => rw [hr] at h; exact absurd h (by simp)
        | broken => rw [hr] at h; exact absurd h (by simp)
        | all content =>
          rw [hr] at h
          simp only at h
          have hm : md5 content = sum := by
            by_cases hm : md5 content = sum
            · exact hm
            · rw [if_neg hm] at h; exact absurd h (by simp)
          obtain ⟨a, h1, h2⟩ := afterColon_some e sum hc
          exact ⟨a, sum, content, by rw [h1], h2, rfl, hm⟩
  · rintro ⟨a, b, content, he, hb, hr, hm⟩
    unfold verifyFile
    rw [he]
    simp only [afterColon_marker a b hb, hr, if_pos hm]

/-- C58, as far as it holds: a file that passes has the digest of the file that was backed up. So if no two
of the contents concerned have the same digest, it has the same content. (The length is not compared.) -/
theorem C58_corruption_partial (md5 : Str → Str) (hmd5 : ∀ x, (58 : Byte) ∉ md5 x) (sb : Verify.Ent)
    (patches : Bool) (path : Str) (plain gz : Reading) (original stored : Str) (length : Nat)
    (he : sb.endfile = some (endMarker md5 length original))
    (hr : (if readsPlain sb patches path then plain else gz) = .all stored)
    (hcoll : md5 stored = md5 original → stored = original)
    (hv : verifyFile md5 sb patches path plain gz = .verified) : stored = original := by
  obtain ⟨a, b, content, h1, h2, h3, h4⟩ := (C58_digest md5 sb patches path plain gz).1 hv
  rw [hr] at h3
  have hc : content = stored := by injection h3 with h3; exact h3.symm
  rw [he] at h1
  have h5 := congrArg afterColon (Option.some.inj h1)
  rw [endMarker, afterColon_marker _ _ (hmd5 _), afterColon_marker _ _ h2] at h5
  apply hcoll
  rw [← hc, h4]
  exact (Option.some.inj h5).symm

/-- How `fzp_gzopen` reads what zlib made. -/
def ReadsBack (z : Zlib) (gunzip : Str → Reading) : Prop :=
  ∀ chunks, gunzip (z.compressFrom z.dinit chunks).flatten = .all chunks.flatten

/-- C58: a file that is as the client sent it passes, compressed and encrypted or not. The entry says
whether it is encrypted by its kind and whether it is compressed by its attributes; the server keeps what
it got. -/
theorem C58_intact_passes (z : Zlib) (c : Crypt) (comp enc : Bool) (md5 : Str → Str)
    (hmd5 : ∀ x, (58 : Byte) ∉ md5 x) (qr : Option (Nat → Qr)) (hq : Quiet qr) (hm : comp = true ∨ enc = true)
    (chunks : List Str) (gunzip : Str → Reading) (hgz : ReadsBack z gunzip)
    (sb : Verify.Ent) (path : Str) (stored : Str)
    (hs : stored = (payloads (sendGz z c comp enc md5 qr chunks .eof).1).flatten)
    (he : sb.endfile = (sendGz z c comp enc md5 qr chunks .eof).1.getLast?.map (·.buf))
    (hk : sb.cmd.isEncrypted = enc) (hc : 0 ≤ sb.compression ∧ (0 < sb.compression ↔ comp = true)) :
    verifyFile md5 sb false path (.all stored) (gunzip stored) = .verified := by
  rw [C57_end_marker z c comp enc md5 qr hq chunks] at he
  obtain ⟨pre, h1, h2, h3⟩ := sendGz_spec z c comp enc md5 qr hq chunks
  have hp : payloads (sendGz z c comp enc md5 qr chunks .eof).1 = payloads pre := by
    rw [h1, payloads_append]; simp [payloads]
  rw [hp, h3] at hs he
  rw [C58_digest]
  refine ⟨BackupNumber.decimal chunks.flatten.length, _, if enc then stored else chunks.flatten, he, hmd5 _, ?_, ?_⟩
  · have hplain : readsPlain sb false path = enc := by
      unfold readsPlain
      have hcomp : Phase2.dpthIsCompressed sb.compression path = comp := by
        unfold Phase2.dpthIsCompressed
        cases comp with
        | true => rw [if_pos (hc.2.2 rfl)]
        | false =>
          have : ¬ (0 < sb.compression) := fun h => absurd (hc.2.1 h) (by simp)
          rw [if_neg this, if_pos (by omega)]
      rw [hcomp]
      cases enc with
      | true => cases hcmd : sb.cmd <;> rw [hcmd] at hk <;> first | rfl | exact absurd hk (by decide)
      | false =>
        have : comp = true := by simpa using hm
        rw [this]
        cases hcmd : sb.cmd <;> rw [hcmd] at hk <;> first | rfl | exact absurd hk (by decide)
    rw [hplain]
    cases enc with
    | true => simp
    | false =>
      have hcomp : comp = true := by simpa using hm
      subst hcomp
      have := hgz chunks
      rw [hs]
      simpa [wire] using this
  · rw [hs]

/-- C58: in the course of a verification the client is told the name of an entry exactly if it passes, and
gets a warning otherwise. (The server must have an end marker for it: see `C58_crash_violated`.) -/
theorem C58_told (md5 : Str → Str) (sb : Verify.Ent) (l : Lookup) (sent : List Msg) (n : Nat)
    (hk : sb.cmd ≠ .warning ∧ sb.cmd ≠ .datapth ∧ sb.cmd ≠ .attribs)
    (h : verifyEntry md5 sb l = .ok sent n) :
    ((⟨sb.cmd, sb.path⟩ : Msg) ∈ sent ↔ ∃ patches elsewhere path plain gz,
      l = .found patches elsewhere path plain gz ∧ verifyFile md5 sb patches path plain gz = .verified) ∧
    ((⟨sb.cmd, sb.path⟩ : Msg) ∉ sent → Verify.warning ∈ sent) := by
  have ne1 : (⟨sb.cmd, sb.path⟩ : Msg) ≠ Verify.warning := by
    intro hx
    exact hk.1 (congrArg Msg.cmd hx)
  have ne2 : ∀ x, (⟨sb.cmd, sb.path⟩ : Msg) ≠ ⟨.datapth, x⟩ := by
    intro x hx
    exact hk.2.1 (congrArg Msg.cmd hx)
  have ne3 : ∀ x, (⟨sb.cmd, sb.path⟩ : Msg) ≠ ⟨.attribs, x⟩ := by
    intro x hx
    exact hk.2.2 (congrArg Msg.cmd hx)
  unfold verifyEntry at h
  cases l with
  | missing =>
    simp only [Done.ok.injEq] at h
    obtain ⟨rfl, rfl⟩ := h
    simp [ne1, ne2, ne3]
  | badDelta =>
    simp only [Done.ok.injEq] at h
    obtain ⟨rfl, rfl⟩ := h
    simp [ne1, ne2, ne3]
  | found patches elsewhere path plain gz =>
    cases he : sb.endfile with
    | none => simp [he] at h
    | some e =>
      simp only [he, Done.ok.injEq] at h
      obtain ⟨rfl, rfl⟩ := h
      have hel : (⟨sb.cmd, sb.path⟩ : Msg) ∉ (if elsewhere then [Verify.warning] else []) := by
        cases elsewhere <;> simp [ne1]
      cases hv : verifyFile md5 sb patches path plain gz with
      | verified =>
        constructor
        · constructor
          · intro _; exact ⟨patches, elsewhere, path, plain, gz, rfl, hv⟩
          · intro _; simp [verdictMsgs]
        · intro hn; exact absurd (by simp [verdictMsgs]) hn
      | _ =>
        constructor
        · constructor
          · intro hx
            exfalso
            simp only [verdictMsgs, List.mem_append, List.mem_cons, List.not_mem_nil, or_false] at hx
            rcases hx with ((hx | hx) | hx) | hx
            · exact ne2 _ hx
            · exact ne3 _ hx
            · exact ne1 hx
            · exact hel hx
          · rintro ⟨p, el, pa, pl, g, h1, h2⟩
            injection h1 with a1 a2 a3 a4 a5
            subst a1 a3 a4 a5
            rw [hv] at h2
            exact absurd h2 (by decide)
        · intro _; simp [verdictMsgs]

/-- An instance: a file that passes and one that does not. -/
def exVerifyEnt : Verify.Ent := ⟨.file, bytes "/a", bytes "data/0000/0000/0000", bytes "A", 9, some (bytes "2:ab")⟩

example : verifyEntry id exVerifyEnt (.found false false (bytes "x") (.all (bytes "zz")) (.all (bytes "ab"))) =
      .ok [⟨.datapth, bytes "data/0000/0000/0000"⟩, ⟨.attribs, bytes "A"⟩, ⟨.file, bytes "/a"⟩] 1 ∧
    verifyEntry id exVerifyEnt (.found false false (bytes "x") (.all (bytes "zz")) (.all (bytes "aX"))) =
      .ok [⟨.datapth, bytes "data/0000/0000/0000"⟩, ⟨.attribs, bytes "A"⟩, Verify.warning] 1 := by decide

/-- The hypotheses of `C58_intact_passes` can be met: the compressor of the examples is read back by a
reader that takes the bytes as they are. -/
example : ReadsBack storeZlib Reading.all := by
  intro chunks
  have h1 : ∀ chunks : List Str, storeZlib.compressFrom () chunks = chunks := by
    intro chunks
    induction chunks with
    | nil => rfl
    | cons ch chs ih => exact congrArg (ch :: ·) ih
  exact congrArg (fun l => Reading.all (List.flatten l)) (h1 chunks)

/-- C58 fails for the length: it is not compared with the recorded one. -/
theorem C58_length_violated :
    ∃ (sb : Verify.Ent) (content : Str), sb.endfile = some (bytes "3:ab") ∧ content.length = 2 ∧
      verifyFile id sb false (bytes "x") (.all content) (.all content) = .verified :=
  ⟨{ exVerifyEnt with endfile := some (bytes "3:ab") }, bytes "ab", rfl, rfl, by decide⟩

/-- C58 fails for the counters: an entry that does not pass is counted just as one that does. -/
theorem C58_counted_violated :
    ∃ (sb : Verify.Ent) (plain gz : Reading) (sent : List Msg),
      verifyFile id sb false (bytes "x") plain gz = .mismatch ∧
      verifyEntry id sb (.found false false (bytes "x") plain gz) = .ok sent 1 :=
  ⟨exVerifyEnt, .all [], .all (bytes "aX"),
    [⟨.datapth, bytes "data/0000/0000/0000"⟩, ⟨.attribs, bytes "A"⟩, Verify.warning], by decide, by decide⟩

/-- C58 fails for an entry without an end marker (from a damaged manifest): the server crashes. -/
theorem C58_crash_violated :
    ∃ (sb : Verify.Ent) (l : Lookup), sb.endfile = none ∧ verifyEntry id sb l = .crash :=
  ⟨{ exVerifyEnt with endfile := none }, .found false false (bytes "x") .cannotOpen .cannotOpen, rfl, by decide⟩

end Verif
