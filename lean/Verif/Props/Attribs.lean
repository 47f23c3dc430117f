import Verif.Spec.Attribs
import Verif.Lemmas.Attribs

/-!
# Properties C01 and C02: numbers and attributes survive the manifest encoding
-/

namespace Verif
open Base64 Attribs

/-- C01. Every `int64_t` except `INT64_MIN`, written by `to_base64` and followed by the end of the
string or a space, is read back by `from_base64` exactly, also behind the single separating space
which the attribute decoder leaves in front of it; the reader consumes precisely the characters
written, whose number is what the writer returned, and they fit a 13 byte buffer with the NUL. -/
theorem C01_base64_roundtrip (v : Int) (hlo : -2 ^ 63 < v) (hhi : v < 2 ^ 63) (rest : Str)
    (hrest : rest = [] ∨ rest.head? = some space) :
    ∃ s n, toBase64 v = some (s, n) ∧ s.length = n ∧ n + 1 ≤ 13 ∧
      fromBase64 (s ++ rest) = (some v, n) ∧
      fromBase64 (space :: (s ++ rest)) = (some v, n + 1) := by
  obtain ⟨s, n, e, hl, hn, _, d1, d2⟩ := fromBase64_plain v hlo hhi rest hrest
  exact ⟨s, n, e, hl, by omega, d1, d2⟩

/-- C01, the form: an optional minus and then the digits of the absolute value to the base 64, most
significant first, without leading zeros, in the usual alphabet. -/
theorem C01_base64_format (v : Int) (hlo : -2 ^ 63 < v) :
    ∃ (ns : List Nat), toBase64 v =
        some ((if v < 0 then [45] else []) ++ ns.map b64Char, (if v < 0 then 1 else 0) + ns.length) ∧
      ns.foldl (fun a n => a * 64 + n) 0 = v.natAbs ∧ (∀ n ∈ ns, n < 64) ∧
      (1 < ns.length → ns.head? ≠ some 0) := by
  have hd' : ∀ n : Fin 64, digit n = b64Char n := by decide +kernel
  have hd : ∀ n, n < 64 → digit n = b64Char n := fun n hn => hd' ⟨n, hn⟩
  have key : ∀ m : Nat, ∃ ns : List Nat, outLoop m = ns.map b64Char ∧ sizeLoop m = ns.length ∧
      ns.foldl (fun a n => a * 64 + n) 0 = m ∧ (∀ n ∈ ns, n < 64) ∧
      (1 < ns.length → ns.head? ≠ some 0) ∧ ns ≠ [] ∧ (m ≠ 0 → ns.head? ≠ some 0) := by
    intro m
    induction m using Nat.strongRecOn with
    | _ m ih =>
      by_cases h : m / 64 = 0
      · refine ⟨[m % 64], ?_, ?_, ?_, ?_, ?_, ?_, ?_⟩
        · rw [outLoop, dif_pos h, hd _ (Nat.mod_lt _ (by decide))]; rfl
        · rw [sizeLoop, dif_pos h]; rfl
        · simp only [List.foldl_cons, List.foldl_nil]; omega
        · simp only [List.mem_singleton, forall_eq]; omega
        · simp
        · simp
        · simp only [List.head?_cons, ne_eq, Option.some.injEq]; omega
      · obtain ⟨ns, h1, h2, h3, h4, h5, h6, h7⟩ := ih (m / 64) (by omega)
        have hh : (ns ++ [m % 64]).head? = ns.head? := by cases ns <;> simp at h6 ⊢
        refine ⟨ns ++ [m % 64], ?_, ?_, ?_, ?_, ?_, ?_, ?_⟩
        · rw [outLoop, dif_neg h, h1, hd _ (Nat.mod_lt _ (by decide))]; simp
        · rw [sizeLoop, dif_neg h, h2]; simp
        · rw [List.foldl_append, h3]; simp only [List.foldl_cons, List.foldl_nil]; omega
        · intro n hn
          rcases List.mem_append.1 hn with hn | hn
          · exact h4 n hn
          · rw [List.mem_singleton.1 hn]; omega
        · intro _; rw [hh]; exact h7 h
        · simp
        · intro _; rw [hh]; exact h7 h
  unfold toBase64
  rw [if_neg (by omega)]
  by_cases hn : v < 0
  · obtain ⟨ns, h1, h2, h3, h4, h5, _⟩ := key (-v).toNat
    refine ⟨ns, ?_, by omega, h4, h5⟩
    simp only [if_pos hn, h1, h2]; rfl
  · obtain ⟨ns, h1, h2, h3, h4, h5, _⟩ := key v.toNat
    refine ⟨ns, ?_, by omega, h4, h5⟩
    simp only [if_neg hn, h1, h2]; simp

/-- The hypotheses are met, for example by a negative number followed by another field. -/
example : (-2 ^ 63 : Int) < -4096 ∧ (-4096 : Int) < 2 ^ 63 ∧
    (bytes " B").head? = some space ∧ toBase64 (-4096) = some (bytes "-BAA", 4) := by
  refine ⟨by decide, by decide, by decide, ?_⟩
  simp only [toBase64]
  rw [outLoop, outLoop, outLoop, sizeLoop, sizeLoop, sizeLoop]
  decide

private theorem cU64 {x : Int} (h : U64 x) :
    (-2 ^ 63 < castS64 x ∧ castS64 x < 2 ^ 63) ∧ castU64 (castS64 x) = x := by
  obtain ⟨h1, h2, h3⟩ := h
  simp only [castS64, castU64, Int.bmod]
  omega

private theorem cU32 {x : Int} (h : U32 x) :
    (-2 ^ 63 < castS64 x ∧ castS64 x < 2 ^ 63) ∧ castU32 (castS64 x) = x := by
  obtain ⟨h1, h2⟩ := h
  simp only [castS64, castU32, Int.bmod]
  omega

private theorem cS64 {x : Int} (h : S64 x) :
    (-2 ^ 63 < castS64 x ∧ castS64 x < 2 ^ 63) ∧ castS64 (castS64 x) = x := by
  obtain ⟨h1, h2⟩ := h
  simp only [castS64, Int.bmod]
  omega

private theorem cS32 {x : Int} (h : S32 x) :
    (-2 ^ 63 < castS64 x ∧ castS64 x < 2 ^ 63) ∧ castS32 (castS64 x) = x := by
  obtain ⟨h1, h2⟩ := h
  simp only [castS64, castS32, Int.bmod]
  omega

private theorem cB {x : Int} (h : x = 0 ∨ x = 1) :
    (-2 ^ 63 < lnot x ∧ lnot x < 2 ^ 63) ∧ lnot (lnot x) = x := by
  rcases h with h | h <;> subst h <;> decide

private theorem fields_range (a : Attr) (h : a.InRange) :
    ∀ v ∈ fields a, -2 ^ 63 < v ∧ v < 2 ^ 63 := by
  intro v hv
  simp only [fields, List.mem_cons, List.not_mem_nil, or_false] at hv
  rcases hv with h' | h' | h' | h' | h' | h' | h' | h' | h' | h' | h' | h' | h' | h' | h' | h' |
    h' | h' | h' <;> subst h'
  · exact (cU64 h.dev).1
  · exact (cU64 h.ino).1
  · exact (cU32 h.mode).1
  · exact (cU64 h.nlink).1
  · exact (cU32 h.uid).1
  · exact (cU32 h.gid).1
  · exact (cU64 h.rdev).1
  · exact (cS64 h.size).1
  · exact (cS64 h.blksize).1
  · exact (cS64 h.blocks).1
  · exact (cS64 h.atime).1
  · exact (cS64 h.mtime).1
  · exact (cS64 h.ctime).1
  · decide
  · exact (cU64 h.winattr).1
  · exact (cS32 h.compression).1
  · exact (cS32 h.encryption).1
  · exact (cU64 h.salt).1
  · exact (cB h.useWinapi).1

/-- C02. Whatever the record `old` that is decoded into, decoding the encoding of a record with
in-range fields gives back every field, and the text with its NUL fits the 256 byte buffer. -/
theorem C02_attribs_roundtrip (a old : Attr) (h : a.InRange) :
    ∃ t, encode a = some t ∧ t.length + 1 ≤ 256 ∧ decode old t = some a := by
  obtain ⟨t, e, hl, _, d, _⟩ := decode_fold (fields a) setters old (by simp [fields])
    (by simp [fields, setters]) (fields_range a h)
  refine ⟨t, e, ?_, ?_⟩
  · have : (fields a).length = 19 := by simp [fields]
    omega
  · rw [decode, d]
    simp only [setters, fields, applyAll, (cU64 h.dev).2, (cU64 h.ino).2, (cU32 h.mode).2,
      (cU64 h.nlink).2, (cU32 h.uid).2, (cU32 h.gid).2, (cU64 h.rdev).2, (cS64 h.size).2,
      (cS64 h.blksize).2, (cS64 h.blocks).2, (cS64 h.atime).2, (cS64 h.mtime).2, (cS64 h.ctime).2,
      (cU64 h.winattr).2, (cS32 h.compression).2, (cS32 h.encryption).2, (cU64 h.salt).2,
      (cB h.useWinapi).2]

/-- C02, legacy records: a record that stops after the Windows attributes (the first fifteen
numbers) decodes with compression and encryption marked unknown (-1), the rest being kept from the
record decoded into; one that stops before them has no Windows attributes. -/
theorem C02_attribs_legacy (a old : Attr) (h : a.InRange) :
    (∃ t, encodeFields ((fields a).take 15) = some t ∧
      decode old t = some { a with compression := -1, encryption := -1,
                                   salt := old.salt, useWinapi := old.useWinapi }) ∧
    (∃ t, encodeFields ((fields a).take 14) = some t ∧
      decode old t = some { a with winattr := 0, compression := old.compression,
                                   encryption := old.encryption, salt := old.salt,
                                   useWinapi := old.useWinapi }) := by
  constructor
  · obtain ⟨t, e, _, _, d, _⟩ := decode_fold ((fields a).take 15) setters old (by simp [fields])
      (by simp [fields, setters]) (fun v hv => fields_range a h v (List.mem_of_mem_take hv))
    refine ⟨t, e, ?_⟩
    rw [decode, d]
    simp only [setters, fields, List.take, applyAll, (cU64 h.dev).2, (cU64 h.ino).2, (cU32 h.mode).2,
      (cU64 h.nlink).2, (cU32 h.uid).2, (cU32 h.gid).2, (cU64 h.rdev).2, (cS64 h.size).2,
      (cS64 h.blksize).2, (cS64 h.blocks).2, (cS64 h.atime).2, (cS64 h.mtime).2, (cS64 h.ctime).2,
      (cU64 h.winattr).2]
  · obtain ⟨t, e, _, _, d, _⟩ := decode_fold ((fields a).take 14) setters old (by simp [fields])
      (by simp [fields, setters]) (fun v hv => fields_range a h v (List.mem_of_mem_take hv))
    refine ⟨t, e, ?_⟩
    rw [decode, d]
    simp only [setters, fields, List.take, applyAll, (cU64 h.dev).2, (cU64 h.ino).2, (cU32 h.mode).2,
      (cU64 h.nlink).2, (cU32 h.uid).2, (cU32 h.gid).2, (cU64 h.rdev).2, (cS64 h.size).2,
      (cS64 h.blksize).2, (cS64 h.blocks).2, (cS64 h.atime).2, (cS64 h.mtime).2, (cS64 h.ctime).2]

/-- A record as of a real file, with a device number above 2^63 and times before 1970. -/
def sampleAttr : Attr :=
  { dev := 2^63 + 5, ino := 123456789, mode := 33188, nlink := 2, uid := 1000, gid := 1000,
    rdev := 0, size := 4096, blksize := 4096, blocks := 8, atime := 1700000000,
    mtime := -86400, ctime := 1700000001, winattr := 0, compression := -1, encryption := 2,
    salt := 2^64 - 1, useWinapi := 1 }

/-- The hypothesis of C02 is met. -/
example : sampleAttr.InRange := by
  constructor <;> simp [sampleAttr, U64, U32, S64, S32]

end Verif
