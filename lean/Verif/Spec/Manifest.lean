import Verif.Model.Sbuf
import Verif.Spec.Path

/-!
# What a manifest is made of, independently of how it is read
-/

namespace Verif

open Verif.Sbuf Verif.Iobuf

/-- The kinds of entry that a manifest holds besides links. -/
def pathKinds : List Cmd :=
  [.file, .directory, .special, .encFile, .metadata, .encMetadata, .efsFile, .vss, .encVss, .vssT,
   .encVssT]

/-- The kinds of entry with data stored on the server. -/
def dataKinds : List Cmd :=
  [.file, .encFile, .metadata, .encMetadata, .efsFile, .vss, .encVss, .vssT, .encVssT]

/-- A manifest entry. -/
inductive Entry where
  /-- Something without stored data: a directory or special file, or a file in the list made by
  phase 1. -/
  | plain (kind : Cmd) (attr path : Str)
  /-- A soft or hard link and its target. -/
  | link (kind : Cmd) (attr path target : Str)
  /-- A file with data stored at `datapth`; `endfile` is its length and checksum. -/
  | stored (kind : Cmd) (datapth attr path endfile : Str)
  deriving DecidableEq, Repr

/-- No component `.` or `..`. -/
def DotFree (p : Str) : Prop := ¬ Component [dot] p ∧ ¬ Component [dot, dot] p

/-- `c` is the C string that the bytes `b`, followed by a NUL, begin with. -/
def CString (b c : Str) : Prop := NoNul c ∧ (b = c ∨ ∃ r, b = c ++ 0 :: r)

/-- An upper case hexadecimal digit. -/
def hexChar (n : Nat) : Byte := (bytes "0123456789ABCDEF").getD n 0

/-- A payload that fits a record. -/
def Fits (s : Str) : Prop := s.length ≤ 65535

/-- The entries that burp writes: of a known kind, with paths that are strings without dot
components, all of it no longer than a record can be. -/
def Entry.Ok : Entry → Prop
  | .plain k a p => k ∈ pathKinds ∧ Fits a ∧ Fits p ∧ NoNul p ∧ DotFree p
  | .link k a p t => (k = .softLink ∨ k = .hardLink) ∧ Fits a ∧ Fits p ∧ Fits t ∧ NoNul p ∧ DotFree p
  | .stored k d a p e => k ∈ dataKinds ∧ Fits d ∧ Fits a ∧ Fits p ∧ Fits e ∧ NoNul p ∧ DotFree p ∧
      NoNul d ∧ DotFree d

/-- The `struct sbuf` that stands for an entry. -/
def Entry.toSbuf : Entry → Sbuf.Sbuf
  | .plain k a p => { attr := some a, path := some ⟨k.toByte, p⟩ }
  | .link k a p t =>
    { attr := some a, path := some ⟨k.toByte, p⟩, link := some ⟨k.toByte, t⟩ }
  | .stored k d a p e =>
    { datapth := some d, attr := some a, path := some ⟨k.toByte, p⟩, endfile := some e }

/-- Writing entries to a manifest one after the other, stopping at the first failure. -/
def writeEntries (out : Str) : List Sbuf.Sbuf → Str × Bool
  | [] => (out, true)
  | e :: es =>
    match Sbuf.toManifest out e with
    | (out', true) => writeEntries out' es
    | (out', false) => (out', false)

end Verif

namespace Verif

/-- The place of a kind of record among the records of one path: VSS headers first, then the entry
itself, then its metadata, or its VSS footer. -/
def group : Cmd → Nat
  | .vss | .encVss => 0
  | .metadata | .encMetadata => 2
  | .vssT | .encVssT => 3
  | _ => 1

/-- Two entries for the same path, one metadata and the other a VSS footer. -/
def Clash (a b : Cmd × Option Str) : Prop :=
  a.2 = b.2 ∧ (group a.1 = 2 ∧ group b.1 = 3 ∨ group a.1 = 3 ∧ group b.1 = 2)

end Verif
