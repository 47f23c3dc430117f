import Verif.Model.Iobuf

/-!
# Manifest entries: `src/sbuf.c`

The decoded `stat` fields of a `struct sbuf` are a function of its attribute record (see
`Verif.Model.Attribs`) and are left out here, as are the librsync and file handles.
-/

namespace Verif.Sbuf
open Verif Verif.Iobuf

/-- The part of `struct sbuf` (src/sbuf.h:34-62) that the manifest reader and writer use. An unset
`struct iobuf` (its `buf` is NULL) is `none`. -/
structure Sbuf where
  datapth : Option Str := none
  attr : Option Str := none
  path : Option Rec := none
  link : Option Rec := none
  endfile : Option Str := none
  /-- `flags & SBUF_NEED_LINK` -/
  needLink : Bool := false
  /-- `flags & SBUF_CLIENT_RESTORE_HACK` -/
  hack : Bool := false
  deriving DecidableEq, Repr

/-- `sbuf_alloc`/`sbuf_free_content`, src/sbuf.c:13-51. -/
def empty : Sbuf := {}

/-- The records that `sbuf_to_manifest` writes, in order: src/sbuf.c:90-110. `none` when the path
is not set, where nothing is written. (A set path always comes with a set attribute record: the
parser sees to that, `parse` below. With none, `send_msg_fzp` would be given a NULL buffer.) -/
def toRecords (sb : Sbuf) : List Rec :=
  match sb.path, sb.attr with
  | some p, some a =>
    (match sb.datapth with | some d => [⟨Cmd.datapth.toByte, d⟩] | none => []) ++
    [⟨Cmd.attribs.toByte, a⟩, p] ++
    (match sb.link with | some l => [l] | none => []) ++
    (match sb.endfile with | some e => [⟨Cmd.endFile.toByte, e⟩] | none => [])
  | _, _ => []

/-- `sbuf_to_manifest`, src/sbuf.c:90-110. -/
def toManifest (out : Str) (sb : Sbuf) : Str × Bool := writeAll out (toRecords sb)

/-- `enum parse_ret`, src/sbuf.c:127-133. -/
inductive Ret where
  | error | needMore | complete | finished
  deriving DecidableEq, Repr

/-- The generic commands that end a stream of entries, src/sbuf.c:213-217. -/
def finishers : List Str :=
  [bytes "restoreend", bytes "phase1end", bytes "backupphase2", bytes "backupend",
   bytes "estimateend"]

/-- `iobuf_relative_path_attack`, src/iobuf.c:203-209. -/
def relativePathAttack (r : Rec) : Bool := PathCmp.hasDotComponent (cstr r.buf)

/-- The command of an entry's path: `CMD_ERROR` while it is unset (`iobuf_init`). -/
def pathCmd (sb : Sbuf) : Option Cmd :=
  match sb.path with
  | some p => Cmd.ofByte p.cmd
  | none => some .error

/-- The path branch of `parse_cmd`, src/sbuf.c:164-207. -/
def parsePath (sb : Sbuf) (c : Cmd) (r : Rec) : Sbuf × Ret :=
  if sb.attr = none then (sb, .error)
  else if sb.needLink then
    if c.isLink then ({ sb with link := some r, needLink := false }, .complete)
    else (sb, .needMore)
  else if relativePathAttack r then (sb, .error)
  else
    let sb := { sb with path := some r }
    if c.isLink then ({ sb with needLink := true }, .needMore)
    else if sb.datapth.isSome then
      if sb.hack then (sb, .complete) else (sb, .needMore)
    else (sb, .complete)

/-- `parse_cmd`, src/sbuf.c:135-262. -/
def parse (sb : Sbuf) (r : Rec) : Sbuf × Ret :=
  match Cmd.ofByte r.cmd with
  | some .attribs =>
    if sb.datapth.isSome then ({ sb with attr := some r.buf }, .needMore)
    else ({ empty with attr := some r.buf }, .needMore)
  | some .file | some .directory | some .softLink | some .hardLink | some .special
  | some .encFile | some .metadata | some .encMetadata | some .efsFile | some .vss | some .encVss
  | some .vssT | some .encVssT =>
    parsePath sb ((Cmd.ofByte r.cmd).getD .error) r
  | some .message | some .warning => (sb, .needMore)
  | some .gen => if cstr r.buf ∈ finishers then (sb, .finished) else (sb, .error)
  | some .manifest =>
    if relativePathAttack r then (sb, .error)
    else ({ sb with path := some r }, .complete)
  | some .error => (sb, .error)
  | some .datapth =>
    if relativePathAttack r then (sb, .error)
    else ({ empty with hack := sb.hack, datapth := some r.buf }, .needMore)
  | some .endFile =>
    let sb := { sb with endfile := some r.buf }
    if sb.attr = none ∨ sb.datapth = none ∨
        ¬ (((pathCmd sb).map Cmd.isFiledata).getD false ∨
           ((pathCmd sb).map Cmd.isVssdata).getD false) then (sb, .error)
    else (sb, .complete)
  | _ => (sb, .error)

/-- What `sbuf_fill` reports. -/
inductive FillRet where
  /-- 0: an entry, and the unread rest. -/
  | entry (sb : Sbuf)
  /-- 1: the end -/
  | finished
  /-- -1 -/
  | error
  deriving DecidableEq, Repr

/-- `sbuf_fill` on a file, src/sbuf.c:264-323 (`sbuf_fill_from_file`). -/
def fillFile (sb : Sbuf) (f : Str) : FillRet × Str :=
  match h : fill f with
  | .eof => (.finished, [])
  | .err => (.error, [])
  | .ok r rest =>
    have _ := fill_lt h
    match parse sb r with
    | (sb', .needMore) => fillFile sb' rest
    | (sb', .complete) => (.entry sb', rest)
    | (_, .finished) => (.finished, rest)
    | (_, .error) => (.error, rest)
termination_by f.length

/-- `sbuf_fill` on the network, src/sbuf.c:264-317 (`sbuf_fill_from_net`): the messages that arrive
are a list; when they run out the connection is lost, which `asfd->read` reports. -/
def fillNet (sb : Sbuf) : List Rec → FillRet × List Rec
  | [] => (.error, [])
  | r :: rs =>
    match parse sb r with
    | (sb', .needMore) => fillNet sb' rs
    | (sb', .complete) => (.entry sb', rs)
    | (_, .finished) => (.finished, rs)
    | (_, .error) => (.error, rs)

theorem fillFile_le (sb : Sbuf) (f : Str) : (fillFile sb f).2.length ≤ f.length := by
  induction f using WellFounded.induction
    (measure (fun (f : Str) => f.length)).wf generalizing sb with
  | _ f ih =>
    rw [fillFile]
    split
    · simp
    · simp
    · rename_i r rest h
      have hl := fill_lt h
      split
      · exact Nat.le_trans (ih rest hl _) (Nat.le_of_lt hl)
      all_goals exact Nat.le_of_lt hl

theorem fillFile_lt {sb sb' : Sbuf} {f rest : Str} (h : fillFile sb f = (.entry sb', rest)) :
    rest.length < f.length := by
  have key := fillFile_le
  rw [fillFile] at h
  split at h
  · simp at h
  · simp at h
  · rename_i r rest1 h1
    have hl := fill_lt h1
    split at h
    · rename_i sb1 _
      have := key sb1 rest1
      rw [h] at this
      simp only at this
      omega
    all_goals simp at h
    rw [← h.2]; exact hl

/-- Reading a whole manifest: a fresh entry is filled until the end or an error, as every reader of
manifests in the server does (`manio_read`, then `sbuf_free_content`). -/
def readEntries (f : Str) : List Sbuf × Bool :=
  match h : fillFile empty f with
  | (.finished, _) => ([], true)
  | (.error, _) => ([], false)
  | (.entry sb, rest) =>
    have _ := fillFile_lt h
    (sb :: (readEntries rest).1, (readEntries rest).2)
termination_by f.length

end Verif.Sbuf
