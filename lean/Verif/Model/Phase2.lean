import Verif.Model.Manifest

/-!
# Phase 2 of a backup: `src/server/backup_phase2.c`

The scan made by phase 1 is walked along with the manifest of the previous backup. What is modelled is
which entries are compared, what is decided about each, and what is written to the lists of changed
and unchanged entries and to the counters. Sending and receiving are elsewhere
(`Verif/Model/Asfd.lean`), and so is the allocation of storage paths (`Verif/Model/Dpth.lean`).
Errors of reading and writing files are left out.
-/

namespace Verif.Phase2
open Verif.Manifest

/-- `enum processed_e`, `src/server/backup_phase2.c:140-149`, without the error. `doneNew` and
`doneChanged` are for entries that have no data. -/
inductive Processed where
  | doneNew | doneChanged | doneUnchanged | doneDeleted | new | changed
  deriving DecidableEq, Repr

/-- The parts of a `struct sbuf` that decisions are made on. -/
structure Ent where
  cmd : Cmd
  path : Option Str
  link : Option Str := none
  datapth : Option Str := none
  dev : Nat := 0
  ino : Nat := 0
  mtime : Int := 0
  ctime : Int := 0
  size : Int := 0
  compression : Int := 0
  encryption : Nat := 0
  salt : Nat := 0
  endfile : Option Str := none
  deriving DecidableEq, Repr

/-- The settings that matter: `librsync`, `librsync_max_size` and whether the client is Windows. -/
structure Settings where
  librsync : Bool
  maxSize : Nat
  windows : Bool
  deriving DecidableEq, Repr

/-- `librsync_enabled`, `src/server/backup_phase2.c:436-447`. -/
def librsyncEnabled (s : Settings) (p1b cb : Ent) : Bool :=
  if !s.librsync then false
  else if s.maxSize = 0 then true
  else decide ((s.maxSize : Int) ≥ cb.size) && decide ((s.maxSize : Int) ≥ p1b.size)

/-- `process_new`, `src/server/backup_phase2.c:254-267`. -/
def processNew (p1b : Ent) : Processed :=
  if p1b.cmd.isFiledata || p1b.cmd.isVssdata then .new else .doneNew

/-- `strrchr(path, '.')` is `.gz`. -/
def endsGz (s : Str) : Bool := (bytes ".gz").isSuffixOf s

/-- `dpth_is_compressed`, `src/handy.c:465-477`, as a truth value. -/
def dpthIsCompressed (compressed : Int) (datapth : Str) : Bool :=
  if compressed > 0 then true else if compressed = 0 then false else endsGz datapth

/-- `get_hardlink_master_from_hmanio`, `src/server/backup_phase2.c:309-347`: the file in the previous
manifest `prev` that the hard link `cb` pointed to.
Simplification: the search starts from where the last one ended and wraps round once; here it starts
from the beginning. With one such entry per path that makes no difference. -/
def hardlinkMaster (prev : List Ent) (cb : Ent) : Option Ent :=
  prev.find? (fun h => (h.cmd == .file || h.cmd == .encFile) && h.path == cb.link && h.datapth.isSome)

/-- The checks in `relink_deleted_hardlink_master`, `src/server/backup_phase2.c:349-410`: the file
found has to be of the same kind as the new entry, and its data still has to be there. `exists_` is
the `lstat` in the data directory of the previous backup. -/
def relink (prev : List Ent) (exists_ : Str → Bool) (cb p1b : Ent) : Option Ent :=
  match hardlinkMaster prev cb with
  | none => none
  | some h =>
    if p1b.cmd ≠ h.cmd then none
    else match h.datapth with
      | none => none
      | some d => if exists_ d then some h else none

/-- What `relink_deleted_hardlink_master` changes about `cb`, `src/server/backup_phase2.c:417-424`:
the data path is the new one that the old data has been linked to, and the length and checksum are
those of the file found. -/
def relinked (cb hb : Ent) (newdatapth : Str) : Ent :=
  { cb with datapth := some newdatapth, endfile := hb.endfile }

/-- `process_unchanged_file`, `src/server/backup_phase2.c:269-296`: the entry written to the list of
unchanged entries. -/
def unchangedRecord (p1b cb : Ent) : Ent :=
  { p1b with datapth := cb.datapth, endfile := cb.endfile, salt := cb.salt,
             compression := cb.compression, encryption := cb.encryption }

/-- `maybe_do_delta_stuff`, `src/server/backup_phase2.c:449-563`, for a scanned entry `p1b` with the
place of the previous entry `cb`. `rel` is the result of trying to relink (nothing if there is no
previous manifest to look in). -/
def deltaStuff (s : Settings) (rel : Ent → Ent → Option Ent) (cb p1b : Ent) : Processed :=
  if cb.cmd ≠ p1b.cmd then
    if cb.cmd = .hardLink ∧ (p1b.cmd = .file ∨ p1b.cmd = .encFile) ∧
        p1b.dev = cb.dev ∧ p1b.ino = cb.ino ∧ p1b.mtime = cb.mtime ∧ (rel cb p1b).isSome = true then
      .doneUnchanged
    else processNew p1b
  else if cb.mtime = p1b.mtime ∧ cb.ctime = p1b.ctime then .doneUnchanged
  else if cb.mtime = p1b.mtime ∧ cb.ctime ≠ p1b.ctime ∧
      (cb.cmd = .encMetadata ∨ p1b.cmd = .encMetadata ∨ cb.cmd = .efsFile ∨ p1b.cmd = .efsFile ∨
       cb.cmd = .metadata ∨ p1b.cmd = .metadata ∨ cb.cmd.isVssdata = true ∨ p1b.cmd.isVssdata = true) then
    processNew p1b
  else if cb.mtime = p1b.mtime ∧ cb.ctime ≠ p1b.ctime ∧ s.windows = false then .doneUnchanged
  else if p1b.cmd.isFiledata = false ∧ p1b.cmd.isVssdata = false then .doneChanged
  else if librsyncEnabled s p1b cb = false ∨ cb.cmd = .metadata ∨ p1b.cmd = .metadata ∨
      cb.cmd.isEncrypted = true ∨ p1b.cmd.isEncrypted = true ∨
      cb.cmd.isVssdata = true ∨ p1b.cmd.isVssdata = true then
    processNew p1b
  else
    let oldcompressed := match cb.datapth with
      | none => false
      | some d => dpthIsCompressed cb.compression d
    if oldcompressed = true ∧ p1b.compression = 0 ∨ oldcompressed = false ∧ p1b.compression ≠ 0 then
      processNew p1b
    else .changed

/-! ### The walk -/

/-- What is recorded about entries: a scanned one is new, or changed or unchanged with respect to a
previous one; a previous one is deleted. -/
inductive Out (E : Type) where
  | new (p : E)
  | changed (p c : E)
  | unchanged (p c : E)
  | deleted (c : E)
  deriving DecidableEq, Repr

variable {E : Type}

/-- What the walk needs to know. `dec` stands for `deltaStuff` and `fresh` for `processNew`. -/
structure Walk (E : Type) where
  key : E → Cmd × Option Str
  dec : E → E → Processed

/-- `maybe_process_file`, `src/server/backup_phase2.c:578-602`: what is recorded, and whether `cb` is
kept for the next scanned entry. Both are read off the result as in lines 1032-1052 and 1074-1094: `cb` is kept for
`P_NEW` and `P_DONE_NEW`. -/
def maybeProcess (w : Walk E) (cb : E) (p1b : Option E) : Out E × Bool :=
  match p1b with
  | none => (.deleted cb, false)
  | some p =>
    if pcmp w.key cb p = 0 then
      match w.dec cb p with
      | .new => (.new p, true)
      | .doneNew => (.new p, true)
      | .changed => (.changed p cb, false)
      | .doneChanged => (.changed p cb, false)
      | .doneUnchanged => (.unchanged p cb, false)
      | .doneDeleted => (.deleted cb, false)
    else if pcmp w.key cb p > 0 then (.new p, true)
    else (.deleted cb, false)

/-- The state between calls: the part of the previous manifest that has not been read (`none` when it
has been closed), and the entry `cb` that is still to be compared. -/
structure St (E : Type) where
  cur : Option (List E)
  cb : Option E

/-- The loop of `process_next_file_from_manios`, `src/server/backup_phase2.c:1054-1095`. -/
def loop (w : Walk E) (p1b : Option E) : List E → List (Out E) × St E
  | [] => (match p1b with | none => [] | some p => [.new p], ⟨none, none⟩)
  | c :: cs =>
    match maybeProcess w c p1b with
    | (.deleted c, _) =>
      let r := loop w p1b cs
      (.deleted c :: r.1, r.2)
    | (o, keep) => ([o], ⟨some cs, if keep then some c else none⟩)

/-- `process_next_file_from_manios`, `src/server/backup_phase2.c:981-1099`, with the next scanned
entry or `none` at the end of the scan. -/
def next (w : Walk E) (p1b : Option E) (s : St E) : List (Out E) × St E :=
  match s.cur with
  | none => (match p1b with | none => [] | some p => [.new p], s)
  | some cs =>
    match s.cb with
    | none => loop w p1b cs
    | some c =>
      match maybeProcess w c p1b with
      | (.deleted c, _) =>
        let r := loop w p1b cs
        (.deleted c :: r.1, r.2)
      | (o, keep) => ([o], ⟨some cs, if keep then some c else none⟩)

/-- The calls of `process_next_file_from_manios` in `backup_phase2_server_all`,
`src/server/backup_phase2.c:1289-1292`: until the scan has ended. -/
def walk (w : Walk E) : List E → St E → List (Out E)
  | [], s => (next w none s).1
  | p :: ps, s =>
    let r := next w (some p) s
    r.1 ++ walk w ps r.2

/-- Phase 2 with a previous manifest, or `none` if there is none or it has been put aside because the
VSS settings changed (`src/server/backup_phase2.c:1233-1241`). -/
def phase2 (w : Walk E) (scan : List E) (prev : Option (List E)) : List (Out E) :=
  walk w scan ⟨prev, none⟩

/-- The walk of real entries. -/
def entWalk (s : Settings) (prev : List Ent) (exists_ : Str → Bool) : Walk Ent where
  key e := (e.cmd, e.path)
  dec := deltaStuff s (relink prev exists_)

end Verif.Phase2
