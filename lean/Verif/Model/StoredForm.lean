import Verif.Model.Phase2
import Verif.Model.History
import Verif.Model.Find

/-!
# In which form the content of a file is stored, and what the manifest says about it

The client sends files compressed, encrypted, both or neither: `src/client/backup_phase2.c`,
`src/handy_extra.c`. The server stores what it gets, works on it when it is changed (`src/server/backup_phase2.c`,
`src/server/backup_phase4.c`) and sends it when it is restored (`src/server/restore_sbuf.c`). What it is taken for
is decided from what the manifest says of compression, encryption and salt, by the server and by the client
(`src/client/restore_switch.c`, `src/transfer.c`).

What is followed is one stored file, from its first backup on, with the reverse deltas that lead to what it held
before. zlib, the ciphers and librsync are parameters. Files of Windows (`CMD_EFS_FILE`, VSS data) and backups
that keep whole files instead of reverse deltas are left out. Reading and writing succeed.
-/

namespace Verif.StoredForm
open Verif Verif.Phase2 Verif.History

/-- `gz` is `deflate` with a level, or writing with `gzopen`; `gunzip` is `inflate`, as the client does it
(`src/transfer.c:48-85`); `gzread` is reading with `gzopen`, which gives what is not compressed as it is. `enc` and
`dec` are for a password, a kind of encryption and a salt (`enc_setup`, `src/handy_extra.c:44-137`). -/
structure Codec where
  gz : Nat → Str → Str
  gunzip : Str → Option Str
  gzread : Str → Str
  enc : Str → Nat → Nat → Str → Str
  dec : Str → Nat → Nat → Str → Option Str

/-- The settings of a client: `compression`, `exclude_comp` and `encryption_password`. -/
structure Conf where
  compression : Nat
  excom : List Str
  password : Option Str
  deriving DecidableEq, Repr

/-- The content of a file, or its extended attributes. -/
inductive Kind where
  | file | metadata
  deriving DecidableEq, Repr

/-- What `lstat` says, as far as it matters. -/
structure Stat where
  dev : Nat
  ino : Nat
  mtime : Int
  ctime : Int
  size : Int
  deriving DecidableEq, Repr

/-- `ENCRYPTION_KEY_DERIVED_AES_CBC_256`, `src/sbuf.h:30`. -/
def aes : Nat := 2

/-- `encryption` in `src/client/backup_phase1.c:233-236` and `src/client/backup_phase2.c:225-227`. It is
`ENCRYPTION_NONE`, `src/sbuf.h:28`, without a password. -/
def encryption (c : Conf) : Nat := if c.password.isSome then aes else 0

/-- `filesymbol` and `metasymbol`, `src/client/backup_phase1.c:233-242`. -/
def symbol (c : Conf) : Kind → Cmd
  | .file => if c.password.isSome then .encFile else .file
  | .metadata => if c.password.isSome then .encMetadata else .metadata

/-- A backup of a file: the settings of the client when it scans its files, and when it sends them, which is
another run if the backup was interrupted and resumed. What `lstat` says both times, the salt that is drawn, what
is read from the file, and the data path that the server gives to a new file. -/
structure Scan where
  conf1 : Conf
  conf2 : Conf
  settings : Phase2.Settings
  kind : Kind
  path : Str
  stat1 : Stat
  stat2 : Stat
  salt : Nat
  alloc : Str
  content : Str
  deriving DecidableEq

/-- What the client tells of a file in the first phase: `do_to_server`, `src/client/backup_phase1.c:104-149`, and
`my_send_file`, lines 183-188. -/
def scanned (s : Scan) : Ent :=
  { cmd := symbol s.conf1 s.kind, path := some s.path, dev := s.stat1.dev, ino := s.stat1.ino,
    mtime := s.stat1.mtime, ctime := s.stat1.ctime, size := s.stat1.size,
    compression := (Find.inExcludeComp s.conf1.excom s.path s.conf1.compression : Nat),
    encryption := encryption s.conf1 }

/-- What the client tells of a hard link, `to_server`, `src/client/backup_phase1.c:152-157`, and `my_send_file`,
lines 201-202: the compression is that of the configuration, and the salt has never been set. -/
def scannedLink (c : Conf) (path target : Str) (st : Stat) : Ent :=
  { cmd := .hardLink, path := some path, link := some target, dev := st.dev, ino := st.ino, mtime := st.mtime,
    ctime := st.ctime, size := st.size, compression := (c.compression : Nat), encryption := encryption c }

/-- What the client tells of a file that it is asked for, `deal_with_data`,
`src/client/backup_phase2.c:220-262`. The server asks for the entry of the first phase. -/
def answer (s : Scan) : Ent :=
  { cmd := (scanned s).cmd, path := some s.path, dev := s.stat2.dev, ino := s.stat2.ino, mtime := s.stat2.mtime,
    ctime := s.stat2.ctime, size := s.stat2.size,
    compression := (Find.inExcludeComp s.conf2.excom s.path s.conf2.compression : Nat),
    encryption := encryption s.conf2, salt := if s.conf2.password.isSome then s.salt else 0 }

/-- `send_whole_file_w`, `src/client/backup_phase2.c:150-170`, with `send_whole_file_gzl`,
`src/handy_extra.c:163-414`: compressed, and then encrypted. -/
def sendWhole (K : Codec) (c : Conf) (e : Ent) (content : Str) : Str :=
  if (e.compression ≠ 0 ∨ c.password.isSome = true) ∧ e.cmd ≠ .efsFile then
    let z := if e.compression ≠ 0 then K.gz e.compression.toNat content else content
    match c.password with
    | none => z
    | some p => K.enc p e.encryption e.salt z
  else content

/-- `dpth_is_compressed` for what the manifest says, `src/handy.c:465-477`. -/
def compressed (e : Ent) : Bool :=
  match e.datapth with
  | none => false
  | some d => dpthIsCompressed e.compression d

/-- A stored file. `blob` is what is in the data directory, `cur` the entry in the manifest of the last backup,
and `old` has the entries in the manifests of the backups before, the last one first, each with the reverse delta
that is kept there, which leads to it from the next one. -/
structure Line (D : Type) where
  blob : Str
  cur : Ent
  old : List (Option D × Ent)

/-- A new file: `start_to_receive_new_file`, `src/server/backup_phase2.c:115-138`. -/
def newLine {D : Type} (K : Codec) (s : Scan) : Line D :=
  ⟨sendWhole K s.conf2 (answer s) s.content, { answer s with datapth := some s.alloc }, []⟩

/-- Reading a stored file on the server: `process_changed_file`, `src/server/backup_phase2.c:172-175`,
`make_rev_sig` and `make_rev_delta`, `src/server/backup_phase4.c:76-79,133-136`. -/
def readStored (K : Codec) (e : Ent) (blob : Str) : Str := if compressed e then K.gzread blob else blob

/-- `inflate_or_link_oldfile`, `src/server/backup_phase4.c:234-253` and `src/server/restore_sbuf.c:35-71`. -/
def inflateOrLink (K : Codec) (e : Ent) (blob : Str) : Str :=
  if compressed e then (if blob = [] then [] else K.gzread blob) else blob

/-- A changed file: the client gets the signature of what is stored, as the previous manifest says it is, and
sends a delta of what it has (`process_changed_file`, `src/server/backup_phase2.c:153-220`,
`deal_with_data`, `src/client/backup_phase2.c:324-342`). Phase 4 patches it,
`forward_patch_and_reverse_diff`, `src/server/backup_phase4.c:256-346`, by the new manifest. `none`: the patch fails,
and the file is removed from the manifest. -/
def changedLine {D S : Type} (K : Codec) (L : Librsync Str D S) (l : Line D) (s : Scan) : Option (Line D) :=
  let e := { answer s with datapth := l.cur.datapth }
  let fwd := L.delta (L.sig (readStored K l.cur l.blob)) s.content
  match L.patch (inflateOrLink K e l.blob) fwd with
  | none => none
  | some c =>
    let blob := if e.compression ≠ 0 then K.gz e.compression.toNat c else c
    let rev := L.delta (L.sig (readStored K e blob)) (readStored K e l.blob)
    some ⟨blob, e, (some rev, l.cur) :: l.old⟩

/-- The next backup of the file, as it is decided in phase 2. -/
def next {D S : Type} (K : Codec) (L : Librsync Str D S) (l : Line D) (s : Scan) : Option (Line D) :=
  match deltaStuff s.settings (fun _ _ => none) l.cur (scanned s) with
  | .doneUnchanged => some ⟨l.blob, unchangedRecord (scanned s) l.cur, (none, l.cur) :: l.old⟩
  | .changed => changedLine K L l s
  | _ => some (newLine K s)

/-- A hard link has become a file. `l` is the file in the previous backup that it may be a link to:
`maybe_do_delta_stuff`, `src/server/backup_phase2.c:460-490`, with `relink_deleted_hardlink_master`,
lines 349-434. -/
def relinkLine {D : Type} (K : Codec) (l : Line D) (cb : Ent) (s : Scan) : Line D :=
  match deltaStuff s.settings (relink [l.cur] (fun _ => true)) cb (scanned s) with
  | .doneUnchanged => ⟨l.blob, unchangedRecord (scanned s) (relinked cb l.cur s.alloc), []⟩
  | _ => newLine K s

/-- The history of a stored file. Other files have their own. -/
inductive Hist where
  /-- It was not in the backup before. -/
  | first (s : Scan)
  /-- It was. -/
  | next (h : Hist) (s : Scan)
  /-- It was a hard link, seen with these settings and attributes; `h` is what it was a link to. -/
  | wasLink (h : Hist) (c : Conf) (target : Str) (st : Stat) (s : Scan)

/-- What is stored in the end. -/
def line {D S : Type} (K : Codec) (L : Librsync Str D S) : Hist → Option (Line D)
  | .first s => some (newLine K s)
  | .next h s => (line K L h).bind (fun l => next K L l s)
  | .wasLink h c target st s => (line K L h).map (fun l => relinkLine K l (scannedLink c s.path target st) s)

/-- Applying the reverse deltas, `process_data_dir_file`, `src/server/restore_sbuf.c:281-321`. -/
def patchAll {D S : Type} (L : Librsync Str D S) : List D → Str → Option Str
  | [], s => some s
  | d :: ds, s => (L.patch s d).bind (patchAll L ds)

/-- What the server sends for a restore: `process_data_dir_file` and `do_send_file`,
`src/server/restore_sbuf.c:72-163,259-345`. -/
def serverSend {D S : Type} (K : Codec) (L : Librsync Str D S) (e : Ent) (blob : Str) (revs : List D) :
    Option Str :=
  match revs with
  | [] => some (if e.cmd.isEncrypted then blob else if !compressed e then K.gz 9 blob else blob)
  | ds => (patchAll L ds (inflateOrLink K e blob)).map (K.gz 9)

/-- What the client makes of it: `do_restore_file_or_get_meta`, `src/client/restore_switch.c:31-38`, and
`transfer_gzfile_inl`, `src/transfer.c:160-318`. `pw` is the password that the client has when it restores. -/
def clientGet (K : Codec) (pw : Option Str) (e : Ent) (wire : Str) : Option Str :=
  match if e.cmd.isEncrypted then pw else none with
  | none => K.gunzip wire
  | some p =>
    (K.dec p (if e.encryption > 0 then e.encryption else 0) e.salt wire).bind
      (fun x => if !compressed e then some x else K.gunzip x)

/-- What a restore of the backup that is `k` before the last gives. -/
def restore {D S : Type} (K : Codec) (L : Librsync Str D S) (pw : Option Str) (l : Line D) (k : Nat) :
    Option Str :=
  ((l.cur :: l.old.map Prod.snd)[k]?).bind (fun e =>
    (serverSend K L e l.blob ((l.old.take k).filterMap Prod.fst)).bind (clientGet K pw e))

end Verif.StoredForm
