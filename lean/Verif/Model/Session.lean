import Verif.Model.Phase2
import Verif.Model.History

/-!
# A whole backup: phases 2, 3 and 4 together

`src/server/backup.c`, `src/server/backup_phase2.c`, `src/server/backup_phase3.c`,
`src/server/backup_phase4.c`. The parts are those of `Verif/Model/Phase2.lean` (decisions),
`Verif/Model/Manifest.lean` (merge) and `Verif/Model/History.lean` (storage). Here they are put
together: what is decided about an entry determines what is asked of the client, what is stored
where, and what is written to which list.

The backup is not interrupted, and the client answers requests in the order in which they are made. As in
the parts, errors of reading and writing files and compression are left out.
-/

namespace Verif.Session
open Verif.Phase2 Verif.Manifest Verif.History

/-- What identifies an entry: its kind and its path. -/
abbrev Key := Cmd × Option Str

/-- The key of an entry. -/
def entKey (e : Ent) : Key := (e.cmd, e.path)

/-- `sbuf_is_filedata(p1b) || sbuf_is_vssdata(p1b)`, `src/server/backup_phase2.c:255-256`: the data
have to come from the client. -/
def hasData (c : Cmd) : Bool := c.isFiledata || c.isVssdata

/-- What becomes of an entry: what is written to one of the lists, and what is put where under its data
path: a delta in `deltas.forward`, a file in `data.tmp`, or a link in `relink`. -/
structure Item (C D : Type) where
  entry : Ent
  fwd : Option D := none
  tmp : Option C := none
  rel : Option C := none

/-- Entries that have to wait for data are written to the list of changed entries when the data are
complete (`deal_with_receive_end_file`, `src/server/backup_phase2.c:723-780`); all others are written at once
to the list of unchanged ones (`new_non_file` and `changed_non_file`, lines 222-250, and
`process_unchanged_file`, lines 269-296). -/
def late : Out Ent → Bool
  | .new p => hasData p.cmd
  | .changed p _ => hasData p.cmd
  | .unchanged _ _ => false
  | .deleted _ => false

/-- The stored file that a delta is asked for cannot be opened: `process_changed_file`,
`src/server/backup_phase2.c:166-181`. That ends the backup. -/
def failed {C : Type} (data : Str → Option C) : Out Ent → Bool
  | .changed p c => hasData p.cmd && (c.datapth.bind data).isNone
  | _ => false

/-- What is recorded and stored for an entry. `data` is the data directory of the previous backup, `rel`
finds the file that a hard link pointed to, `alloc` gives the new data path (`set_new_datapth`,
`src/server/backup_phase2.c:82-113`), and `ans` is what the client answers to the request for an entry: the
attributes and so on that it sends with it, and the content. A client that cannot read the file sends an
interrupt, and then nothing is recorded (`src/server/backup_phase2.c:864-869,893-901`).
* A new file: `start_to_receive_new_file`, lines 115-138.
* A changed one: the client gets the signature of the stored file (`process_changed_file`, lines 153-220) and
  sends a delta, which is put away by `finish_delta`, lines 684-699, under the data path that the stored
  file has.
* An unchanged one: `process_unchanged_file`, lines 269-296, after
  `relink_deleted_hardlink_master`, lines 349-434, if it was a hard link. -/
def item {C D S : Type} (L : Librsync C D S) (data : Str → Option C) (rel : Ent → Ent → Option Ent)
    (alloc : Ent → Str) (ans : Ent → Option (Ent × C)) : Out Ent → Option (Item C D)
  | .new p =>
    if hasData p.cmd then
      (ans p).map (fun r => { entry := { r.1 with datapth := some (alloc p) }, tmp := some r.2 })
    else some { entry := p }
  | .changed p c =>
    if hasData p.cmd then
      match c.datapth.bind data with
      | none => none
      | some a =>
        (ans p).map (fun r =>
          { entry := { r.1 with datapth := c.datapth }, fwd := some (L.delta (L.sig a) r.2) })
    else some { entry := p }
  | .unchanged p c =>
    if c.cmd ≠ p.cmd then
      match rel c p with
      | none => none
      | some h =>
        some { entry := unchangedRecord p (relinked c h (alloc p)), rel := h.datapth.bind data }
    else some { entry := unchangedRecord p c }
  | .deleted _ => none

/-- The entry of a manifest as phase 4 sees it (`src/server/backup_phase4.c:686`). -/
def storedAs (e : Ent) : Option (Key × Str) := e.datapth.map (fun d => (entKey e, d))

/-- What one kind of thing is stored under a data path. -/
def lookup {C D X : Type} (its : List (Item C D)) (f : Item C D → Option X) (d : Str) : Option X :=
  (its.find? (fun i => i.entry.datapth == some d)).bind f

/-- A backup, as called in `do_backup_server`, `src/server/backup.c:167-298`: the scan `scan` of the client is
compared with the manifest `prev` of the previous backup, unless that is put aside (`reset`:
`vss_opts_changed`, `src/server/backup_phase2.c:919-979,1232-1233`). `l` are the stored backups, oldest first.
Returns the stored backups and the manifest of the new one, from which the entries in the deletions file
have been removed (`maybe_delete_files_from_manifest`; `C18` says that this is what it does). `none`: the
backup fails. -/
def session {C D S : Type} (L : Librsync C D S) (s : Settings) (reset : Bool) (bno : Nat) (hard : Bool)
    (alloc : Ent → Str) (ans : Ent → Option (Ent × C)) (scan : List Ent) (prev : Option (List Ent))
    (l : List (Backup C D Key)) : Option (List (Backup C D Key) × List Ent) :=
  let data : Str → Option C := fun d => l.getLast?.bind (fun b => b.data d)
  let rel := relink (prev.getD []) (fun d => (data d).isSome)
  let w := entWalk s (prev.getD []) (fun d => (data d).isSome)
  let outs := phase2 w scan (if reset then none else prev)
  if outs.any (failed data) then none
  else
    let its := outs.filterMap (item L data rel alloc ans)
    let unchanged := (outs.filter (fun o => !late o)).filterMap (item L data rel alloc ans)
    let changed := (outs.filter late).filterMap (item L data rel alloc ans)
    let man := phase3 entKey (unchanged.map Item.entry) (changed.map Item.entry)
    let inc : Incoming C D Key :=
      { man := man.filterMap storedAs, fwd := lookup its Item.fwd, tmp := lookup its Item.tmp
        rel := lookup its Item.rel }
    match finish L bno hard inc l with
    | none => none
    | some l' =>
      let kept := (l'.getLast?.map Backup.man).getD []
      some (l', man.filter (fun e => match storedAs e with
        | none => true
        | some kd => kept.contains kd))

end Verif.Session
