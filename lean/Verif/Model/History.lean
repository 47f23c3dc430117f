import Verif.Model.Retention

/-!
# Model of stored backups: finishing a backup, and finding a file for a restore

`src/server/backup_phase4.c`, `src/server/restore_sbuf.c`. The directories of a client's storage
are maps from the relative path of a stored file (`datapth`) to its content. This file has the
uninterrupted behaviour; `Verif/Model/Jiggle.lean` has the same code as single file system
operations, with power cuts.

Compression is left out: contents are what a reader of the file gets after decompression.
-/

namespace Verif.History

/-- The librsync calls that burp makes. `sig`, `delta` and `patch` are parameters; the one property
assumed of them is in `Librsync.Sound`, `Verif/Spec/History.lean`.
`patch` fails with `none` (`src/server/backup_phase4.c:31-65`, `src/server/rubble.c`). -/
structure Librsync (C D S : Type) where
  sig : C → S
  delta : S → C → D
  patch : C → D → Option C

/-- All the places where the file with one given `datapth` can be, while a backup is being finished:
`src/server/backup_phase4.c:383-388,475`.
* `fin`: `finishing/data`, the data of the new backup
* `old`: the data of the previous backup
* `rev`: `deltas.reverse` of the previous backup
* `fwd`: `finishing/deltas.forward`, a delta received from the client
* `tmp`: `finishing/data.tmp`, a whole file received from the client
* `rel`: `finishing/relink`, a link to a file of the previous backup made by
  `relink_deleted_hardlink_master` (`src/server/backup_phase2.c:349-434`) -/
structure Slot (C D : Type) where
  fin : Option C := none
  old : Option C := none
  rev : Option D := none
  fwd : Option D := none
  tmp : Option C := none
  rel : Option C := none
deriving DecidableEq

/-- `jiggle` together with `forward_patch_and_reverse_diff` and `gen_rev_delta`,
`src/server/backup_phase4.c:166-207,256-494`. `hard` is `hardlinked_current`. The flag returned says
that the entry was noted in the deletions file. `none`: an error is returned and the backup is not
finished. Errors of the file system itself are not modelled. -/
def jiggle {C D S : Type} (L : Librsync C D S) (hard : Bool) (s : Slot C D) :
    Option (Slot C D × Bool) :=
  match s.fin with
  | some _ => some ({ s with fwd := none }, false)
  | none =>
    match s.fwd with
    | some fd =>
      match s.old with
      | none => none
      | some a =>
        match L.patch a fd with
        | none => some ({ s with tmp := none }, true)
        | some c =>
          if hard then some ({ s with fin := some c, fwd := none, tmp := none }, false)
          else
            some ({ s with fin := some c, fwd := none, tmp := none, old := none,
                           rev := some (L.delta (L.sig c) a) }, false)
    | none =>
      match s.tmp with
      | some c => some ({ s with fin := some c, tmp := none }, false)
      | none =>
        match s.old with
        | some c => some ({ s with fin := some c, old := if hard then some c else none }, false)
        | none =>
          match s.rel with
          | some c => some ({ s with fin := some c, rel := none }, false)
          | none => none

/-- Replace the value of a map at one point. -/
def put {α : Type} (f : Str → α) (d : Str) (v : α) : Str → α := fun x => if x = d then v else f x

/-- The loop over the manifest in `atomic_data_jiggle`, `src/server/backup_phase4.c:678-696`. The
manifest is the list of its entries that have a `datapth` (line 686), with a key that identifies the
entry. Returns the directories and the entries noted in the deletions file. -/
def jiggleAll {C D S K : Type} (L : Librsync C D S) (hard : Bool) :
    List (K × Str) → (Str → Slot C D) → Option ((Str → Slot C D) × List K)
  | [], st => some (st, [])
  | (k, d) :: es, st =>
    match jiggle L hard (st d) with
    | none => none
    | some (s, del) =>
      match jiggleAll L hard es (put st d s) with
      | none => none
      | some (st', ks) => some (st', if del then k :: ks else ks)

/-- A stored backup: `bno`, whether it has the `hardlinked` file, the manifest entries with stored
data, and the `data` and `deltas.reverse` directories. -/
structure Backup (C D K : Type) where
  bno : Nat
  hard : Bool
  man : List (K × Str)
  data : Str → Option C
  delta : Str → Option D

/-- What the earlier phases leave for phase 4 in the `finishing` directory: the manifest of the new
backup, and `deltas.forward`, `data.tmp` and `relink`. -/
structure Incoming (C D K : Type) where
  man : List (K × Str)
  fwd : Str → Option D
  tmp : Str → Option C
  rel : Str → Option C

/-- `need_hardlinked_archive`, `src/server/backup_phase4.c:501-529`: `opt` is the option
`hardlinked_archive`, `keep` the list of keep values. `none`: division by zero, undefined behaviour.
The keep value is an `int`, converted to `uint64_t` for the division; the remainder is stored in an
`int`. -/
def needHard (opt : Bool) (keep : List Int) (bno : Nat) : Option Bool :=
  if opt then some true
  else
    match keep with
    | [] => some false
    | [_] => some false
    | k :: _ :: _ =>
      let kp : Nat := (k % (2 ^ 64 : Int)).toNat
      if kp = 0 then none
      else some (decide ((bno - 1) % kp % 2 ^ 32 = 0))

/-- `backup_phase4_server_all`, `src/server/backup_phase4.c:726-868`, followed by the renaming of
`finishing` to `current` (`src/server/backup.c`). `l` lists the stored backups, oldest first; the
last one is `current`. `hard` says whether the new backup is to be a hardlinked archive. If
`current` is no hardlinked archive its data and deltas are replaced by those of the duplicate that
`jiggle` worked on (lines 770-791, 849-857). Entries in the deletions file are dropped from the
manifest (`maybe_delete_files_from_manifest`, see `Verif/Model/Manifest.lean`). -/
def finish {C D S K : Type} [DecidableEq K] (L : Librsync C D S) (bno : Nat) (hard : Bool)
    (inc : Incoming C D K) (l : List (Backup C D K)) : Option (List (Backup C D K)) :=
  let cur := l.getLast?
  let curHard := (cur.map Backup.hard).getD false
  let st : Str → Slot C D := fun d =>
    { old := cur.bind (fun b => b.data d)
      rev := if curHard then none else cur.bind (fun b => b.delta d)
      fwd := inc.fwd d, tmp := inc.tmp d, rel := inc.rel d }
  match jiggleAll L curHard inc.man st with
  | none => none
  | some (st', dels) =>
    let new : Backup C D K :=
      { bno := bno, hard := hard, man := inc.man.filter (fun e => !dels.contains e.1)
        data := fun d => (st' d).fin, delta := fun _ => none }
    match cur with
    | none => some [new]
    | some b =>
      let b' := if curHard then b
                else { b with data := fun d => (st' d).old, delta := fun d => (st' d).rev }
      some (l.dropLast ++ [b', new])

/-- What a restore of one file gives. -/
inductive Got (C : Type) where
  | content (c : C)
  /-- `restore could not find`, `src/server/restore_sbuf.c:393-399` -/
  | missing
  /-- `problem when patching`, `src/server/restore_sbuf.c:307-314` -/
  | patchFailed
deriving DecidableEq

/-- Going up the list of backups until the file is found in a `data` directory,
`src/server/restore_sbuf.c:367-375`. Returns the backups passed on the way, latest first (which is
the order in which `b->prev` visits them later), and the content found. The argument starts with the
backup to be restored. -/
def findUp {C D K : Type} (d : Str) : List (Backup C D K) → List (Backup C D K) →
    Option (List (Backup C D K) × C)
  | _, [] => none
  | passed, b :: bs =>
    match b.data d with
    | some c => some (passed, c)
    | none => findUp d (b :: passed) bs

/-- Going down again, applying the reverse deltas that exist,
`src/server/restore_sbuf.c:281-321`. -/
def applyDown {C D S K : Type} (L : Librsync C D S) (d : Str) : List (Backup C D K) → C → Got C
  | [], c => .content c
  | b :: bs, c =>
    match b.delta d with
    | none => applyDown L d bs c
    | some dl =>
      match L.patch c dl with
      | none => .patchFailed
      | some c' => applyDown L d bs c'

/-- `restore_file` with `process_data_dir_file`, `src/server/restore_sbuf.c:259-403`, for the first
backup of the list. -/
def restoreFile {C D S K : Type} (L : Librsync C D S) (l : List (Backup C D K)) (d : Str) : Got C :=
  match findUp d [] l with
  | none => .missing
  | some (passed, c) => applyDown L d passed c

/-- The backup number and the flag, as the retention code sees them. -/
def Backup.bu {C D K : Type} (b : Backup C D K) : Retention.Bu := ⟨b.bno, b.hard⟩

end Verif.History
