import Verif.Model.Find
import Verif.Model.BackupNumber
import Verif.Model.Cmd

/-!
# Restoring, on the server: `src/server/restore.c`

What is sent to the client, and from which backups. Messages from the client during the restore, the
counters, the locks, and errors of reading files are left out. Regular expressions are parameters.
-/

namespace Verif.Restore
open Verif.PathCmp Verif.Find Verif.BackupNumber

/-- An entry of the manifest: its kind and path, from its attributes whether it is a directory
(`S_ISDIR`), device and inode, and where its data are. -/
structure Ent where
  cmd : Cmd
  path : Str
  isDir : Bool
  dev : Nat
  ino : Nat
  data : Str
  deriving DecidableEq, Repr

/-- `srestore_matches`, `src/server/restore.c:46-55`. When `strncmp_w` is 0 the second test returns, so the
third is never made. -/
def srestoreMatches (s : Strlist.Elem) (path : Str) : Bool :=
  if s.flag = 0 then false else s.path.isPrefixOf path

/-- `srestore_check`, `src/server/restore.c:58-69`. -/
def srestoreCheck (l : List Strlist.Elem) (path : Str) : Bool :=
  if l.isEmpty then true else l.any (fun s => srestoreMatches s path)

/-- `restore_list_check`, `src/server/restore.c:71-112`. `rl` are the paths of the list that have not been
passed: what is in `rl_iobuf`, and what has not been read. `bad` says that reading ends with an error rather
than with the end of the file. The result, and what is left. A warning for a list that is not sorted is left
out. -/
def restoreListCheck (bad : Bool) (path : Str) : List Str → Int × List Str
  | [] => (if bad then -1 else 0, [])
  | r :: rs =>
    if pathcmp r path = 0 then (1, r :: rs)
    else if pathcmp r path = 1 then (0, r :: rs)
    else restoreListCheck bad path rs

/-- What a restore is asked for. -/
structure Request where
  /-- `ACTION_RESTORE`, rather than a verification -/
  isRestore : Bool
  /-- The client is Windows, and wants VSS data. -/
  vss : Bool
  /-- the restore list, if there is one, and whether reading it ends with an error -/
  list : Option (List Str × Bool)
  /-- `OPT_INCEXCDIR`, when the restore was asked for on the server -/
  srestore : Option (List Strlist.Elem)
  regex : Option (Str → Bool)

/-- The first part of `want_to_restore`, `src/server/restore.c:124-138`: whether something is not sent
because it only makes sense on Windows. -/
def onlyWindows (q : Request) (e : Ent) : Bool :=
  q.isRestore && !q.vss && (e.cmd.isVssdata || (e.isDir && e.cmd.isFiledata && !e.cmd.isMetadata))

/-- The other two tests of `want_to_restore`, `src/server/restore.c:143-146`. -/
def otherTests (q : Request) (e : Ent) : Bool :=
  (match q.srestore with | none => true | some l => srestoreCheck l e.path) &&
  (match q.regex with | none => true | some r => r e.path)

/-- `want_to_restore`, `src/server/restore.c:114-148`, with the rest of the restore list. -/
def wantToRestore (q : Request) (rl : List Str) (e : Ent) : Bool × List Str :=
  if onlyWindows q e then (false, rl)
  else match q.list with
    | none => (otherTests q e, rl)
    | some (_, bad) =>
      ((restoreListCheck bad e.path rl).1 ≠ 0 && otherTests q e, (restoreListCheck bad e.path rl).2)

/-- The decisions about all entries, in order. They do not depend on what is done with them, and are made
twice: by `setup_cntr`, `src/server/restore.c:166-222`, and by `restore_stream`. -/
def wants (q : Request) (rl : List Str) : List Ent → List Bool
  | [] => []
  | e :: es => (wantToRestore q rl e).1 :: wants q (wantToRestore q rl e).2 es

/-- `hard_link_substitution`, `src/server/restore.c:232-281`: what is sent instead of the hard link with
path `path`, from the entries of the manifest, given the name of a file that was not restored. -/
def substitute (name path : Str) : List Ent → List Ent
  | [] => []
  | h :: hs =>
    if pathcmp name h.path = 0 ∧ (h.cmd.isFiledata || h.cmd.isVssdata) = true then [{ h with path := path }]
    else if pathcmp name h.path < 0 then []
    else substitute name path hs

/-- `restore_sbuf`, `src/server/restore.c:283-315`: what is sent for an entry. -/
def restoreSbuf (manifest : List Ent) (hash : LinkHash) (e : Ent) : List Ent :=
  if e.cmd = .hardLink then
    match linkSearch hash e.dev e.ino with
    | some lp => substitute lp.name e.path manifest
    | none => [e]
  else [e]

/-- The loop of `restore_ent` over the directories that are waiting, `src/server/restore.c:337-356`: the
ones that are restored, and the ones that still wait. -/
def popDirs (path : Str) : List Ent → List Ent × List Ent
  | [] => ([], [])
  | x :: xs =>
    if isSubdir x.path path ≠ 0 then ([], x :: xs)
    else (x :: (popDirs path xs).1, (popDirs path xs).2)

/-- What is sent, and for which entry. -/
abbrev Trace := List (Ent × List Ent)

/-- `restore_ent`, `src/server/restore.c:317-389`: what is sent, and the directories that wait. -/
def restoreEnt (manifest : List Ent) (hash : LinkHash) (dirs : List Ent) (e : Ent) : Trace × List Ent :=
  let r := popDirs e.path dirs
  let done := r.1.map (fun x => (x, restoreSbuf manifest hash x))
  if e.isDir && !e.cmd.isMetadata then (done, e :: r.2)
  else (done ++ [(e, restoreSbuf manifest hash e)], r.2)

/-- What `restore_stream` does with an entry that is not wanted, `src/server/restore.c:474-486`. -/
def skipEnt (hash : LinkHash) (e : Ent) : LinkHash :=
  if e.cmd.isFiledata || e.cmd.isVssdata then
    match linkSearch hash e.dev e.ino with
    | some _ => hash
    | none => linkAdd hash e.path e.dev e.ino
  else hash

/-- The loop of `restore_stream`, `src/server/restore.c:432-489`, on the entries and the decisions, followed
by `restore_remaining_dirs`, 391-406. -/
def stream (manifest : List Ent) (hash : LinkHash) (dirs : List Ent) : List (Ent × Bool) → Trace
  | [] => dirs.map (fun x => (x, [x]))
  | (e, true) :: es =>
    let r := restoreEnt manifest hash dirs e
    r.1 ++ stream manifest hash r.2 es
  | (e, false) :: es => stream manifest (skipEnt hash e) dirs es

/-- `actual_restore`, `src/server/restore.c:499-531`. -/
def actualRestore (q : Request) (manifest : List Ent) : Trace :=
  stream manifest (fun _ => []) [] (manifest.zip (wants q ((q.list.map Prod.fst).getD []) manifest))

/-- What the client gets. -/
def sent (t : Trace) : List Ent := t.flatMap Prod.snd

/-- A backup: its number and its time stamp. -/
structure Bak where
  bno : Nat
  timestamp : Str
  deriving DecidableEq, Repr

/-- `strtoul(backup, NULL, 10)`, `src/server/restore.c:694`. Simplification: a sign is not accepted. -/
def requestNumber (backup : Str) : Nat := strtoul (backup.dropWhile (fun c => c = 32 || (9 ≤ c && c ≤ 13)))

/-- The loop of `do_restore_server`, `src/server/restore.c:703-716`: the backups that are restored. -/
def selectLoop (backup : Str) : List Bak → List Bak
  | [] => []
  | b :: bs =>
    if b.timestamp = backup ∨ b.bno = requestNumber backup ∨ deref backup = 97 then
      if deref backup = 97 then b :: selectLoop backup bs else [b]
    else selectLoop backup bs

/-- `do_restore_server`, `src/server/restore.c:661-735`: the backups that are restored, from the list, which
is in order of age. An empty result is answered with `backup not found`. -/
def select (backup : Option Str) (l : List Bak) : List Bak :=
  match backup with
  | none => l.getLast?.toList
  | some b =>
    if b = [] ∨ (requestNumber b = 0 ∧ deref b ≠ 97) then l.getLast?.toList
    else selectLoop b l

/-- The result of `do_restore_server`: `results` are those of `restore_manifest` for the selected backups,
`ending` is that of `restore_end`; 0 is success. -/
def restoreResult (results : List Int) (ending : Int) : Int :=
  if results.isEmpty then -1 else ending

end Verif.Restore
