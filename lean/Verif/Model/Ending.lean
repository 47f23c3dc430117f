import Verif.Model.Manifest
import Verif.Model.Rubble

/-!
# The end of a backup, with the server stopping at any point

`do_backup_server` from the end of the scan on, `src/server/backup.c:213-277`, with the end of
`backup_phase2_server_all`, `backup_phase3_server_all` and what `check_for_rubble_and_clean` does at the
next connection. Everything that changes the directory of the backup is an operation; a run of the
server is a list of operations of which only the first few are done when it stops. What phase 2 receives
is given: the two lists that it ends with. How it gets there, also when it is resumed with the scan still
there, is in `Verif/Model/Phase2.lean`, `Verif/Model/Resume.lean` and `Verif/Model/ResumeFiles.lean`.
Phase 4 is in `Verif/Model/Links.lean`. A read or write that fails, and seeding, are left out.
-/

namespace Verif.Ending
open Verif.Rubble

variable {E : Type}

/-- The symbolic link through which the directory is found: `sdirs->working`, `sdirs->finishing`,
`sdirs->current`. -/
inductive Link where
  | working | finishing | current
  deriving DecidableEq, Repr

/-- The directory of one backup. A list that is `none` is a file that is not there. -/
structure St (E : Type) where
  /-- `none`: the directory has been removed -/
  link : Option Link
  /-- `phase1.gz`, the scan -/
  phase1 : Bool
  changed : Option (List E)
  unchanged : Option (List E)
  /-- `manifest.gz.tmp` -/
  tmp : Option (List E)
  /-- `manifest.gz` -/
  manifest : Option (List E)
  deriving DecidableEq, Repr

/-- The directory when the scan has been received, `src/server/backup_phase1.c:96-100`. -/
def scanned : St E :=
  { link := some .working, phase1 := true, changed := none, unchanged := none, tmp := none,
    manifest := none }

/-- Files of the directory. -/
inductive File where
  | phase1 | changed | unchanged | tmp | manifest
  /-- the settings, the count of resumptions, the log, the data -/
  | other
  deriving DecidableEq, Repr

/-- What the server does to the directory, and what it tells the client. -/
inductive Op (E : Type) where
  /-- the client has been told that it is done: `src/server/backup_phase2.c:998`,
  `src/client/backup_phase2.c:471-477` -/
  | told
  /-- the file of changed entries now has this content -/
  | setChanged (l : List E)
  | setUnchanged (l : List E)
  /-- `src/server/backup_phase2.c:1316-1317` -/
  | unlinkPhase1
  /-- opening in append mode, which creates the file: `src/server/resume.c:591-592` -/
  | createChanged
  | createUnchanged
  /-- the temporary manifest now has this content -/
  | setTmp (l : List E)
  /-- `src/server/backup_phase3.c:144` -/
  | renameTmp
  /-- `src/server/backup_phase3.c:148` -/
  | unlinkChanged
  /-- `src/server/backup_phase3.c:149` -/
  | unlinkUnchanged
  /-- the statistics and the counters, `src/server/backup.c:255-260` -/
  | stats
  /-- `src/server/backup.c:262` -/
  | toFinishing
  /-- `src/server/backup.c:275` -/
  | toCurrent
  /-- a file is removed together with the directory, `src/fsops.c:246-254` -/
  | lose (f : File)
  /-- the directory and the link are gone, `src/fsops.c:261`, `src/server/rubble.c:125` -/
  | delete
  deriving DecidableEq, Repr

/-- One operation. -/
def apply (s : St E) : Op E → St E
  | .told => s
  | .setChanged l => { s with changed := some l }
  | .setUnchanged l => { s with unchanged := some l }
  | .unlinkPhase1 => { s with phase1 := false }
  | .createChanged => { s with changed := some (s.changed.getD []) }
  | .createUnchanged => { s with unchanged := some (s.unchanged.getD []) }
  | .setTmp l => { s with tmp := some l }
  | .renameTmp => { s with manifest := s.tmp, tmp := none }
  | .unlinkChanged => { s with changed := none }
  | .unlinkUnchanged => { s with unchanged := none }
  | .stats => s
  | .toFinishing => { s with link := some .finishing }
  | .toCurrent => { s with link := some .current }
  | .lose .phase1 => { s with phase1 := false }
  | .lose .changed => { s with changed := none }
  | .lose .unchanged => { s with unchanged := none }
  | .lose .tmp => { s with tmp := none }
  | .lose .manifest => { s with manifest := none }
  | .lose .other => s
  | .delete => { s with link := none }

/-- Some operations in turn. -/
def applyAll (s : St E) (ops : List (Op E)) : St E := ops.foldl apply s

/-- The rest of phase 2, `src/server/backup_phase2.c:1232-1317`, when the scan is there: the lists grow
in steps, at each of which a number of entries of either is on the disk. The client is told before the
lists are closed, and the scan goes last. -/
def phase2Ops (ch un : List E) (steps : List (Nat × Nat)) : List (Op E) :=
  [.createChanged, .createUnchanged]
    ++ steps.flatMap (fun n => [.setChanged (ch.take n.1), .setUnchanged (un.take n.2)])
    ++ [.told, .setChanged ch, .setUnchanged un, .unlinkPhase1]

/-- `backup_phase3_server_all`, `src/server/backup_phase3.c:17-162`: the temporary manifest is written,
takes the place of the manifest, and the two lists go. A list that is not there is read as an empty one,
`src/server/manio.c:47-49,215-219`. -/
def phase3Ops (key : E → Cmd × Option Str) (changed unchanged : Option (List E)) : List (Op E) :=
  let m := Manifest.phase3 key (unchanged.getD []) (changed.getD [])
  (List.range (m.length + 1)).map (fun n => .setTmp (m.take n)) ++ [.renameTmp, .unlinkChanged, .unlinkUnchanged]

/-- After phase 3, `src/server/backup.c:253-275`. -/
def endOps : List (Op E) := [.stats, .toFinishing, .toCurrent]

/-- `src/server/backup.c:215-227`: whether phase 2 is passed over. -/
def skipPhase2 (s : St E) : Bool := !s.phase1 && s.changed.isSome && s.unchanged.isSome

/-- `do_backup_server`, `src/server/backup.c:213-277`, on a directory with a scan or a directory that is
resumed. Without the scan `do_resume` creates the files and then fails, as it has no place in the scan:
`src/server/resume.c:591-604`, `src/server/manio.c:386-396`. -/
def backupOps (key : E → Cmd × Option Str) (ch un : List E) (steps : List (Nat × Nat)) (s : St E) :
    List (Op E) :=
  if skipPhase2 s then phase3Ops key s.changed s.unchanged ++ endOps
  else if s.phase1 then
    phase2Ops ch un steps ++ phase3Ops key (some ch) (some un) ++ endOps
  else [.createChanged, .createUnchanged]

/-- A connection of the client: the circumstances that decide what becomes of a directory that was left
(`Verif/Model/Rubble.lean`), what the client asks for, and how far the server gets. -/
structure Conn where
  resumed : Option Nat
  appendable : Bool
  incexc : Option Str
  logOpens : Bool
  settings : Settings
  /-- the client asks for a backup -/
  backup : Bool
  /-- the order in which `readdir` gives the files, should the directory be removed -/
  order : List File
  /-- how phase 2 gets on -/
  steps : List (Nat × Nat)
  /-- the number of operations that are done before the server stops -/
  stop : Nat
  deriving DecidableEq, Repr

/-- What `recover_working` looks at. -/
def leftover (s : St E) (c : Conn) : Leftover :=
  { exists_ := true, phase1tmp := false, phase1data := s.phase1, changed := s.changed.isSome,
    unchanged := s.unchanged.isSome, resumed := c.resumed, appendable := c.appendable,
    incexc := c.incexc, logOpens := c.logOpens }

/-- `working_delete`, `src/server/rubble.c:94-127`, with `do_recursive_delete`, `src/fsops.c:177-274`. -/
def deleteOps (order : List File) : List (Op E) := order.map .lose ++ [.delete]

/-- `check_for_rubble_and_clean`, `src/server/rubble.c:460-500`, and then the backup, if one is asked
for: all that the server would do if it did not stop. A directory that is current is left alone by later
connections. -/
def connOps (key : E → Cmd × Option Str) (ch un : List E) (s : St E) (c : Conn) : List (Op E) :=
  match s.link with
  | none => []
  | some .current => []
  | some .finishing => [.toCurrent]
  | some .working =>
    match recoverWorking (leftover s c) c.settings with
    | .deleted => deleteOps c.order
    | .resume => if c.backup then backupOps key ch un c.steps s else []
    | .linkRemoved => []
    | .refused => []

/-- One connection. -/
def conn (key : E → Cmd × Option Str) (ch un : List E) (s : St E) (c : Conn) : St E :=
  applyAll s ((connOps key ch un s c).take c.stop)

/-- The operations of the connection that makes the scan, from the end of the scan on. -/
def firstOps (key : E → Cmd × Option Str) (ch un : List E) (steps : List (Nat × Nat)) : List (Op E) :=
  backupOps key ch un steps scanned

/-- The directory after the first connection, of which `stop` operations were done, and then the others. -/
def history (key : E → Cmd × Option Str) (ch un : List E) (steps : List (Nat × Nat)) (stop : Nat)
    (cs : List Conn) : St E :=
  cs.foldl (conn key ch un) (applyAll scanned ((firstOps key ch un steps).take stop))

/-- Whether the client of the connection was told that the backup was done. -/
def clientTold (key : E → Cmd × Option Str) (ch un : List E) (s : St E) (c : Conn) : Bool :=
  ((connOps key ch un s c).take c.stop).any fun
    | .told => true
    | _ => false

end Verif.Ending
