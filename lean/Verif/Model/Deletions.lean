import Verif.Model.Manifest

/-!
# The deletions file and the manifest when the server is killed: `src/server/backup_phase4.c:531-715`

`Verif/Model/Jiggle.lean` has how the data of one entry is put together. Here it is only whether that succeeds, which
may be different each time. A rename need not be atomic (`src/fsops.c:143-154`): the server may be killed when the old
file is gone and the new one is not there. Simplifications: an entry is written to the deletions file as a whole, and
so is read back as it was written (C09); files that are there can be read.
-/

namespace Verif.Deletions
open Verif Verif.Iobuf Verif.Manifest

variable {E : Type}

/-- The temporary file next to the manifest: incomplete, or complete. -/
inductive Tmp (E : Type) where
  | part
  | whole (l : List E)

/-- The disc: `manifest.gz`, `manifest.gz.tmp`, the deletions file, and whether the data of an entry is in its
place. -/
structure Disc (E : Type) where
  man : Option (List E)
  tmp : Option (Tmp E)
  dels : Option (List E)
  fin : E → Bool

/-- What `jiggle` does for an entry whose data is not in its place: puts it there; fails in a way that the backup
goes on without the entry (librsync); fails (`src/server/backup_phase4.c:256-494`). -/
inductive Outcome where
  | done
  | failed
  | fatal
  deriving DecidableEq

/-- What happens in a run of the server. -/
structure Luck (E : Type) where
  data : E → Outcome
  /-- the temporary manifest can be written -/
  writes : Bool
  /-- it can be renamed -/
  renames : Bool

/-- The entries: their key, and whether they have data (`sb->datapth.buf`). -/
structure Kinds (E : Type) where
  key : E → Cmd × Option Str
  data : E → Bool

/-- A run: the states of the disc after each operation, the last of them, and whether all went well. -/
abbrev Run (E : Type) := List (Disc E) × Disc E × Bool

/-- One after the other. -/
def Run.andThen (r : Run E) (f : Disc E → Run E) : Run E :=
  match r with
  | (ss, d, false) => (ss, d, false)
  | (ss, d, true) => (ss ++ (f d).1, (f d).2.1, (f d).2.2)

/-- An entry in the loop of `atomic_data_jiggle`, `src/server/backup_phase4.c:686-694`; what is already in its place
is skipped, 394-410; a failure is noted, 299-317, in a file that is opened for appending. -/
def one [DecidableEq E] (k : Kinds E) (o : Luck E) (e : E) (d : Disc E) : Run E :=
  if k.data e && !d.fin e then
    match o.data e with
    | .done =>
      let d1 := { d with fin := fun x => if x = e then true else d.fin x }
      ([d1], d1, true)
    | .failed =>
      let d1 := { d with dels := some (d.dels.getD []) }
      let d2 := { d with dels := some (d.dels.getD [] ++ [e]) }
      ([d1, d2], d2, true)
    | .fatal => ([], d, false)
  else ([], d, true)

/-- The loop of `atomic_data_jiggle`, `src/server/backup_phase4.c:678-696`. -/
def loop [DecidableEq E] (k : Kinds E) (o : Luck E) : List E → Disc E → Run E
  | [], d => ([], d, true)
  | e :: es, d => (one k o e d).andThen (loop k o es)

/-- `maybe_delete_files_from_manifest`, `src/server/backup_phase4.c:531-631`; `m` is the manifest. -/
def finish (k : Kinds E) (o : Luck E) (m : List E) (d : Disc E) : Run E :=
  match d.dels with
  | none => ([], d, true)
  | some ds =>
    let d1 := { d with tmp := some .part }
    if o.writes then
      let new := performDeletions k.key m ds
      let d2 := { d with tmp := some (.whole new) }
      let d3 := { d2 with dels := none }
      if o.renames then
        let d4 := { d3 with man := none }
        let d5 := { d3 with man := some new, tmp := none }
        ([d1, d2, d3, d4, d5], d5, true)
      else ([d1, d2, d3], d3, false)
    else
      let d2 := { d with tmp := none }
      ([d1, d2], d2, false)

/-- The rest of `atomic_data_jiggle`, `src/server/backup_phase4.c:662-706`, with the manifest there. -/
def rest [DecidableEq E] (k : Kinds E) (o : Luck E) (m : List E) (d : Disc E) : Run E :=
  (loop k o m d).andThen (finish k o m)

/-- `atomic_data_jiggle`, `src/server/backup_phase4.c:635-715`: without a manifest the temporary one is renamed. -/
def run [DecidableEq E] (k : Kinds E) (o : Luck E) (d : Disc E) : Run E :=
  match d.man with
  | some m => rest k o m d
  | none =>
    match d.tmp with
    | some (.whole m) =>
      let d1 := { d with man := some m, tmp := none }
      Run.andThen ([d1], d1, true) (rest k o m)
    | _ => ([], d, false)

end Verif.Deletions
