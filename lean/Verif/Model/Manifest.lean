import Verif.Model.Iobuf

/-!
# The merges of sorted manifests

`src/server/backup_phase3.c`, and `maybe_delete_files_from_manifest` in
`src/server/backup_phase4.c`. A manifest is the list of its entries (`Verif/Model/Sbuf.lean` has the
text form); `key` gives the kind and the path of an entry. An entry that has been read ahead into an
`sbuf` is the head of the list. Seeding, which rewrites paths as they are copied, is in
`Verif/Model/Seed.lean`. Errors of reading and writing files are left out.
-/

namespace Verif.Manifest
open Verif.Iobuf

variable {E : Type}

/-- `sbuf_pathcmp`, `src/sbuf.c:122-125`. -/
def pcmp (key : E → Cmd × Option Str) (a b : E) : Int := iobufPathcmp (key a) (key b)

/-- The loop of `backup_phase3_server_all`, `src/server/backup_phase3.c:43-131`: `us` are the
unchanged entries, `cs` the changed ones. With equal keys only the changed entry is written and
consumed. -/
def phase3 (key : E → Cmd × Option Str) (us cs : List E) : List E :=
  match us, cs with
  | [], cs => cs
  | us, [] => us
  | u :: us, c :: cs =>
    if pcmp key u c = 0 then c :: phase3 key (u :: us) cs
    else if pcmp key u c < 0 then u :: phase3 key us (c :: cs)
    else c :: phase3 key (u :: us) cs
termination_by us.length + cs.length

/-- The loop of `maybe_delete_files_from_manifest`, `src/server/backup_phase4.c:559-604`: `ms` is the
manifest, `ds` the deletions file. -/
def performDeletions (key : E → Cmd × Option Str) (ms ds : List E) : List E :=
  match ms, ds with
  | [], _ => []
  | ms, [] => ms
  | m :: ms, d :: ds =>
    if pcmp key m d = 0 then performDeletions key ms ds
    else if pcmp key m d < 0 then m :: performDeletions key ms (d :: ds)
    else performDeletions key (m :: ms) ds
termination_by ms.length + ds.length

end Verif.Manifest
