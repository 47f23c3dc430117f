import Verif.Model.Prepend

/-!
# Where things are on the server: `src/server/sdirs.c`

Allocation does not fail. A link is what it says; the buffer that links are read into has 256 bytes.
-/

namespace Verif.Sdirs
open Verif Verif.Prepend

/-- What `sdirs_init` is given; a null pointer is `none`. -/
structure Settings where
  directory : Option Str
  cname : Str
  /-- `client_lockdir` -/
  lockdir : Option Str
  /-- `manual_delete` -/
  manualDelete : Option Str
  deriving DecidableEq, Repr

/-- `struct sdirs`, `src/server/sdirs.h:10-51`, without what is set later. -/
structure Dirs where
  base : Str
  clients : Str
  client : Str
  created : Str
  command : Str
  working : Str
  finishing : Str
  current : Str
  currenttmp : Str
  timestamp : Str
  phase1data : Str
  changed : Str
  unchanged : Str
  countersD : Str
  countersN : Str
  restoreList : Str
  deleteme : Str
  currentdata : Str
  manifest : Str
  datadirtmp : Str
  cmanifest : Str
  cincexc : Str
  deltmppath : Str
  lockdir : Str
  /-- `lock_storage_for_write->path` -/
  lockfile : Str
  deriving DecidableEq, Repr

/-- `do_lock_dirs`, `src/server/sdirs.c:18-44`: `lockdir` and the lock. -/
def lockDirs (client : Str) (s : Settings) : Str × Str :=
  match s.lockdir with
  | some l => (l, prependS (some (prependS (some l) s.cname)) (bytes "lockfile"))
  | none => (client, prependS (some client) (bytes "lockfile"))

/-- `sdirs_init`, `src/server/sdirs.c:195-215`, with `do_dirs`, 151-169, and `do_common_dirs`, 121-149. -/
def init (s : Settings) : Option Dirs :=
  s.directory.map fun base =>
    let client := prependS (some base) s.cname
    let working := prependS (some client) (bytes "working")
    let current := prependS (some client) (bytes "current")
    { base := base
      clients := base
      client := client
      created := prependS (some client) (bytes ".created")
      command := prependS (some client) (bytes ".command")
      working := working
      finishing := prependS (some client) (bytes "finishing")
      current := current
      currenttmp := prependS (some client) (bytes "current.tmp")
      timestamp := prependS (some working) (bytes "timestamp")
      phase1data := prependS (some working) (bytes "phase1.gz")
      changed := prependS (some working) (bytes "changed")
      unchanged := prependS (some working) (bytes "unchanged")
      countersD := prependS (some working) (bytes "counters_d")
      countersN := prependS (some working) (bytes "counters_n")
      restoreList := prependS (some client) (bytes "restore_list")
      deleteme := match s.manualDelete with
        | some m => m
        | none => prependS (some client) (bytes "deleteme")
      currentdata := prependS (some current) (bytes "data")
      manifest := prependS (some working) (bytes "manifest.gz")
      datadirtmp := prependS (some working) (bytes "data.tmp")
      cmanifest := prependS (some current) (bytes "manifest.gz")
      cincexc := prependS (some current) (bytes "incexc")
      deltmppath := prependS (some working) (bytes "deltmppath")
      lockdir := (lockDirs client s).1
      lockfile := (lockDirs client s).2 }

/-- What is set once the directory of the new backup is known. -/
structure Real where
  rworking : Str
  treepath : Str
  relink : Str
  /-- `rmanifest`, `sdirs_get_real_manifest`, `src/server/sdirs.c:52-56` -/
  rmanifest : Str
  deriving DecidableEq, Repr

/-- The paths for a directory of this name, `src/server/sdirs.c:67-70,88-91`. -/
def realOf (d : Dirs) (name : Str) : Real :=
  let r := prependS (some d.client) name
  { rworking := r
    treepath := prependS (some r) (bytes "data/t")
    relink := prependS (some r) (bytes "relink")
    rmanifest := prependS (some r) (bytes "manifest.gz") }

/-- `sdirs_create_real_working`, `src/server/sdirs.c:75-119`, where nothing fails: what `working` links to, and
the paths. `stamp` is the time in the format of `timestamp_format`; the buffer has 64 bytes. -/
def create (d : Dirs) (number stamp : Str) : Str × Real :=
  let fname := (number ++ space :: stamp).take 63
  (fname, realOf d fname)

/-- `sdirs_get_real_working_from_symlink`, `src/server/sdirs.c:58-73`, with what `working` links to; `none`: it is
not a link. `do_readlink`, `src/fsops.c:560-567`. -/
def fromLink (d : Dirs) (link : Option Str) : Option Real :=
  link.map fun l => realOf d (l.take 255)

end Verif.Sdirs
