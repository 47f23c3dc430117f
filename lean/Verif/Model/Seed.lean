import Verif.Model.Sbuf
import Verif.Model.Manifest
import Verif.Model.Prepend

/-!
# Seeding: `src/server/extra_comms.c`, `src/server/manio.c`, `src/server/backup_phase2.c`

The first backup of a client can be taken from a copy of its files that is somewhere else, `seed_src`. The
server rewrites the paths as they are copied into the final manifest, so that they begin with `seed_dst`.
A pointer to beyond the end of a string is `none`.
-/

namespace Verif.Seed
open Verif.PathCmp Verif.Sbuf

/-- The loop of `strip_trailing_slashes`, `src/handy.c:851-864`, on the string backwards. -/
def stripRev : Str → Str
  | [] => []
  | [c] => [c]
  | c :: d :: r => if c = slash then stripRev (d :: r) else c :: d :: r

/-- `strip_trailing_slashes`, `src/handy.c:851-864`. -/
def stripTrailing (s : Str) : Str := (stripRev s.reverse).reverse

/-- `setup_seed`, `src/server/extra_comms.c:181-217`: what is stored for `seed_src` or `seed_dst`; `none`
when it is refused. -/
def setupSeed (isSrc : Bool) (str : Str) : Option Str :=
  if isAbsolute (stripTrailing str) = false then none
  else if isSrc = true ∧ deref (stripTrailing str) ≠ slash then some (slash :: stripTrailing str)
  else some (stripTrailing str)

/-- `check_seed`, `src/server/extra_comms.c:434-452`: whether the two settings are accepted. -/
def checkSeed (src dst : Option Str) : Bool := src.isSome == dst.isSome

/-- `check_start_dirs_and_seed`, `src/conffile.c:859-878`, on the client: whether the starting directories
are accepted. -/
def checkStartDirs (src : Option Str) (start : List Str) : Bool :=
  match src with
  | none => true
  | some src => start.all (fun s => decide (isSubdir src s ≠ 0))

/-- `s+n`: to the NUL at most. -/
def after (s : Str) (n : Nat) : Option Str := if s.length < n then none else some (s.drop n)

/-- `if(*tmp=='/') tmp++;`. -/
def skipSlash (t : Str) : Str := if deref t = slash then t.drop 1 else t

/-- `TREE_DIR`, `src/server/sdirs.h:4`. -/
def treeDir : Str := bytes "t"

/-- The new path, `src/server/manio.c:275-285`. -/
def seedPath (src dst p : Str) : Option Str :=
  (after p src.length).map (fun t => dst ++ [slash] ++ skipSlash t)

/-- The new path of the data, `src/server/manio.c:287-308`. -/
def seedData (src dst d : Str) : Option Str :=
  if treeDir.isPrefixOf d = false then some d
  else (after d (treeDir.length + src.length)).map
    (fun t => treeDir ++ (if deref dst ≠ slash then [slash] else []) ++ dst ++ [slash] ++ skipSlash t)

/-- What `manio_copy_entry`, `src/server/manio.c:252-341`, writes to the new manifest. -/
def copyEntry (seed : Option (Str × Str)) (sb : Sbuf) : Option Sbuf :=
  match seed, sb.path with
  | none, _ => some sb
  | some _, none => none
  | some (src, dst), some p =>
    match seedPath src dst p.buf, sb.datapth with
    | none, _ => none
    | some q, none => some { sb with path := some { p with buf := q } }
    | some q, some d =>
      (seedData src dst d).map (fun d' => { sb with path := some { p with buf := q }, datapth := some d' })

/-- The key of an entry. -/
def sbKey (sb : Sbuf) : Cmd × Option Str := ((pathCmd sb).getD .error, sb.path.map (·.buf))

/-- The final manifest of a seeded backup: `src/server/backup_phase3.c:43-131` compares entries by their
original paths, and rewrites each as it is written. -/
def phase3Seed (seed : Option (Str × Str)) (us cs : List Sbuf) : Option (List Sbuf) :=
  (Manifest.phase3 sbKey us cs).mapM (copyEntry seed)

/-- `maybe_move_seed_dir`, `src/server/backup_phase2.c:1101-1137`: the directory that is renamed, and its
new name, within the data of the backup. -/
def moveSeed (src dst : Str) : Str × Str :=
  (treeDir ++ src, treeDir ++ (if deref dst ≠ slash then [slash] else []) ++ dst)

/-- `set_new_datapth`, `src/server/backup_phase2.c:82-113`, for a file that is kept in a tree like the
client's. -/
def treeDatapth (p : Str) : Str := Prepend.prependS (some treeDir) p

end Verif.Seed
