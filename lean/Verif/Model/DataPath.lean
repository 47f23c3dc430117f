import Verif.Model.Confine
import Verif.Model.Dpth
import Verif.Model.Prepend
import Verif.Model.Seed

/-!
# Where the data of a new file is put: `src/server/backup_phase2.c`, `src/fsops.c`

The directory that receives the data of a backup (`data.tmp`), the limits of the file system on the lengths
of names, and the files of a backup one after the other. The names in the directory are made by the server,
which makes no symbolic links there. What is written is the content that the client sends; writing does not
fail for other reasons than those given here.
-/

namespace Verif.DataPath
open Verif.Iobuf Verif.Confine Verif.Dpth

/-- What the operating system allows: the longest path, with the zero byte at its end, and the longest name
(`PATH_MAX` and `NAME_MAX`; what `pathconf` tells, unless it is changed by a mount below the directory that
it is asked about). -/
structure Kernel where
  pathMax : Nat
  nameMax : Nat
  deriving DecidableEq, Repr

/-- `init_max`, `src/fsops.c:321-326`: the answer of `pathconf`, -1 if there is none, becomes an unsigned
number of 32 bits. -/
def initMax (answer : Int) (dflt : Nat) : Nat :=
  let max := (answer % 4294967296).toNat
  if max < dflt then dflt else max

/-- `fs_name_max` and `fs_full_path_max`. -/
structure Limits where
  name : Nat
  full : Nat
  deriving DecidableEq, Repr

/-- `init_fs_max`, `src/fsops.c:328-341`. The sum is of 32 bits. -/
def initFsMax (path name : Int) : Limits :=
  { name := initMax name 255, full := (initMax path 1024 + initMax name 255) % 4294967296 }

/-- The loop of `path_too_long`, `src/server/backup_phase2.c:56-65`: `cp` is the text after a slash. -/
def partsTooLong (nameMax : Nat) (cp : Str) : Bool :=
  if (cp.takeWhile (· ≠ slash)).length > nameMax then true
  else match _h : cp.dropWhile (· ≠ slash) with
    | [] => false
    | _ :: cp1 => partsTooLong nameMax cp1
termination_by cp.length
decreasing_by
  have h1 : (cp.dropWhile (· ≠ slash)).length ≤ cp.length := (List.dropWhile_suffix _).length_le
  rw [_h] at h1
  simp only [List.length_cons] at h1
  omega

/-- `path_too_long`, `src/server/backup_phase2.c:34-67`. `treeLen` is `treepathlen`, the length of the path of
the directory with the tree (lines 1204-1211). The path has no zero byte. -/
def pathTooLong (lim : Limits) (treeLen : Nat) (path : Str) : Bool :=
  if treeLen + path.length + 1 > lim.full then true
  else match path.dropWhile (· ≠ slash) with
    | [] => decide (path.length > lim.name)
    | _ :: cp => partsTooLong lim.name cp

/-- A file whose data arrives for the first time: its path on the client, the kind of its entry, whether the
mode of the entry is that of a directory, whether the data is compressed, and the data. -/
structure New where
  path : Str
  cmd : Cmd
  isDir : Bool
  gz : Bool
  content : Str
  deriving DecidableEq, Repr

/-- `treedata`, `src/server/backup_phase2.c:69-81`. -/
def treedata (lim : Limits) (treeLen : Nat) (f : New) : Bool :=
  if f.isDir then false
  else if f.cmd ≠ .file ∧ f.cmd ≠ .encFile ∧ f.cmd ≠ .efsFile then false
  else !pathTooLong lim treeLen f.path

/-- `set_new_datapth`, `src/server/backup_phase2.c:83-106`: the data path, and whether it is in the tree.
`tree` is the setting `directory_tree`. -/
def newDatapth (tree : Bool) (lim : Limits) (treeLen : Nat) (d : Dpth) (f : New) : Str × Bool :=
  if tree && treedata lim treeLen f then (Seed.treeDatapth f.path, true)
  else (dpthMk d (f.gz && decide (f.cmd ≠ .efsFile)), false)

/-- What is in the directory. -/
inductive Node where
  | dir
  | file (content : Str)
  deriving DecidableEq, Repr

/-- The place of something in the directory is the list of names that lead to it. -/
abbrev Disk := List Name → Option Node

/-- The directory when it is new. -/
def emptyDisk : Disk := fun p => if p = [] then some .dir else none

def Disk.put (d : Disk) (p : List Name) (n : Node) : Disk := fun q => if q = p then some n else d q

/-- The number of characters of a path. -/
def textLen (base : Nat) (p : List Name) : Nat := base + (p.map (·.length + 1)).sum

/-- The operating system accepts the path: it and its names are not too long. `base` is the length of the path
of the directory. -/
def Fits (k : Kernel) (base : Nat) (p : List Name) : Prop :=
  textLen base p < k.pathMax ∧ ∀ n ∈ p, n.length ≤ k.nameMax

instance (k : Kernel) (base : Nat) (p : List Name) : Decidable (Fits k base p) := by
  unfold Fits; infer_instance

/-- The directory that a path is in exists. -/
def parentOk (d : Disk) (p : List Name) : Bool := decide (d p.dropLast = some .dir)

/-- `lstat`: `none` if the call fails. Only the last directory is looked at: what exists is in directories. -/
def lstat (k : Kernel) (base : Nat) (d : Disk) (p : List Name) : Option Node :=
  if Fits k base p then d p else none

/-- `mkdir`: `none` if the call fails. -/
def mkdir (k : Kernel) (base : Nat) (d : Disk) (p : List Name) : Option Disk :=
  if Fits k base p ∧ parentOk d p = true ∧ d p = none then some (d.put p .dir) else none

/-- `mkpath`, `src/fsops.c:58-130`, for a path below the directory that is the limit: it takes off the last
name of a path and makes the directory that remains. The names are in the reverse order. A place that is
something else than a directory is only warned about. `none` is an error. -/
def mkpath (k : Kernel) (base : Nat) (d : Disk) : List Name → Option Disk
  | [] => some d
  | _ :: up =>
    match up with
    | [] => some d
    | _ :: _ =>
      match lstat k base d up.reverse with
      | some _ => some d
      | none =>
        match mkpath k base d up with
        | none => none
        | some d' => mkdir k base d' up.reverse

/-- `open` for writing, `src/server/backup_phase2.c:127-131`, and the data that is then written: `none` if the
file cannot be made. -/
def openWrite (k : Kernel) (base : Nat) (d : Disk) (p : List Name) (content : Str) : Option Disk :=
  if Fits k base p ∧ parentOk d p = true ∧ d p ≠ some .dir then some (d.put p (.file content)) else none

/-- The receiving side: the directory, and the counter of numbered data paths. -/
structure St where
  disk : Disk
  dpth : Dpth

/-- What stays the same during a backup: the operating system, the setting `directory_tree`, the limits that
the server has worked out, the lengths of the path of the tree and of the path of the directory that the data
is received in, and `max_storage_subdirs`. -/
structure Env where
  kernel : Kernel
  tree : Bool
  lim : Limits
  treeLen : Nat
  base : Nat
  maxSub : Int

/-- `start_to_receive_new_file`, `src/server/backup_phase2.c:115-138`, with `build_path`,
`src/fsops.c:132-141`, until the file is closed: the data path of the file, and the state afterwards. `none`:
the backup ends with an error. A path with a dot component has been refused before
(`src/server/backup_phase2.c:879`, `src/sbuf.c:186`). -/
def receive (e : Env) (s : St) (f : New) : Option (Str × St) :=
  if PathCmp.hasDotComponent f.path then none
  else
    let n := newDatapth e.tree e.lim e.treeLen s.dpth f
    let p := parts n.1
    match mkpath e.kernel e.base s.disk p.reverse with
    | none => none
    | some d =>
      match openWrite e.kernel e.base d p f.content with
      | none => none
      | some d' => some (n.1, ⟨d', if n.2 then s.dpth else (dpthIncr e.maxSub s.dpth).1⟩)

/-- The new files of a backup. -/
def receiveAll (e : Env) (s : St) : List New → Option (List Str × St)
  | [] => some ([], s)
  | f :: fs =>
    match receive e s f with
    | none => none
    | some (p, s') =>
      match receiveAll e s' fs with
      | none => none
      | some (ps, s'') => some (p :: ps, s'')

end Verif.DataPath
