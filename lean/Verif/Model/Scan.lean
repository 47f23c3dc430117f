import Verif.Model.Incexc
import Verif.Spec.Path

/-!
# Walking through the file system: `src/client/find.c`

What is done with each file that is found is in `Verif/Model/Find.lean`. A directory that is not gone
into, because of `nobackup`, of a change of file system or because it cannot be opened, is taken to be
empty; a directory on a file system that is left out by `exclude_fs` or `include_fs` is sent twice
(`src/client/find.c:536,564`), which is not modelled here, but in `Verif/Model/Phase1.lean`. No path goes through a symbolic link.
-/

namespace Verif.Scan
open Verif.PathCmp Verif.Strlist

/-- What `lstat` and reading the directory say. -/
inductive Node where
  | missing
  | file
  | dir (names : List Str)
  deriving DecidableEq, Repr

/-- The file system, by the names on the way from the root. -/
abbrev Tree := List Str → Node

/-- `lstat(fname)`. -/
def lstat (t : Tree) (fname : Str) : Node := t (components fname)

/-- `qsort` with `my_alphasort`, `src/fsops.c:386,450-453`: insertion. -/
def insertName (x : Str) : List Str → List Str
  | [] => [x]
  | y :: ys => if pathcmp x y ≤ 0 then x :: y :: ys else y :: insertName x ys

@[inherit_doc insertName] def alphasort : List Str → List Str
  | [] => []
  | x :: xs => insertName x (alphasort xs)

/-- `link`, `src/client/find.c:514-524`: the path without separators at its end, and one separator. -/
def dirPrefix (fname : Str) : Str := (fname.reverse.dropWhile (· = slash)).reverse ++ [slash]

/-- The loop over `incexcdir` in `process_entries_in_directory`, `src/client/find.c:467-488`. (The inner
loop over `y` changes nothing.) `find` is `find_files`. -/
def findIncluded (find : Str → Option (List Str)) (link : Str) : List Elem → Option (List Str)
  | [] => some []
  | x :: xs =>
    if decide (x.flag ≠ 0) && decide (isSubdir link x.path ≠ 0) then
      match find x.path with
      | none => none
      | some l => (findIncluded find link xs).map (l ++ ·)
    else findIncluded find link xs

/-- `process_entries_in_directory`, `src/client/find.c:430-495`. -/
def processEntries (find : Str → Option (List Str)) (c : Find.Conf) (pre : Str) : List Str → Option (List Str)
  | [] => some []
  | n :: ns =>
    match (if Find.isIncludedNoIncext c (pre ++ n) then find (pre ++ n)
      else findIncluded find (pre ++ n) c.incexcdir) with
    | none => none
    | some l => (processEntries find c pre ns).map (l ++ ·)

/-- `find_files` and `found_directory`, `src/client/find.c:500-603,637-692`: the files that
`my_send_file_w` is called for, in order. A file that is not there only gives a warning. The first argument
bounds the depth of the recursion; `none` if it is not enough. -/
def findFiles (c : Find.Conf) (t : Tree) : Nat → Str → Option (List Str)
  | 0, _ => none
  | n + 1, fname => match lstat t fname with
    | .missing => some []
    | .file => some [fname]
    | .dir names =>
      (processEntries (findFiles c t n) c (dirPrefix fname) (alphasort names)).map (fname :: ·)

/-- `backup_phase1_client`, `src/client/backup_phase1.c:220-255`: all starting directories. -/
def scan (c : Find.Conf) (t : Tree) (fuel : Nat) : List Elem → Option (List Str)
  | [] => some []
  | s :: ss =>
    if s.flag ≠ 0 then
      match findFiles c t fuel s.path with
      | none => none
      | some l => (scan c t fuel ss).map (l ++ ·)
    else scan c t fuel ss

end Verif.Scan
