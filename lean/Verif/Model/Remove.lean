import Verif.Model.Confine
import Verif.Model.BackupNumber

/-!
# Deleting on the server

`do_recursive_delete` and what calls it in `src/fsops.c`, `src/server/delete.c`, `src/server/deleteme.c`, with
the file system of `Verif.Model.Confine`: paths are looked up, with links, at every call.
-/

namespace Verif.Remove
open Verif.Confine

/-- System calls that can fail for reasons of their own. -/
inductive Call where
  | first | lstat | opendir | isdir | unlink | rmdir | rename | symlink
  deriving DecidableEq, Repr

/-- What the system decides. -/
structure World where
  /-- the names that can be in a directory, in the order in which `readdir` gives them -/
  names : List Name → List Name
  /-- `readdir` gives the type of what is at a path (`_DIRENT_HAVE_D_TYPE`, and not `DT_UNKNOWN`) -/
  typed : List Name → Bool
  /-- the call fails, though it could have succeeded -/
  fails : Call → List Name → Bool
  /-- `readdir` fails for the directory after so many entries -/
  readErr : List Name → Option Nat

/-- `RECDEL_ERROR`, `RECDEL_OK` and `RECDEL_ENTRIES_REMAINING`, `src/fsops.c:165-167`. -/
inductive Ret where
  | error | ok | remaining
  deriving DecidableEq, Repr

/-- What `readdir` gives for the directory at a place. -/
def entries (w : World) (fs : FS) (q : List Name) : List Name :=
  [dot] :: [dot, dot] :: (w.names q).filter fun n => (fs (q ++ [n])).isSome

/-- There is nothing in the directory at a place. -/
def isEmpty (w : World) (fs : FS) (q : List Name) : Bool :=
  (w.names q).all fun n => (fs (q ++ [n])).isNone

/-- `opendir`: the place of the directory. -/
def opendir (w : World) (fs : FS) (p : List Name) : Option (List Name) :=
  if w.fails .opendir p then none
  else match realpath fs p with
    | .ok q => if fs q = some .dir then some q else none
    | .noent => none
    | .err => none

/-- `is_dir(...)>0`, `src/fsops.c:41-56`, for an entry of the directory at `q`, opened as `p`. -/
def isDir (w : World) (fs : FS) (p q : List Name) (n : Name) : Bool :=
  if w.typed (p ++ [n]) then decide (fs (q ++ [n]) = some .dir)
  else !w.fails .isdir (p ++ [n]) && decide (Confine.lstat fs (p ++ [n]) = some .dir)

/-- `unlink`: whether it worked. -/
def unlink (w : World) (s : State) (p : List Name) : Bool × State :=
  if w.fails .unlink p then (false, s)
  else match Confine.unlink s p with
    | (some true, s') => (true, s')
    | (some false, s') => (false, s')
    | (none, s') => (false, s')

/-- What `rmdir` can come to; `notEmpty` is `ENOTEMPTY`. -/
inductive Rm where
  | ok (s : State)
  | notEmpty
  | err

/-- `rmdir`. -/
def rmdir (w : World) (s : State) (p : List Name) : Rm :=
  if w.fails .rmdir p then .err
  else match locate s.fs p with
    | .entry d c =>
      if s.fs (d ++ [c]) = some .dir then
        if isEmpty w s.fs (d ++ [c]) then .ok (s.entry (d ++ [c]) none) else .notEmpty
      else .err
    | _ => .err

/-- The loop over the entries of a directory, `src/fsops.c:213-259`. `err` counts down to a failure of
`readdir`, `ret` is `ret`; the result says what `ret` is, and whether the end of the directory has been
reached. -/
def loop (w : World) (delfiles : Bool) (rec : State → List Name → Ret × State) (p q : List Name) :
    Option Nat → List Name → Ret → State → (Ret × Bool) × State
  | some 0, _, ret, s => ((ret, false), s)
  | _, [], _, s => ((.ok, true), s)
  | err, n :: ns, ret, s =>
    let err := err.map (· - 1)
    if n = [dot] ∨ n = [dot, dot] then loop w delfiles rec p q err ns ret s
    else if isDir w s.fs p q n then
      match rec s (p ++ [n]) with
      | (.error, s) => ((ret, false), s)
      | (.remaining, s) => loop w delfiles rec p q err ns .remaining s
      | (.ok, s) => loop w delfiles rec p q err ns ret s
    else if delfiles then
      match unlink w s (p ++ [n]) with
      | (true, s) => loop w delfiles rec p q err ns ret s
      | (false, s) => loop w delfiles rec p q err ns .remaining s
    else loop w delfiles rec p q err ns .remaining s

/-- `do_recursive_delete`, `src/fsops.c:177-274`. Directories are at most so many levels deep; below that, it
is an error (in the program, the path would be too long). -/
def del (w : World) (delfiles ignore : Bool) : Nat → State → List Name → Ret × State
  | 0, s, _ => (.error, s)
  | depth + 1, s, p =>
    if w.fails .lstat p ∨ Confine.lstat s.fs p = none then (.ok, s)
    else match opendir w s.fs p with
      | none => (.error, s)
      | some q =>
        match loop w delfiles (del w delfiles ignore depth) p q (w.readErr p) (entries w s.fs q) .error s with
        | ((ret, false), s) => (ret, s)
        | ((ret, true), s) =>
          if ret = .ok then
            match rmdir w s p with
            | .ok s => (.ok, s)
            | .notEmpty => (if ignore then .ok else .error, s)
            | .err => (.error, s)
          else (ret, s)

/-- `recursive_delete`, `src/fsops.c:285-298`. -/
def recursiveDelete (w : World) (depth : Nat) (s : State) (p : List Name) : Ret × State :=
  match (if w.fails .first p then none else Confine.lstat s.fs p) with
  | some .dir => del w true false depth s p
  | none => del w true false depth s p
  | some (.file _) =>
    match unlink w s p with
    | (false, s) => (.remaining, s)
    | (true, s) => del w true false depth s p
  | some (.lnk _) =>
    match unlink w s p with
    | (false, s) => (.remaining, s)
    | (true, s) => del w true false depth s p

/-- `recursive_delete_dirs_only` and `recursive_delete_dirs_only_no_warnings`, `src/fsops.c:300-308`. -/
def dirsOnly (w : World) (ignore : Bool) (depth : Nat) (s : State) (p : List Name) : Ret × State :=
  del w false ignore depth s p

/-- What is at the places when `o` has been moved to `n`. -/
def moved (fs : FS) (o n : List Name) : FS := fun x =>
  if n <+: x then fs (o ++ x.drop n.length) else if o <+: x then none else fs x

/-- `rename`, and `do_rename`, `src/fsops.c:143-154`: the effect is that of both names. Two names of the same
file are not considered. -/
def rename (w : World) (s : State) (old new : List Name) : Bool × State :=
  if w.fails .rename old then (false, s)
  else match locate s.fs old, locate s.fs new with
    | .entry d c, .entry d' c' =>
      let o := d ++ [c]
      let n := d' ++ [c']
      let go : Bool × State := (true, { s with fs := moved s.fs o n, effs := .name n :: .name o :: s.effs })
      if s.fs o = none then (false, s)
      else if o = n then (true, s)
      else if o <+: n ∨ n <+: o then (false, s)
      else if s.fs o = some .dir then
        if s.fs n = none ∨ (s.fs n = some .dir ∧ isEmpty w s.fs n = true) then go else (false, s)
      else if s.fs n = some .dir then (false, s)
      else go
    | _, _ => (false, s)

/-- `struct sdirs`: the directory of the client, and `deleteme`. -/
structure Dirs where
  client : List Name
  deleteme : List Name

/-- `sdirs->current`, `src/server/sdirs.c:125`. -/
def Dirs.current (d : Dirs) : List Name := d.client ++ [bytes "current"]

/-- `sdirs->currenttmp`, `src/server/sdirs.c:126`. -/
def Dirs.currenttmp (d : Dirs) : List Name := d.client ++ [bytes "current.tmp"]

/-- `snprintf(new_name, sizeof(new_name), "%s-%s", cname, bu->basename)`, `src/server/delete.c:22-23`. -/
def newName (cname base : Str) : Str := (cname ++ [45] ++ base).take 255

/-- `do_rename_w`, `src/server/delete.c:17-35`. -/
def renameW (w : World) (s : State) (a b : List Name) (cname base : Str) : Bool × State :=
  let target := b ++ [newName cname base]
  match mkpath s target with
  | (false, s) => (false, s)
  | (true, s) => rename w s a target

/-- `recursive_delete_w`, `src/server/delete.c:37-47`. -/
def recursiveDeleteW (w : World) (depth : Nat) (s : State) (d : Dirs) (manual : Bool) : Bool × State :=
  if manual then (true, s)
  else match recursiveDelete w depth s d.deleteme with
    | (.ok, s) => (true, s)
    | (.error, s) => (false, s)
    | (.remaining, s) => (false, s)

/-- `delete_backup`, `src/server/delete.c:50-101`, for the backup in the directory `base` of the client.
`newest` says that there is no `bu->next`, `prev` is `bu->prev->basename`, `manual` says whether there is a
`manual_delete`. -/
def deleteBackup (w : World) (depth : Nat) (s : State) (d : Dirs) (cname base : Str) (newest : Bool)
    (prev : Option Str) (manual : Bool) : Bool × State :=
  let path := d.client ++ [base]
  match newest, prev with
  | true, none =>
    match renameW w s path d.deleteme cname base with
    | (false, s) => (false, s)
    | (true, s) =>
      match unlink w s d.current with
      | (false, s) => (false, s)
      | (true, s) => recursiveDeleteW w depth s d manual
  | true, some b =>
    let s := (unlink w s d.currenttmp).2
    if w.fails .symlink d.currenttmp then (false, s)
    else match make s d.currenttmp (.lnk b) with
      | (false, s) => (false, s)
      | (true, s) =>
        match renameW w s path d.deleteme cname base with
        | (false, s) => (false, s)
        | (true, s) =>
          match rename w s d.currenttmp d.current with
          | (false, s) => (false, s)
          | (true, s) => recursiveDeleteW w depth s d manual
  | false, _ =>
    match renameW w s path d.deleteme cname base with
    | (false, s) => (false, s)
    | (true, s) => recursiveDeleteW w depth s d manual

/-- `mkpath(&tmp, sdirs->deleteme)`, `src/fsops.c:58-130` with a limit: `deleteme` is made if it is missing
and what it is in is there. -/
def mkpathLimit (s : State) (deleteme : List Name) : Bool × State :=
  if Confine.lstat s.fs deleteme ≠ none then (true, s)
  else if deleteme.dropLast ≠ [] ∧ Confine.lstat s.fs deleteme.dropLast = none then (false, s)
  else mkdir s deleteme

/-- The name with a number, `src/server/deleteme.c:37-39`. -/
def suffixed (path : Name) : Nat → Name
  | 0 => path
  | k + 1 => path ++ [dot] ++ BackupNumber.decimal (k + 1)

/-- The search for a name that is not taken, `src/server/deleteme.c:32-42`, after `k` attempts; `n` more can
be made. -/
def freeName (fs : FS) (deleteme : List Name) (path : Name) : Nat → Nat → Name
  | 0, k => suffixed path k
  | n + 1, k =>
    if Confine.lstat fs (deleteme ++ [suffixed path k]) = none then suffixed path k
    else freeName fs deleteme path n (k + 1)

/-- `deleteme_move`, `src/server/deleteme.c:9-58`. -/
def deletemeMove (w : World) (s : State) (d : Dirs) (fullpath : List Name) (path : Name) : Bool × State :=
  if Confine.lstat s.fs fullpath = none then (true, s)
  else match mkpathLimit s d.deleteme with
    | (false, s) => (false, s)
    | (true, s) =>
      let dest := d.deleteme ++ [freeName s.fs d.deleteme path 100 0]
      let s := (unlink w s (fullpath ++ [bytes "timestamp"])).2
      rename w s fullpath dest

/-- `deleteme_maybe_delete`, `src/server/deleteme.c:60-66`. -/
def maybeDelete (w : World) (depth : Nat) (s : State) (d : Dirs) (manual : Bool) : Bool × State :=
  recursiveDeleteW w depth s d manual

end Verif.Remove
