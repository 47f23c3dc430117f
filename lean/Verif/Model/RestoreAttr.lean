import Verif.Model.Basic

/-!
# Owners, modes and times of what is restored: `src/client/restore.c`, `src/client/restore_switch.c`, `src/attribs.c`

A file system with inodes, so that hard links share their attributes; making or removing an entry changes
the time of the directory it is in. Paths are lists of names, and there are no symbolic links on the way to
anything: where they lead is the matter of C49. Any system call can fail. Contents, extended attributes,
access control lists, Windows, and sockets with long paths are left out.
-/

namespace Verif.RestoreAttr
open Verif

abbrev Path := List Str

/-- Seconds and nanoseconds. -/
abbrev Time := Nat × Nat

/-- The kind of a file. -/
inductive Kind where
  | file
  | dir
  | link
  | special
  deriving DecidableEq, Repr

/-- What is known of a file. `mode` is the twelve bits of permissions. -/
structure Node where
  kind : Kind
  uid : Nat
  gid : Nat
  mode : Nat
  atime : Time
  mtime : Time
  deriving DecidableEq, Repr

/-- Names and files. `fresh` is an inode that has not been used, `calls` the number of calls so far. -/
structure S where
  dent : Path → Option Nat
  node : Nat → Node
  fresh : Nat
  calls : Nat := 0

/-- What the calls are made in: which of them fail, the time of each, who makes them, and the mode of new
directories. -/
structure World where
  fails : Nat → Bool
  now : Nat → Time
  uid : Nat
  gid : Nat
  dirMode : Nat

/-- A change to a file. -/
def setNode (s : S) (i : Nat) (n : Node) : S :=
  { s with node := fun j => if j = i then n else s.node j }

/-- A change to a name. -/
def setDent (s : S) (p : Path) (o : Option Nat) : S :=
  { s with dent := fun q => if q = p then o else s.dent q }

/-- A call was made. -/
def tick (s : S) : S := { s with calls := s.calls + 1 }

/-- Whether there is a directory. -/
def isDir (s : S) (p : Path) : Bool :=
  match s.dent p with
  | some i => decide ((s.node i).kind = .dir)
  | none => false

/-- The time of a directory when something in it was made or removed. -/
def touch (w : World) (s : S) (p : Path) : S :=
  match s.dent p.dropLast with
  | some i => setNode s i { s.node i with mtime := w.now s.calls }
  | none => s

/-- `mkdir`, `open` with `O_CREAT`, `symlink`, `mkfifo`, `mknod` or `bind`: whether it worked. -/
def create (w : World) (s : S) (p : Path) (k : Kind) (mode : Nat) : Bool × S :=
  if w.fails s.calls ∨ s.dent p ≠ none ∨ p = [] ∨ isDir s p.dropLast = false then (false, tick s)
  else
    let n : Node := ⟨k, w.uid, w.gid, mode, w.now s.calls, w.now s.calls⟩
    (true, touch w { setDent (setNode (tick s) s.fresh n) p (some s.fresh) with fresh := s.fresh + 1 } p)

/-- `unlink`: whether there is nothing now. -/
def unlink (w : World) (s : S) (p : Path) : Bool × S :=
  if w.fails s.calls then (false, tick s)
  else if s.dent p = none then (true, tick s)
  else if isDir s p then (false, tick s)
  else (true, touch w (setDent (tick s) p none) p)

/-- `link`. -/
def link (w : World) (s : S) (t p : Path) : Bool × S :=
  if w.fails s.calls ∨ s.dent p ≠ none ∨ p = [] ∨ isDir s p.dropLast = false ∨ isDir s t then (false, tick s)
  else
    match s.dent t with
    | none => (false, tick s)
    | some i => (true, touch w (setDent (tick s) p (some i)) p)

/-- A call that changes a file that there is. -/
def change (w : World) (s : S) (p : Path) (f : Node → Node) : Bool × S :=
  if w.fails s.calls then (false, tick s)
  else
    match s.dent p with
    | none => (false, tick s)
    | some i => (true, setNode (tick s) i (f (s.node i)))

/-- Without the bits that let a program run as its owner. -/
def dropSetid (k : Kind) (mode : Nat) : Nat := if k = .dir then mode else mode % 0o2000

/-- `lchown`; for anything but a directory it clears those bits. -/
def lchown (w : World) (s : S) (p : Path) (uid gid : Nat) : Bool × S :=
  change w s p fun n => { n with uid := uid, gid := gid, mode := dropSetid n.kind n.mode }

/-- `chmod`. -/
def chmod (w : World) (s : S) (p : Path) (mode : Nat) : Bool × S :=
  change w s p fun n => { n with mode := mode }

/-- `attribs_set_file_times`, src/attribs.c:252-290. -/
def setTimes (w : World) (s : S) (p : Path) (atime mtime : Nat) : Bool × S :=
  change w s p fun n => { n with atime := (atime, 0), mtime := (mtime, 0) }

/-- What the manifest has of `struct stat`. -/
structure Stat where
  kind : Kind
  uid : Nat
  gid : Nat
  mode : Nat
  atime : Nat
  mtime : Nat
  deriving DecidableEq, Repr

/-- `attribs_set`, src/attribs.c:310-391. -/
def attribsSet (w : World) (s : S) (p : Path) (st : Stat) : Bool × S :=
  match lchown w s p st.uid st.gid with
  | (false, s) => (false, s)
  | (true, s) =>
    if st.kind = .link then setTimes w s p st.atime st.mtime
    else
      match chmod w s p st.mode with
      | (false, s) => (false, s)
      | (true, s) => setTimes w s p st.atime st.mtime

/-- `mkpath` without a limit, src/fsops.c:58-130, on the names in reverse: directories are made as far as
there is nothing. -/
def mkpathR (w : World) (s : S) : Path → Bool × S
  | [] => (true, s)
  | _ :: rq =>
    if rq = [] then (true, s)
    else if s.dent rq.reverse = none then
      match mkpathR w s rq with
      | (false, s) => (false, s)
      | (true, s) => create w s rq.reverse .dir w.dirMode
    else (true, s)

/-- `build_path`, src/fsops.c:132-141. -/
def mkpath (w : World) (s : S) (p : Path) : Bool × S := mkpathR w s p.reverse

/-- What is sent for one path. -/
inductive What where
  | file
  | dir
  | symlink
  | hardlink (target : Path)
  | special
  | metadata
  deriving DecidableEq, Repr

/-- An entry of the stream that comes from the server. -/
structure Entry where
  what : What
  path : Path
  stat : Stat
  deriving DecidableEq, Repr

/-- `restore_dir`, src/client/restore.c:327-356. The result says whether nothing failed, here and below;
in the code failures are warnings. -/
def restoreDir (w : World) (s : S) (p : Path) (st : Stat) : Bool × S :=
  match mkpath w s p with
  | (false, s) => (false, s)
  | (true, s) =>
    if isDir s p then attribsSet w s p st
    else
      match create w s p .dir w.dirMode with
      | (false, s) => (false, s)
      | (true, s) => attribsSet w s p st

/-- `restore_file_or_get_meta` for contents, src/client/restore_switch.c:99-152, with `open_for_restore`,
src/client/restore.c:127-233; the attributes are set when the file is closed, src/bfile.c:456-472, and once
more after that, src/client/restore_switch.c:85. -/
def restoreFile (w : World) (s : S) (p : Path) (st : Stat) : Bool × S :=
  match mkpath w s p with
  | (false, s) => (false, s)
  | (true, s) =>
    match unlink w s p with
    | (false, s) => (false, s)
    | (true, s) =>
      match create w s p .file 0o600 with
      | (false, s) => (false, s)
      | (true, s) =>
        -- the contents
        match change w s p (fun n => { n with mtime := w.now s.calls }) with
        | (false, s) => (false, s)
        | (true, s) => attribsSet w (attribsSet w s p st).2 p st

/-- `restore_link`, src/client/restore.c:358-396, with `make_link`, src/client/restore.c:81-124. -/
def restoreLink (w : World) (s : S) (p : Path) (target : Option Path) (st : Stat) : Bool × S :=
  match mkpath w s p with
  | (false, s) => (false, s)
  | (true, s) =>
    let s := (unlink w s p).2
    match (match target with
      | some t => link w s t p
      | none => create w s p .link 0o777) with
    | (false, s) => (false, s)
    | (true, s) => attribsSet w s p st

/-- `restore_special`, src/client/restore.c:256-325: that there is something already is not taken for a
failure, except by `bind`. -/
def restoreSpecial (w : World) (s : S) (p : Path) (st : Stat) : Bool × S :=
  match mkpath w s p with
  | (false, s) => (false, s)
  | (true, s) =>
    match create w s p .special st.mode with
    | (true, s) => attribsSet w s p st
    | (false, s) => if s.dent p ≠ none then attribsSet w s p st else (false, s)

/-- `restore_metadata`, src/client/restore_switch.c:154-211: for a directory it is made first; setting the
metadata changes the times, which are set again. -/
def restoreMetadata (w : World) (s : S) (p : Path) (st : Stat) : Bool × S :=
  match (if st.kind = .dir then restoreDir w s p st else (true, s)) with
  | (false, s) => (false, s)
  | (true, s) =>
    match mkpath w s p with
    | (false, s) => (false, s)
    | (true, s) =>
      match change w s p (fun n => { n with mtime := w.now s.calls }) with
      | (false, s) => (false, s)
      | (true, s) => setTimes w s p st.atime st.mtime

/-- `restore_switch`, src/client/restore_switch.c:213-253, and the cases of `do_restore_client`,
src/client/restore.c:931-957, for one entry. -/
def restoreOne (w : World) (s : S) (e : Entry) : Bool × S :=
  match e.what with
  | .file => restoreFile w s e.path e.stat
  | .dir => restoreDir w s e.path e.stat
  | .symlink => restoreLink w s e.path none e.stat
  | .hardlink t => restoreLink w s e.path (some t) e.stat
  | .special => restoreSpecial w s e.path e.stat
  | .metadata => restoreMetadata w s e.path e.stat

/-- The loop of `do_restore_client`, src/client/restore.c:819-959: all the entries, and for which of them
every call worked. -/
def restoreAll (w : World) (s : S) : List Entry → List (Entry × Bool) × S
  | [] => ([], s)
  | e :: es => ((e, (restoreOne w s e).1) :: (restoreAll w (restoreOne w s e).2 es).1,
      (restoreAll w (restoreOne w s e).2 es).2)

end Verif.RestoreAttr
