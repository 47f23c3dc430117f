import Verif.Model.Cmd
import Verif.Model.PathCmp

/-!
# Restoring, on the client: where things are written

`do_restore_client` in `src/client/restore.c`, `src/client/restore_switch.c`, `mkpath` and `mksock` in
`src/fsops.c`, `attribs_set` in `src/attribs.c`, and the system calls they make, on a file system with
directories, files, symbolic links and hard links.

A path is the list of its parts between slashes; parts can be empty, `.` or `..`. The place of something in
the file system is the list of the names that lead to it from the root, without links.

Simplifications: the restore goes on after errors that would end it, owner and mode can always be changed,
reading data does not fail, nobody else changes the file system, and the code for Windows is left out. Data
written, owners and modes are not part of the file system here; they are in the log of effects.
-/

namespace Verif.Confine
open Verif.PathCmp

abbrev Name := Str

/-- What a name can stand for. Files (also devices, fifos and sockets) have an inode number, so that hard
links can be told. -/
inductive Node where
  | dir
  | file (ino : Nat)
  | lnk (target : Str)
  deriving DecidableEq, Repr

/-- What is at a place. -/
abbrev FS := List Name → Option Node

/-- The parts of a path between slashes. -/
def parts : Str → List Name
  | [] => [[]]
  | c :: cs =>
    if c = slash then [] :: parts cs
    else match parts cs with
      | [] => [[c]]
      | h :: t => (c :: h) :: t

/-- The text of a place, as `realpath` gives it. -/
def toPath : List Name → Str
  | [] => [slash]
  | c :: cs => (c :: cs).flatMap (fun x => slash :: x)

/-- The outcome of looking up a path. `err` is any error but `ENOENT`. -/
inductive Res where
  | ok (p : List Name)
  | noent
  | err
  deriving DecidableEq, Repr

/-- `.` and an empty part (from two slashes, or a slash at the end). -/
def isStay (c : Name) : Bool := c = [] || c = [dot]
/-- `..` -/
def isUp (c : Name) : Bool := c = [dot, dot]

/-- Path resolution (path_resolution(7)), from the directory `cur`. `follow` goes on from a directory after a
link, with the parts of the link put before those that are left. -/
def walkWith (fs : FS) (follow : List Name → List Name → Res) (cur : List Name) : List Name → Res
  | [] => .ok cur
  | c :: cs =>
    if fs cur = some .dir then
      if isStay c then walkWith fs follow cur cs
      else if isUp c then walkWith fs follow cur.dropLast cs
      else match fs (cur ++ [c]) with
        | none => .noent
        | some (.lnk t) => follow (if t.head? = some slash then [] else cur) (parts t ++ cs)
        | some .dir => walkWith fs follow (cur ++ [c]) cs
        | some (.file _) => walkWith fs follow (cur ++ [c]) cs
    else .err

/-- Path resolution where so many links may be followed. -/
def walk (fs : FS) : Nat → List Name → List Name → Res
  | 0 => walkWith fs (fun _ _ => .err)
  | fuel + 1 => walkWith fs (walk fs fuel)

/-- `realpath`. At most 40 links are followed. -/
def realpath (fs : FS) (p : List Name) : Res := walk fs 40 [] p

/-- Where a path leads when the last part is not followed: an entry of a directory, a directory itself (the
last part is empty, `.` or `..`), or nowhere. -/
inductive Loc where
  | entry (d : List Name) (c : Name)
  | self (p : List Name)
  | noent
  | err
  deriving DecidableEq, Repr

/-- Path resolution without following the last part. -/
def locate (fs : FS) (p : List Name) : Loc :=
  match p.getLast? with
  | none => .self []
  | some c =>
    match realpath fs p.dropLast with
    | .noent => .noent
    | .err => .err
    | .ok d =>
      if fs d = some .dir then
        if isStay c then .self d
        else if isUp c then .self d.dropLast
        else .entry d c
      else .err

/-- The place of what exists at a path, without following the last part. -/
def target (fs : FS) (p : List Name) : Option (List Name) :=
  match locate fs p with
  | .entry d c => if (fs (d ++ [c])).isSome then some (d ++ [c]) else none
  | .self q => some q
  | .noent => none
  | .err => none

/-- `lstat`: what is at a path; `none` if the call fails. -/
def lstat (fs : FS) (p : List Name) : Option Node := (target fs p).bind fs

/-- What has been done: an entry of a directory made or removed; data written, under a name, to an inode;
owner or times changed, without following a link; mode or access control list changed, of what a path led
to. -/
inductive Eff where
  | name (p : List Name)
  | data (p : List Name) (ino : Nat)
  | own (p : List Name)
  | mode (p : List Name)
  deriving DecidableEq, Repr

/-- The file system, the next free inode number, and the effects so far, the last first. -/
structure State where
  fs : FS
  next : Nat
  effs : List Eff

/-- A change of what is at a place. -/
def put (fs : FS) (p : List Name) (n : Option Node) : FS := fun q => if q = p then n else fs q

/-- Note an effect. -/
def State.eff (s : State) (e : Eff) : State := { s with effs := e :: s.effs }

/-- A change of an entry of a directory. -/
def State.entry (s : State) (p : List Name) (n : Option Node) : State :=
  { s with fs := put s.fs p n, effs := .name p :: s.effs }

/-- Make something new at a path, if there is nothing: `mkdir`, `symlink`, and, for links, `link`. The
result says whether it worked. -/
def make (s : State) (p : List Name) (n : Node) : Bool × State :=
  match locate s.fs p with
  | .entry d c => if s.fs (d ++ [c]) = none then (true, s.entry (d ++ [c]) (some n)) else (false, s)
  | _ => (false, s)

/-- `mkdir`. -/
def mkdir (s : State) (p : List Name) : Bool × State := make s p .dir

/-- Make a file with a new inode, if there is nothing: `mkfifo`, `mknod`, `bind`, and `open` with `O_CREAT`
for something that is not there. -/
def makeFile (s : State) (p : List Name) : Bool × State :=
  make { s with next := s.next + 1 } p (.file s.next)

/-- `unlink`: `none` for `ENOENT`, `some false` for other errors. -/
def unlink (s : State) (p : List Name) : Option Bool × State :=
  match locate s.fs p with
  | .entry d c =>
    match s.fs (d ++ [c]) with
    | none => (none, s)
    | some .dir => (some false, s)
    | some _ => (some true, s.entry (d ++ [c]) none)
  | .noent => (none, s)
  | _ => (some false, s)

/-- `link`: the old path is not followed, and must not be a directory. -/
def hardLink (s : State) (old new : List Name) : Bool × State :=
  match lstat s.fs old with
  | none => (false, s)
  | some .dir => (false, s)
  | some n => make s new n

/-- `open` with `O_WRONLY|O_NOFOLLOW` for what is there, and writing to it. -/
def writeExisting (s : State) (p : List Name) : Bool × State :=
  match locate s.fs p with
  | .entry d c =>
    match s.fs (d ++ [c]) with
    | some (.file i) => (true, s.eff (.data (d ++ [c]) i))
    | _ => (false, s)
  | _ => (false, s)

/-- The kinds of mode that matter. `other` is a regular file or a device. -/
inductive Mode where
  | dir | lnk | fifo | sock | other
  deriving DecidableEq, Repr

/-- `lchown`, and the other calls that do not follow links. -/
def lchown (s : State) (p : List Name) : Bool × State :=
  match target s.fs p with
  | some q => (true, s.eff (.own q))
  | none => (false, s)

/-- `chmod`, which follows links; also `acl_set_file`. -/
def chmod (s : State) (p : List Name) : Bool × State :=
  match realpath s.fs p with
  | .ok q => (true, s.eff (.mode q))
  | _ => (false, s)

/-- `attribs_set`, `src/attribs.c:310-388`. The mode is the one the server sent. Setting the times does not
follow links, like `lchown`. -/
def attribsSet (s : State) (p : List Name) (m : Mode) : State :=
  match lchown s p with
  | (false, s) => s
  | (true, s) =>
    if m = .lnk then (lchown s p).2
    else match chmod s p with
      | (false, s) => s
      | (true, s) => (lchown s p).2

/-- `mkpath` without a limit, `src/fsops.c:58-130`, on the parts in reverse. -/
def mkpathR (s : State) : List Name → Bool × State
  | [] => (true, s)
  | _ :: rq =>
    if rq = [] then (true, s)
    else if lstat s.fs rq.reverse = none then
      match mkpathR s rq with
      | (false, s) => (false, s)
      | (true, s) => mkdir s rq.reverse
    else (true, s)

/-- `build_path(fname, "", &rpath, NULL)`, `src/fsops.c:132-141`. -/
def mkpath (s : State) (p : List Name) : Bool × State := mkpathR s p.reverse

/-- `mksock`, `src/fsops.c:518-533`, cuts the path to 107 bytes. This is what is left of the parts when `n`
bytes of the text, with a slash before every part, are kept. -/
def cut : Nat → List Name → List Name
  | 0, _ => []
  | _, [] => []
  | n + 1, c :: cs => if c.length ≤ n then c :: cut (n - c.length) cs else [c.take n]

/-- An entry as the server sends it: kind, path, the target of a link and whether it is a hard one
(`sb->link.cmd`), the mode, and for metadata whether there is an access control list in it. -/
structure Entry where
  cmd : Cmd
  path : Str
  link : Str
  hard : Bool
  mode : Mode
  acl : Bool
  deriving DecidableEq, Repr

/-- What `prepend_s(dir, path)` puts after the directory (`src/prepend.c:29-58`): one slash at the start is
dropped, and nothing comes after an empty path. -/
def sub (path : Str) : List Name :=
  let rest := match path with
    | c :: cs => if c = slash then cs else c :: cs
    | [] => []
  if rest = [] then [] else parts rest

/-- The loop of `canonicalise`, `src/client/restore.c:662-691`, on the parts in reverse: how far up one has
to go to find something that exists. The place of that, and the parts below it. -/
def canonLoop (fs : FS) : List Name → List Name → Option (List Name × List Name)
  | [], _ => none
  | c :: rq, rest =>
    match realpath fs rq.reverse with
    | .ok p => some (p, c :: rest)
    | .noent => canonLoop fs rq (c :: rest)
    | .err => none

/-- `canonicalise`, `src/client/restore.c:630-720`: the path to use, or `none` if the entry is refused. -/
def canonicalise (fs : FS) (dir full : List Name) : Option (List Name) :=
  match canonLoop fs full.reverse [] with
  | none => none
  | some (p, rest) =>
    if isSubdir (toPath dir) (toPath p) = 0 then none
    else if rest = [[]] then some p
    else some (p ++ rest)

/-- `overwrite_ok`, `src/client/restore.c:488-535`. -/
def overwriteOk (fs : FS) (overwrite : Bool) (e : Entry) (p : List Name) : Bool :=
  if overwrite then decide (e.cmd ≠ .vssT ∧ e.cmd ≠ .encVssT)
  else if e.mode ≠ .dir ∧ e.cmd ≠ .metadata ∧ e.cmd ≠ .encMetadata ∧ e.cmd ≠ .vss ∧ e.cmd ≠ .encVss then
    if (e.cmd = .file ∨ e.cmd = .encFile) ∧ e.mode = .fifo then true
    else decide (lstat fs p = none)
  else true

/-- `restore_dir`, `src/client/restore.c:327-356`. -/
def restoreDir (s : State) (p : List Name) (m : Mode) : State :=
  match mkpath s p with
  | (false, s) => s
  | (true, s) =>
    if lstat s.fs p = some .dir then attribsSet s p m
    else match mkdir s p with
      | (false, s) => s
      | (true, s) => attribsSet s p m

/-- `restore_link` and `make_link`, `src/client/restore.c:81-124` and `81-124`. -/
def restoreLink (s : State) (dir p : List Name) (e : Entry) : State :=
  match mkpath s p with
  | (false, s) => s
  | (true, s) =>
    let s := (unlink s p).2
    match (if e.hard then hardLink s (dir ++ sub e.link) p else make s p (.lnk e.link)) with
    | (false, s) => s
    | (true, s) => attribsSet s p e.mode

/-- `restore_special`, `src/client/restore.c:256-325`. For fifos and devices it is no error if there is
something already. `mknod` makes no directories and no links. -/
def restoreSpecial (s : State) (p : List Name) (m : Mode) : State :=
  match mkpath s p with
  | (false, s) => s
  | (true, s) =>
    if m = .sock then
      match makeFile s (cut 107 p) with
      | (false, s) => s
      | (true, s) => attribsSet s p m
    else
      match (if m = .dir ∨ m = .lnk then (false, s) else makeFile s p) with
      | (true, s) => attribsSet s p m
      | (false, s) => if (lstat s.fs p).isSome then attribsSet s p m else s

/-- `restore_file_or_get_meta` without metadata, `src/client/restore_switch.c:94-152`, with
`open_for_restore`, `src/client/restore.c:127-228`. The attributes are set when the file is closed and once
more afterwards. -/
def restoreFile (s : State) (p : List Name) (m : Mode) : State :=
  match mkpath s p with
  | (false, s) => s
  | (true, s) =>
    if m = .dir then
      let s := (mkdir s p).2
      match writeExisting s p with
      | (false, s) => s
      | (true, s) => attribsSet (attribsSet s p m) p m
    else
      match unlink s p with
      | (some false, s) => s
      | (_, s) =>
        match makeFile s p with
        | (false, s) => s
        | (true, s) =>
          let s := (writeExisting s p).2
          attribsSet (attribsSet s p m) p m

/-- `restore_metadata`, `src/client/restore_switch.c:154-211`, with `set_extrameta`: extended attributes are
set without following links, access control lists are set on what a link points to. -/
def restoreMeta (s : State) (p : List Name) (m : Mode) (acl : Bool) : State :=
  let s := if m = .dir then restoreDir s p m else s
  match mkpath s p with
  | (false, s) => s
  | (true, s) =>
    let s := if acl then (chmod s p).2 else s
    (lchown s p).2

/-- The second `switch` of `do_restore_client`, `src/client/restore.c:931-957`, with `restore_switch`. -/
def act (s : State) (dir p : List Name) (e : Entry) : State :=
  match e.cmd with
  | .directory => restoreDir s p e.mode
  | .softLink => restoreLink s dir p e
  | .hardLink => restoreLink s dir p e
  | .special => restoreSpecial s p e.mode
  | .file => restoreFile s p e.mode
  | .vssT => restoreFile s p e.mode
  | .encFile => restoreFile s p e.mode
  | .encVssT => restoreFile s p e.mode
  | .efsFile => restoreFile s p e.mode
  | .metadata => restoreMeta s p e.mode e.acl
  | .vss => restoreMeta s p e.mode e.acl
  | .encMetadata => restoreMeta s p e.mode e.acl
  | .encVss => restoreMeta s p e.mode e.acl
  | _ => s

/-- `strstr`: what is before and after the first place where `pat` is found. -/
def strstr (pat : Str) : Str → Option (Str × Str)
  | [] => if pat = [] then some ([], []) else none
  | c :: cs =>
    if pat.isPrefixOf (c :: cs) then some ([], (c :: cs).drop pat.length)
    else (strstr pat cs).map (fun r => (c :: r.1, r.2))

/-- `strip_from_path`, `src/client/restore.c:432-446`. -/
def stripFrom (strip : Str) (path : Str) : Str :=
  if path.length ≤ strip.length then path
  else match strstr strip path with
    | none => path
    | some (a, b) => a ++ b

/-- `strchr(cp, '/') + 1`. -/
def afterSlash : Str → Option Str
  | [] => none
  | c :: cs => if c = slash then some cs else afterSlash cs

/-- `strip_path_components`, `src/client/restore.c:450-486`: `none` if too many components are to be
stripped. -/
def stripComponents : Nat → Str → Option Str
  | 0, p => some p
  | _ + 1, [] => some []
  | n + 1, p => (afterSlash p).bind (stripComponents n)

/-- The options `-s` (0 if not given) and `stripfrompath`. -/
structure Options where
  strip : Nat
  stripFrom : Option Str
  overwrite : Bool
  deriving DecidableEq, Repr

/-- What the options make of an entry, `src/client/restore.c:850-873`. `none`: the entry is left out. -/
def stripped (o : Options) (e : Entry) : Option Entry :=
  (stripComponents o.strip e.path).map fun path =>
    match o.stripFrom with
    | none => { e with path := path }
    | some x => { e with
        path := stripFrom x path
        link := if isAbsolute e.link then stripFrom x e.link else e.link }

/-- The loop of `do_restore_client` for one entry, `src/client/restore.c:819-957`. `dir` is
`restore_desired_dir`. -/
def entryStep (o : Options) (dir : List Name) (s : State) (e : Entry) : State :=
  match stripped o e with
  | none => s
  | some e =>
    match canonicalise s.fs dir (dir ++ sub e.path) with
    | none => s
    | some p => if overwriteOk s.fs o.overwrite e p then act s dir p e else s

/-- A whole restore into the directory `dir`. -/
def restore (o : Options) (dir : List Name) (fs : FS) (next : Nat) (es : List Entry) : State :=
  es.foldl (entryStep o dir) ⟨fs, next, []⟩

end Verif.Confine
