import Verif.Model.Basic

/-!
# Deduplication: `src/server/bedup.c`

Nothing else changes the storage while the program runs; allocation and the md5 library do not fail.
-/

namespace Verif.Bedup
open Verif

/-- Device and inode. -/
abbrev Ino := Nat × Nat

/-- Regular files: where paths lead, what inodes hold, and how many names they have. `busy` are the paths at
which there is something else (a directory, a socket, …). -/
structure Fs where
  at_ : Str → Option Ino
  busy : Str → Bool
  content : Ino → Str
  nlink : Ino → Nat

/-- `link(old, new)`: fails if there is no `old`, or if there is a `new`. -/
def Fs.link (s : Fs) (old new : Str) : Option Fs :=
  match s.at_ old with
  | none => none
  | some i =>
    if (s.at_ new).isSome || s.busy new then none
    else some { s with at_ := fun p => if p = new then some i else s.at_ p,
                       nlink := fun j => if j = i then s.nlink j + 1 else s.nlink j }

/-- `unlink(p)`. -/
def Fs.unlink (s : Fs) (p : Str) : Option Fs :=
  match s.at_ p with
  | none => none
  | some i => some { s with at_ := fun q => if q = p then none else s.at_ q,
                            nlink := fun j => if j = i then s.nlink j - 1 else s.nlink j }

/-- `rename(old, new)` where there is a file `new`: nothing happens if both are names of the same file. -/
def Fs.rename (s : Fs) (old new : Str) : Option Fs :=
  match s.at_ old, s.at_ new with
  | some i, some j =>
    if i = j then some s
    else some { s with at_ := fun p => if p = old then none else if p = new then some i else s.at_ p,
                       nlink := fun k => if k = j then s.nlink k - 1 else s.nlink k }
  | _, _ => none

/-- `struct file`, src/server/bedup.c:38-47. The checksums, which are kept once they have been computed, are
computed again each time. -/
structure File where
  path : Option Str
  id : Ino
  nlink : Nat
  deriving DecidableEq, Repr

/-- What cannot be known in advance. -/
structure Env where
  /-- The first four bytes of the md5 sum. -/
  md5 : Str → Nat
  /-- Whether a file can be opened, and how many bytes can be read from it. -/
  reads : Str → Option Nat
  /-- Whether linking the temporary name and renaming it to this path work. -/
  linkOk : Str → Bool
  renameOk : Str → Bool
  /-- Whether this path can be removed. -/
  unlinkOk : Str → Bool

/-- The options. -/
structure Opts where
  makelinks : Bool
  deletedups : Bool
  maxlinks : Nat
  ext : Str
  deriving DecidableEq, Repr

/-- What is read from a file; `none` if it cannot be opened. -/
def readFile (env : Env) (s : Fs) (path : Option Str) : Option Str :=
  match path with
  | none => none
  | some p => match env.reads p, s.at_ p with
    | some n, some i => some ((s.content i).take n)
    | _, _ => none

/-- The loop of `full_match`, src/server/bedup.c:168-176, on what can be read. -/
def matchLoop (o n : Str) : Bool :=
  if (o.take 4096).length ≠ (n.take 4096).length then false
  else if o.take 4096 ≠ n.take 4096 then false
  else if (o.take 4096).length < 4096 then true
  else matchLoop (o.drop 4096) (n.drop 4096)
termination_by o.length
decreasing_by simp only [List.length_take, List.length_drop] at *; omega

/-- `get_part_cksum`, src/server/bedup.c:183-231. -/
def partCksum (env : Env) (data : Option Str) : Nat :=
  match data with
  | none => 0
  | some d => env.md5 (d.take 1024)

/-- `get_full_cksum`, src/server/bedup.c:233-276. -/
def fullCksum (env : Env) (data : Option Str) : Nat :=
  match data with
  | none => 0
  | some d => env.md5 d

/-- What `check_files` finds: nothing (and whether the path of the new file was blanked), that the file stays
as it is, or that it is a duplicate of the file with this path. With the memory of files as it is afterwards,
a link being counted already. -/
inductive Found where
  | nothing (path : Option Str)
  | stays (files : List File)
  | duplicate (files : List File) (old : Str)
  deriving DecidableEq, Repr

/-- A file that was passed by goes back to the front. -/
def Found.keep (f : File) : Found → Found
  | .nothing p => .nothing p
  | .stays fs => .stays (f :: fs)
  | .duplicate fs o => .duplicate (f :: fs) o

/-- The loop of `check_files`, src/server/bedup.c:335-447. `full_match(newfile, f, …)` has its arguments the
other way round than its names say: a new file that cannot be opened is blanked, not the old one. -/
def checkLoop (env : Env) (o : Opts) (s : Fs) (new : File) (path : Option Str) : List File → Found
  | [] => .nothing path
  | f :: fs =>
    match f.path with
    | none => (checkLoop env o s new path fs).keep f
    | some old =>
      if new.id.1 ≠ f.id.1 then (checkLoop env o s new path fs).keep f
      else if new.id.2 = f.id.2 then .stays (f :: fs)
      else if new.nlink ≥ o.maxlinks then .stays (f :: fs)
      else
        let nd := readFile env s path
        let od := readFile env s (some old)
        if partCksum env nd ≠ partCksum env od then (checkLoop env o s new path fs).keep f
        else if fullCksum env nd ≠ fullCksum env od then (checkLoop env o s new path fs).keep f
        else match nd, od with
          | none, _ => (checkLoop env o s new none fs).keep f
          | some _, none => (checkLoop env o s new path fs).keep f
          | some a, some b =>
            if !matchLoop a b then (checkLoop env o s new path fs).keep f
            else if f.nlink ≥ o.maxlinks then .stays ({ new with path := path } :: fs)
            else .duplicate ({ f with nlink := if o.makelinks then f.nlink + 1 else f.nlink } :: fs) old

/-- The state of the program: the files by the lower 32 bits of their size (`find_key`, src/server/bedup.c:58-64,
looks for an `int`), the storage, and all the states the storage has been in, latest first. -/
structure St where
  mem : Nat → List File
  fs : Fs
  seen : List Fs

/-- The storage changes. -/
def St.become (t : St) (s : Fs) : St := { t with fs := s, seen := s :: t.seen }

/-- Whether the program goes on. -/
inductive Run where
  | go (t : St)
  | stop (t : St)

def Run.st : Run → St
  | .go t => t
  | .stop t => t

/-- `do_hardlink`, src/server/bedup.c:279-307: the old file gets a temporary name, which is renamed. -/
def doHardlink (env : Env) (o : Opts) (t : St) (path old : Str) : Run :=
  match (if env.linkOk path then t.fs.link old (path ++ o.ext) else none) with
  | none => .stop t
  | some s1 =>
    match (if env.renameOk path then s1.rename (path ++ o.ext) path else none) with
    | some s2 => .go ((t.become s1).become s2)
    | none => match (if env.unlinkOk (path ++ o.ext) then s1.unlink (path ++ o.ext) else none) with
      | some s2 => .stop ((t.become s1).become s2)
      | none => .stop (t.become s1)

/-- The memory for a size is replaced. -/
def St.remember (t : St) (k : Nat) (fs : List File) : St := { t with mem := fun j => if j = k then fs else t.mem j }

/-- One file in `process_dir`, src/server/bedup.c:569-607, with `check_files`, 326-459, `add_file` and
`add_key`, 66-88. -/
def visit (env : Env) (o : Opts) (t : St) (path : Str) : Run :=
  match t.fs.at_ path with
  | none => .go t
  | some i =>
    if (t.fs.content i).length = 0 then .go t
    else
      let k := (t.fs.content i).length % 2 ^ 32
      let new : File := ⟨some path, i, t.fs.nlink i⟩
      match checkLoop env o t.fs new (some path) (t.mem k) with
      | .nothing p => .go (t.remember k ({ new with path := p } :: t.mem k))
      | .stays fs => .go (t.remember k fs)
      | .duplicate fs old =>
        if o.makelinks then doHardlink env o (t.remember k fs) path old
        else if o.deletedups then
          match (if env.unlinkOk path then t.fs.unlink path else none) with
          | none => .go (t.remember k fs)
          | some s => .go ((t.remember k fs).become s)
        else .go (t.remember k fs)

/-- All files, in the order in which they are found. -/
def visitAll (env : Env) (o : Opts) (t : St) : List Str → Run
  | [] => .go t
  | p :: ps => match visit env o t p with
    | .go t' => visitAll env o t' ps
    | .stop t' => .stop t'

/-- A run over a storage. -/
def bedup (env : Env) (o : Opts) (s : Fs) (paths : List Str) : St :=
  (visitAll env o ⟨fun _ => [], s, [s]⟩ paths).st

/-! ### Which files are looked at -/

/-- A tree of files; `other` is anything but a directory or a regular file. -/
inductive Tree where
  | reg
  | other
  | dir (entries : List (Str × Tree))

/-- `level_exclusion`, src/server/bedup.c:497-528. -/
def levelExclusion (level : Nat) (fname working finishing : Str) : Bool :=
  if level = 0 then
    if fname = bytes "lockfile" ∨ fname = bytes "lockfile.bedup" then true
    else if fname = working ∨ fname = finishing then true
    else if fname = bytes "deleteme" then true
    else false
  else if level = 1 then
    (bytes "log").isPrefixOf fname || (bytes "verifylog").isPrefixOf fname ||
      (bytes "restorelog").isPrefixOf fname
  else false

/-- `process_dir`, src/server/bedup.c:531-617: the regular files that are visited, without `.` and `..`. A path
is the list of its names. Directories can be read. -/
def processDir (burp : Bool) (working finishing : Str) (level : Nat) (path : List Str) :
    List (Str × Tree) → List (List Str)
  | [] => []
  | (n, .reg) :: es =>
    (if burp && levelExclusion level n working finishing then [] else [path ++ [n]]) ++
      processDir burp working finishing level path es
  | (_, .other) :: es => processDir burp working finishing level path es
  | (n, .dir es') :: es =>
    (if burp && levelExclusion level n working finishing then []
      else processDir burp working finishing (level + 1) (path ++ [n]) es') ++
      processDir burp working finishing level path es

end Verif.Bedup
