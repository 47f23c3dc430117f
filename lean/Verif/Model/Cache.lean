import Verif.Model.Cmd
import Verif.Model.Browse

/-!
# What the status monitor shows of the files of a backup

`src/server/monitor/cache.c`, `src/server/monitor/browse.c`. The manifest is what `manio_read` makes of
it (`Verif.Model.Manifest`): a list of records.
-/

namespace Verif.Cache

/-- `struct stat`: the mode, and the rest of what is shown. -/
structure Stat where
  mode : UInt32
  rest : List UInt64
  deriving DecidableEq, Repr

/-- `S_IFDIR` of the system. -/
abbrev ifdir : UInt32 := 0x4000

/-- `S_ISDIR`: the type of the file, among the bits of `S_IFMT`, is that of a directory. -/
def Stat.isDir (s : Stat) : Bool := s.mode &&& 0xF000 = ifdir

/-- A record of the manifest, as far as it is read here. -/
structure Entry where
  cmd : Cmd
  path : Str
  link : Str
  st : Stat
  deriving DecidableEq, Repr

/-- `struct ent`, `src/server/monitor/cache.c:12-19`. -/
inductive Node where
  | node (name link : Str) (st : Stat) (ents : List Node)
  deriving Repr

/-- `ent->name`. -/
def Node.name : Node → Str
  | .node n _ _ _ => n

/-- `ent->ents`. -/
def Node.ents : Node → List Node
  | .node _ _ _ es => es

/-- What is said about a file: the arguments of `json_from_entry`,
`src/server/monitor/json_output.c:472-491`. -/
structure Shown where
  name : Str
  link : Str
  st : Stat
  deriving DecidableEq, Repr

/-- `result_single`, `src/server/monitor/cache.c:185-189`. -/
def Node.shown : Node → Shown
  | .node n l s _ => ⟨n, l, s⟩

/-- The kinds of records that are shown, `src/server/monitor/cache.c:123-129` and
`src/server/monitor/browse.c:36-42`. -/
def isShown (e : Entry) : Bool :=
  e.cmd = .directory || e.cmd = .file || e.cmd = .encFile || e.cmd = .efsFile || e.cmd = .special ||
    e.cmd.isLink

/-- `strtok(s, "/")` and then `strtok(NULL, "/")` until there is no more; `cur` is the part of the token
that has been read. -/
def strtok (cur : Str) : Str → List Str
  | [] => if cur.isEmpty then [] else [cur]
  | c :: s =>
    if c = slash then (if cur.isEmpty then strtok [] s else cur :: strtok [] s) else strtok (cur ++ [c]) s

/-- `sb->path.buf+sb->path.len!=tok+strlen(tok)` for the last token: there are slashes after it. -/
def trailing (path : Str) : Bool := path.getLast? = some slash

/-- `sb->statp.st_mode&=S_IFDIR`, `src/server/monitor/cache.c:153-161`, when the token is not the end of
the path. -/
def fake (notEnd : Bool) (st : Stat) : Stat :=
  if notEnd then { st with mode := st.mode &&& ifdir } else st

/-- The tokens of a path, from the entries of one directory on,
`src/server/monitor/cache.c:141-164`. The changed `statp` is used for the rest of the path. -/
def put (link : Str) (trail : Bool) : List Str → Stat → List Node → List Node
  | [], _, f => f
  | t :: ts, st, f =>
    match f.getLast? with
    | some (.node n l s es) =>
      if t = n then f.dropLast ++ [.node n l s (put link trail ts st es)]
      else
        let st' := fake (!ts.isEmpty || trail) st
        f ++ [.node t link st' (put link trail ts st' [])]
    | none =>
      let st' := fake (!ts.isEmpty || trail) st
      f ++ [.node t link st' (put link trail ts st' [])]

/-- The static `root`: `ent_alloc("","")`, `src/server/monitor/cache.c:111`. -/
structure Root where
  name : Str
  st : Stat
  ents : List Node
  deriving Repr

/-- One round of `cache_load`, `src/server/monitor/cache.c:113-165`. -/
def addEntry (r : Root) (e : Entry) : Root :=
  if isShown e then
    let r := if r.name.isEmpty ∧ e.path.head? = some slash then { r with st := e.st, name := [slash] } else r
    { r with ents := put e.link (trailing e.path) (strtok [] e.path) e.st r.ents }
  else r

/-- `cache_load`, `src/server/monitor/cache.c:98-174`: what `root` is afterwards. -/
def load (es : List Entry) : Root := es.foldl addEntry ⟨[], ⟨0, []⟩, []⟩

/-- The tokens of what is asked for, `src/server/monitor/cache.c:219-229`: a name that is not there is
passed over. -/
def walk : List Str → List Node → List Node
  | [], f => f
  | t :: ts, f =>
    match f.find? (fun n => n.name = t) with
    | some n => walk ts n.ents
    | none => walk ts f

/-- `cache_lookup`, `src/server/monitor/cache.c:200-235`: what is said. -/
def lookup (r : Root) (browse : Str) : List Shown :=
  if browse.isEmpty then
    if r.name.isEmpty then r.ents.map Node.shown else [⟨r.name, [], r.st⟩]
  else (walk (strtok [] browse) r.ents).map Node.shown

/-- What is remembered: `cached_client`, `cached_bno` and `root`,
`src/server/monitor/cache.c:46-48`. -/
structure Cached where
  client : Str
  bno : Nat
  root : Root

/-- The manifest file of a backup: it cannot be opened, reading it fails after some records, or it is
read to its end. -/
inductive File where
  | missing
  | broken (es : List Entry)
  | whole (es : List Entry)

/-- The answer to a question: `none` is an error. -/
abbrev Answer := Option (List Shown)

/-- `browse_manifest` with the cache, `src/server/monitor/browse.c:82-99`, `browse_manifest_start`,
`src/server/monitor/browse.c:59-80`, `cache_loaded`, `src/server/monitor/cache.c:176-183`. The first
thing `cache_load` does is to forget. -/
def browseCached (c : Option Cached) (client : Str) (bno : Nat) (f : File) (browse : Str) :
    Option Cached × Answer :=
  match c with
  | some k =>
    if client = k.client ∧ k.bno = bno then (c, some (lookup k.root browse))
    else match f with
      | .missing => (c, none)
      | .broken _ => (none, none)
      | .whole es => (some ⟨client, bno, load es⟩, some (lookup (load es) browse))
  | none =>
    match f with
    | .missing => (c, none)
    | .broken _ => (none, none)
    | .whole es => (some ⟨client, bno, load es⟩, some (lookup (load es) browse))

/-- `do_browse_manifest` with `browse_all`, `src/server/monitor/browse.c:14-57`. -/
def dumpAll (f : File) : Answer :=
  match f with
  | .whole es => some ((es.filter isShown).map fun e => ⟨e.path, e.link, e.st⟩)
  | _ => none

/-- `do_browse_manifest` without `browse_all`, `src/server/monitor/browse.c:14-57`: what is answered
without the cache, each name with the kind of file. -/
def direct (es : List Entry) (browse : Str) : List Browse.Ent :=
  (Browse.listLoop (some browse) (fun _ => true) none
    ((es.filter isShown).map fun e => ⟨e.cmd, e.path, e.st.isDir⟩)).1

/-- `browse_manifest` with `monitor_browse_cache` set, `src/server/monitor/browse.c:82-99`. Without it
every question is answered as `Verif.Model.Browse` has it. -/
def browseManifest (c : Option Cached) (client : Str) (bno : Nat) (f : File) (browse : Str) :
    Option Cached × Answer :=
  if browse.head? = some 42 then (c, dumpAll f) else browseCached c client bno f browse

/-- A question that the monitor is asked, and the manifest as it is at that time. -/
structure Question where
  client : Str
  bno : Nat
  file : File
  browse : Str

/-- The monitor answers one question after another. -/
def answers : Option Cached → List Question → List Answer
  | _, [] => []
  | c, q :: qs =>
    let r := browseManifest c q.client q.bno q.file q.browse
    r.2 :: answers r.1 qs

end Verif.Cache
