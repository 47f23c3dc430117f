import Verif.Model.Scan
import Verif.Model.Attribs
import Verif.Model.Sbuf
import Verif.Model.Prepend

/-!
# The first phase of a backup: `src/client/find.c`, `src/client/backup_phase1.c`, `src/server/backup_phase1.c`

The client walks through its file system and tells the server about what it finds; the server writes a list. Other
than in `Verif.Model.Scan`, everything that `find_files` looks at is here: devices, file systems, what cannot be read,
and the `struct stat` that is left over from the file before.

The client runs on Linux. Allocation does not fail, and neither does writing to the network or to a file. The file
system does not change while it is looked at, other than that a name in a directory may be one that `lstat` does not
find.
-/

namespace Verif.Phase1
open Verif.Find Verif.Strlist Verif.Attribs

/-- What `entries_in_directory_alphasort` says, `src/fsops.c:395-459`: the names, that it cannot be opened (1), or an
error (-1). -/
inductive Dir where
  | names (l : List Str)
  | noOpen
  | bad
  deriving DecidableEq, Repr

/-- What the system says about files. -/
structure World where
  lstat : Str → Option Attr
  readlink : Str → Option Str
  entries : Str → Dir
  /-- `f_type` of `statfs` -/
  fstype : Str → Option Int
  /-- `has_extrameta`, `src/client/extrameta.c:12-37`: of a path, and whether it is a directory. -/
  extra : Str → Bool → Bool

/-- The settings that the first phase looks at. `logic` is `is_logic_excluded`. -/
structure Cfg where
  find : Find.Conf
  logic : Str → Attr → Bool
  crossAll : Bool
  fschgdir : List Str
  allFifos : Bool
  fifos : List Str
  allBlockdevs : Bool
  blockdevs : List Str
  nobackup : List Str
  excfs : List Int
  incfs : List Int
  excom : List Str
  compression : Nat
  /-- `scan_problem_raises_error` -/
  raises : Bool
  /-- there is an `encryption_password` -/
  encrypted : Bool

/-- The kind of a file, from `st_mode & S_IFMT`. -/
def kindOf (mode : Int) : Option Kind :=
  let k := mode / 4096 % 16
  if k = 8 then some .reg
  else if k = 4 then some .dir
  else if k = 10 then some .lnk
  else if k = 2 then some .chr
  else if k = 6 then some .blk
  else if k = 1 then some .fifo
  else if k = 12 then some .sock
  else none

/-- What `my_send_file_w` looks at in a `struct stat`. Something of an unknown kind is neither a regular file nor
looked up as a hard link, as a directory. -/
def statOf (a : Attr) : Stat :=
  ⟨(kindOf a.mode).getD .dir, a.nlink.toNat, a.dev.toNat, a.ino.toNat, a.size.toNat⟩

/-- `ff->type` and what `ff->link` has to be for it, `src/client/find.h:52-72`. -/
inductive FType where
  | reg
  | raw
  | fifo
  | dir
  | spec
  | softLink (target : Str)
  | hardLink (target : Str)
  | noFsChange
  | noFollow
  | noStat
  | noOpen
  deriving DecidableEq, Repr

/-- What a warning is about. -/
inductive Problem where
  | noFsChange
  | noFollow
  | noStat
  | noOpen
  | statfs
  | skipped
  deriving DecidableEq, Repr

/-- What the client tells the server. -/
inductive Ev where
  | entry (cmd : Cmd) (a : Attr) (path : Str) (link : Option Str)
  | warn (p : Problem) (path : Str)
  deriving DecidableEq, Repr

/-- `filesymbol`, `src/client/backup_phase1.c:49,234`. -/
def fileSymbol (c : Cfg) : Cmd := if c.encrypted then .encFile else .file

/-- `metasymbol`, `src/client/backup_phase1.c:54,235`. -/
def metaSymbol (c : Cfg) : Cmd := if c.encrypted then .encMetadata else .metadata

/-- The attributes that are sent, `src/client/backup_phase1.c:115-118`. `ENCRYPTION_KEY_DERIVED_AES_CBC_256` is 2. -/
def sentAttr (c : Cfg) (a : Attr) (compression : Nat) : Attr :=
  { a with
    winattr := 0
    compression := compression
    encryption := if c.encrypted then 2 else 0
    salt := 0
    useWinapi := 0 }

/-- `usual_stuff`, `src/client/backup_phase1.c:61-77`, and `do_to_server`, `:104-149`, with `maybe_send_extrameta`,
`:79-91`. -/
def doToServer (c : Cfg) (w : World) (a : Attr) (fname : Str) (cmd : Cmd) (link : Option Str) (compression : Nat) :
    List Ev :=
  .entry cmd (sentAttr c a compression) fname link ::
    (if w.extra fname (decide (cmd = .directory)) then
      [.entry (metaSymbol c) (sentAttr c a compression) fname none] else [])

/-- `ft_err`, `src/client/backup_phase1.c:91-102`: whether it fails. -/
def ftErr (c : Cfg) (fname : Str) (p : Problem) : Bool × List Ev := (!c.raises, [.warn p fname])

/-- `my_send_file`, `src/client/backup_phase1.c:158-218`. The first is false for -1. -/
def mySendFile (c : Cfg) (w : World) (a : Attr) (fname : Str) : FType → Bool × List Ev
  | .reg | .raw | .fifo =>
    (true, doToServer c w a fname (fileSymbol c) none (inExcludeComp c.excom fname c.compression))
  | .dir => (true, doToServer c w a fname .directory none c.compression)
  | .softLink t => (true, doToServer c w a fname .softLink (some t) c.compression)
  | .hardLink t => (true, doToServer c w a fname .hardLink (some t) c.compression)
  | .spec => (true, doToServer c w a fname .special none c.compression)
  | .noFsChange => ftErr c fname .noFsChange
  | .noFollow => ftErr c fname .noFollow
  | .noStat => ftErr c fname .noStat
  | .noOpen => ftErr c fname .noOpen

/-- `ff->statp`, which is not cleared between files, and `linkhash`. -/
structure St where
  statp : Attr
  hash : LinkHash

/-- What `find_files_init` starts from, `src/client/find.c:71-83`: zeros, and an empty table. -/
def St.init : St := ⟨⟨0, 0, 0, 0, 0, 0, 0, 0, 0, 0, 0, 0, 0, 0, 0, 0, 0, 0⟩, fun _ => []⟩

/-- What a function gives back: 0, -1, or that the recursion was deeper than the bound. -/
inductive Ret where
  | ok
  | fail
  | deep
  deriving DecidableEq, Repr

/-- What a function gives back and has told the server. -/
structure Res where
  ret : Ret
  st : St
  out : List Ev

/-- Go on if there was no error. -/
def Res.andThen (r : Res) (f : St → Res) : Res :=
  match r.ret with
  | .ok => ⟨(f r.st).ret, (f r.st).st, r.out ++ (f r.st).out⟩
  | _ => r

/-- The end of `my_send_file_w`, when it calls `my_send_file`. -/
def sent (st : St) (r : Bool × List Ev) : Res := ⟨if r.1 then .ok else .fail, st, r.2⟩

/-- `my_send_file_w`, `src/client/find.c:289-330`: `Find.sendFile` says what becomes of the file. -/
def sendW (c : Cfg) (w : World) (st : St) (fname : Str) (ty : FType) (top : Bool) : Res :=
  match sendFile c.find (fun f _ => c.logic f st.statp) st.hash fname (statOf st.statp) top with
  | (h, .not) => ⟨.ok, { st with hash := h }, []⟩
  | (h, .plain) => sent { st with hash := h } (mySendFile c w st.statp fname ty)
  | (h, .hardlink t) => sent { st with hash := h } (mySendFile c w st.statp fname (.hardLink t))

/-- `fs_change_is_allowed`, `src/client/find.c:230-237`. -/
def fsChangeAllowed (c : Cfg) (fname : Str) : Bool := c.crossAll || c.fschgdir.contains fname

/-- `need_to_read_fifo`, `src/client/find.c:239-246`. -/
def readFifo (c : Cfg) (fname : Str) : Bool := c.allFifos || c.fifos.contains fname

/-- `need_to_read_blockdev`, `src/client/find.c:248-255`. -/
def readBlockdev (c : Cfg) (fname : Str) : Bool := c.allBlockdevs || c.blockdevs.contains fname

/-- `nobackup_directory`, `src/client/find.c:257-272`. -/
def nobackupDir (c : Cfg) (w : World) (path : Str) : Bool :=
  c.nobackup.any (fun n => (w.lstat (Prepend.prependS (some path) n)).isSome)

/-- `fstype_matches`, `src/client/find.c:359-394`: what is told, and whether it gives -1. -/
def fstypeMatches (w : World) (fname : Str) (l : List Int) : List Ev × Bool :=
  match w.fstype fname with
  | none => ([.warn .statfs fname], true)
  | some t => ([], l.contains t)

/-- The test of the type of the file system, `src/client/find.c:556-558`: what is told, and whether the directory is
to be skipped. -/
def fsSkip (c : Cfg) (w : World) (fname : Str) : List Ev × Bool :=
  match fstypeMatches w fname c.excfs with
  | (o, true) => (o, true)
  | (o, false) =>
    if c.incfs = [] then (o, false)
    else (o ++ (fstypeMatches w fname c.incfs).1, !(fstypeMatches w fname c.incfs).2)

/-- The loop over `incexcdir` in `process_entries_in_directory`, `src/client/find.c:467-488`. (The inner loop over
`y` changes nothing.) `find` is `find_files` with the device of the directory. -/
def findIncluded (find : St → Str → Res) (link : Str) : List Elem → St → Res
  | [], st => ⟨.ok, st, []⟩
  | x :: xs, st =>
    if decide (x.flag ≠ 0) && decide (PathCmp.isSubdir link x.path ≠ 0) then
      (find st x.path).andThen (findIncluded find link xs)
    else findIncluded find link xs st

/-- One name, `src/client/find.c:459-489`. -/
def processEntry (find : St → Str → Res) (c : Cfg) (path : Str) (st : St) : Res :=
  if isIncludedNoIncext c.find path then find st path else findIncluded find path c.find.incexcdir st

/-- `process_entries_in_directory`, `src/client/find.c:430-495`. -/
def processEntries (find : St → Str → Res) (c : Cfg) (pre : Str) : List Str → St → Res
  | [], st => ⟨.ok, st, []⟩
  | n :: ns, st => (processEntry find c (pre ++ n) st).andThen (processEntries find c pre ns)

/-- The end of `found_directory`, `src/client/find.c:578-597`. -/
def readDirectory (find : St → Str → Res) (c : Cfg) (w : World) (fname : Str) (top : Bool) (st : St) : Res :=
  match w.entries fname with
  | .names l => processEntries find c (Scan.dirPrefix fname) (Scan.alphasort l) st
  | .noOpen => sendW c w st fname .noOpen top
  | .bad => ⟨.fail, st, []⟩

/-- More told before. -/
def Res.after (o : List Ev) (r : Res) : Res := ⟨r.ret, r.st, o ++ r.out⟩

/-- `found_directory`, `src/client/find.c:550-597`: behind the test for `nobackup`. -/
def enterDirectory (find : St → Str → Res) (c : Cfg) (w : World) (fname : Str) (parent : Int) (top : Bool) (st : St) :
    Res :=
  if top || decide (parent ≠ st.statp.dev) then
    match fsSkip c w fname with
    | (o, true) => .after (o ++ if top then [.warn .skipped fname] else []) (sendW c w st fname .dir top)
    | (o, false) => .after o (
        if !top && !fsChangeAllowed c fname then sendW c w st fname .noFsChange top
        else readDirectory find c w fname top st)
  else readDirectory find c w fname top st

/-- `found_directory`, `src/client/find.c:497-603`. `find` is `find_files` with the device of the directory. -/
def foundDirectory (find : St → Str → Res) (c : Cfg) (w : World) (fname : Str) (parent : Int) (top : Bool) (st : St) :
    Res :=
  (sendW c w st fname .dir top).andThen (fun st =>
    if nobackupDir c w fname then ⟨.ok, st, []⟩ else enterDirectory find c w fname parent top st)

/-- What `found_other` takes something for, `src/client/find.c:605-640`. -/
def otherType (c : Cfg) (fname : Str) (k : Option Kind) : FType :=
  if decide (k = some .blk) && readBlockdev c fname then .raw
  else if decide (k = some .fifo) && readFifo c fname then .fifo
  else .spec

/-- The mode of a symbolic link that is read as a block device, `src/client/find.c:678-679`. -/
def blockMode (mode : Int) : Int := mode - 10 * 4096 + 6 * 4096

/-- `found_soft_link`, `src/client/find.c:339-358`: what it takes the link for. -/
def linkType (w : World) (fname : Str) : FType :=
  match w.readlink fname with
  | none => .noFollow
  | some t => .softLink t

/-- `find_files`, `src/client/find.c:642-692`. The first number bounds the depth. -/
def findFiles (c : Cfg) (w : World) : Nat → (fname : Str) → (parent : Int) → (top : Bool) → St → Res
  | 0, _, _, _, st => ⟨.deep, st, []⟩
  | n + 1, fname, parent, top, st => match w.lstat fname with
    | none => sendW c w st fname .noStat top
    | some a =>
      let st := { st with statp := a }
      match kindOf a.mode with
      | some .reg => sendW c w st fname .reg top
      | some .lnk =>
        if c.blockdevs.contains fname then
          let st := { st with statp := { a with mode := blockMode a.mode } }
          sendW c w st fname (otherType c fname (some .blk)) top
        else sendW c w st fname (linkType w fname) top
      | some .dir => foundDirectory (fun st f => findFiles c w n f a.dev false st) c w fname parent top st
      | k => sendW c w st fname (otherType c fname k) top

/-- `backup_phase1_client`, `src/client/backup_phase1.c:220-258`: all starting directories. -/
def client (c : Cfg) (w : World) (fuel : Nat) : List Elem → St → Res
  | [], st => ⟨.ok, st, []⟩
  | s :: ss, st =>
    if s.flag ≠ 0 then (findFiles c w fuel s.path (-1) true st).andThen (client c w fuel ss)
    else client c w fuel ss st

/-! ### On the wire and on the server -/

/-- The messages of an event: `usual_stuff`, `src/client/backup_phase1.c:61-77`, and `logw`, `src/log.c:238-258`.
`text` makes up the text of a warning. -/
def messages (text : Problem → Str → Str) : Ev → List Iobuf.Rec
  | .entry cmd a p none => [⟨Cmd.attribs.toByte, (encode a).getD []⟩, ⟨cmd.toByte, p⟩]
  | .entry cmd a p (some l) => [⟨Cmd.attribs.toByte, (encode a).getD []⟩, ⟨cmd.toByte, p⟩, ⟨cmd.toByte, l⟩]
  | .warn pr p => [⟨Cmd.warning.toByte, text pr p⟩]

/-- All that the client sends, `do_backup_client`, `src/client/backup.c:45-119`: only if the first phase has
succeeded does it begin the second one, which sends `backupphase2`, `src/client/backup_phase2.c:451-457`. -/
def conversation (text : Problem → Str → Str) (r : Res) : List Iobuf.Rec :=
  (r.out.map (messages text)).flatten ++
    (if r.ret = .ok then [⟨Cmd.gen.toByte, bytes "backupphase2"⟩] else [])

/-- `backup_phase1_server_all`, `src/server/backup_phase1.c:39-107`: the loop, and what is in the list in the end.
`none` is an error: the list is written under another name, and does not get its own. `fow` is `fail_on_warning`,
`warned` whether the client has warned so far (`check_fail_on_warning`, `src/cntr.c:1100-1107`). Quotas are in
`Verif.Model.Quota`. -/
def server (fow : Bool) : (warned : Bool) → (sb : Sbuf.Sbuf) → (out : Str) → List Iobuf.Rec → Option Str
  | _, _, _, [] => none
  | warned, sb, out, r :: rs =>
    let warned := warned || decide (r.cmd = Cmd.warning.toByte)
    match Sbuf.parse sb r with
    | (sb', .needMore) => server fow warned sb' out rs
    | (sb', .complete) => match Sbuf.toManifest out sb' with
      | (out', true) => if fow && warned then none else server fow warned Sbuf.empty out' rs
      | (_, false) => none
    | (_, .finished) => match Iobuf.writeAll out [⟨Cmd.gen.toByte, bytes "phase1end"⟩] with
      | (out', true) => if fow && warned then none else some out'
      | (_, false) => none
    | (_, .error) => none

end Verif.Phase1
