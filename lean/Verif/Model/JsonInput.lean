import Verif.Model.Monitor
import Verif.Model.Iobuf

/-!
# What a monitor client makes of the answers: `src/client/monitor/json_input.c`

The parser (yajl) calls a function for each piece of the JSON text. The functions keep what they have seen in
global variables, and put together a list of clients with their backups. Here the pieces are the input; what the
text of an answer is, is another matter. Allocation does not fail.

The entries of lists are told apart by a number, which stands for their address: other parts of the program keep
pointers to them.
-/

namespace Verif.JsonInput
open Verif.Monitor

/-- The calls that yajl makes, `callbacks`, `src/client/monitor/json_input.c:517-529`. Nothing is called for
`null`, truth values and fractions. -/
inductive Tok where
  | int (v : Int)
  | str (s : Str)
  | key (s : Str)
  | startMap
  | endMap
  | startArr
  | endArr
  deriving DecidableEq, Repr

/-! ### What the server writes -/

/-- `(long long)`, of a number of 64 bits without a sign. -/
def signed (n : Nat) : Int := if n < 2 ^ 63 then n else (n : Int) - 2 ^ 64

/-- `yajl_gen_str_pair_w`, `src/yajl_gen_w.c:37-42`. -/
def strPair (k : String) (v : Str) : List Tok := [.key (bytes k), .str v]
/-- `yajl_gen_int_pair_w`, `src/yajl_gen_w.c:44-49`. -/
def intPair (k : String) (v : Int) : List Tok := [.key (bytes k), .int v]

/-- `run_status_to_str`, `src/cstat.c:116-127`. -/
def runStr : Run → Str
  | .idle => bytes "idle"
  | .running => bytes "running"
  | .unset => bytes "unknown"

/-- `cntr_status_to_str`, `src/cntr.c:1036-1051`, with the numbers from `src/cntr.h:29-43`. -/
def statusStr (s : Int) : Str :=
  if s = 1 then bytes "scanning" else if s = 2 then bytes "backup" else if s = 3 then bytes "merging"
  else if s = 4 then bytes "shuffling" else if s = 5 then bytes "listing" else if s = 6 then bytes "restoring"
  else if s = 7 then bytes "verifying" else if s = 8 then bytes "deleting" else if s = 9 then bytes "diffing"
  else bytes "unknown"

/-- `cntr_status_to_action_str`, `src/cntr.c:1076-1098`. -/
def actionStr (s : Int) : Str :=
  if 1 ≤ s ∧ s ≤ 4 then bytes "backup" else if s = 5 then bytes "list" else if s = 6 then bytes "restore"
  else if s = 7 then bytes "verify" else if s = 8 then bytes "delete" else if s = 9 then bytes "diff"
  else bytes "unknown"

/-- A row in `do_counters`, `src/server/monitor/json_output.c:176-211`. `field` gives the names of the counters,
from `cntr_init`. -/
def rowToks (field : Cmd → Str) (r : Cmd × Cntr.Ent) : List Tok :=
  [.startMap] ++ strPair "name" (field r.1) ++ strPair "type" [r.1.toByte] ++
    intPair "count" (signed r.2.count.toNat) ++
    (if (r.1, Cntr.Flag.single) ∈ Cntr.table then [] else
      intPair "changed" (signed r.2.changed.toNat) ++ intPair "same" (signed r.2.same.toNat) ++
      intPair "deleted" (signed r.2.deleted.toNat) ++ intPair "scanned" (signed r.2.phase1.toNat)) ++
    [.endMap]

/-- `do_counters`, `src/server/monitor/json_output.c:168-216`. -/
def countersToks (field : Cmd → Str) (rows : List (Cmd × Cntr.Ent)) : List Tok :=
  [.key (bytes "counters"), .startArr] ++ (rows.map (rowToks field)).flatten ++ [.endArr]

/-- A child in `do_children`, `src/server/monitor/json_output.c:324-336`. -/
def childToks (field : Cmd → Str) (k : ChildInfo) : List Tok :=
  [.startMap] ++ intPair "pid" k.pid ++ intPair "backup" k.bno ++ strPair "action" (actionStr k.status) ++
    strPair "phase" (statusStr k.status) ++ countersToks field k.counters ++ [.endMap]

/-- The lines of a log, in `flag_wrap_str_zp`, `src/server/monitor/json_output.c:149-162`. -/
def contentToks (asked : Option Log) (lines : Option (List Str)) : List Tok :=
  match asked, lines with
  | some g, some l => [.key g.name, .startArr] ++ l.map .str ++ [.endArr]
  | _, _ => []

/-- The logs of a backup, in `json_send_backup`, `src/server/monitor/json_output.c:249-282`. -/
def logToks (asked : Option Log) (b : BackupInfo) : List Tok :=
  if b.logs = [] then [] else
    [.key (bytes "logs"), .startMap, .key (bytes "list"), .startArr] ++ b.logs.map .str ++ [.endArr] ++
      contentToks asked b.lines ++
      [.endMap]

/-- `json_send_backup`, `src/server/monitor/json_output.c:218-301`. `asked` is the log whose lines are given.
Simplification: for a listing of a directory, only what comes before the first entry is given. -/
def backupToks (field : Cmd → Str) (asked : Option Log) (b : BackupInfo) : List Tok :=
  [.startMap] ++ intPair "number" (signed b.bno) ++ intPair "timestamp" b.timestamp ++
    [.key (bytes "flags"), .startArr] ++ b.flags.map .str ++ [.endArr] ++
    (match b.counters with
      | some rows => countersToks field rows
      | none => []) ++
    logToks asked b ++
    (match b.entries with
      | some (d, _) => [.key (bytes "browse"), .startMap] ++ strPair "directory" d ++
          [.key (bytes "entries"), .startArr, .endArr, .endMap]
      | none => []) ++
    [.endMap]

/-- `json_send_client_start`, `src/server/monitor/json_output.c:342-372`, and `json_send_client_end`,
`:374-380`, with the backups in between. -/
def clientToks (field : Cmd → Str) (asked : Option Log) (i : Info) : List Tok :=
  [.startMap] ++ strPair "name" i.name ++
    (if i.labels = [] then [] else [.key (bytes "labels"), .startArr] ++ i.labels.map .str ++ [.endArr]) ++
    strPair "run_status" (runStr i.run) ++ intPair "protocol" 1 ++
    (if i.children = [] then [] else
      [.key (bytes "children"), .startArr] ++ (i.children.map (childToks field)).flatten ++ [.endArr]) ++
    (match i.phase with
      | some p => strPair "phase" (statusStr p)
      | none => []) ++
    [.key (bytes "backups"), .startArr] ++ (i.backups.map (backupToks field asked)).flatten ++ [.endArr, .endMap]

/-- An answer: `json_send`, `src/server/monitor/json_output.c:420-458`, or `json_send_msg`, `:493-510`. -/
def msgToks (field : Cmd → Str) (asked : Option Log) : Msg → List Tok
  | .clients l => [.startMap, .key (bytes "clients"), .startArr] ++
      (l.map (clientToks field asked)).flatten ++ [.endArr, .endMap]
  | .warning t => [.startMap] ++ strPair "warning" t ++ [.endMap]
  | .start q => [.startMap] ++ strPair "response-start" q ++ [.endMap]
  | .finish q => [.startMap] ++ strPair "response-end" q ++ [.endMap]

/-! ### What the client keeps -/

/-- The bits of `flags`, `src/bu.h:4-18`. -/
inductive Flag where
  | hardlinked | deletable | working | finishing | current | live | manifest | log (g : Log)
  deriving DecidableEq, Repr

/-- `struct bu`, as far as a client uses it. The bits of the flags are the flags that are in the list. The
timestamp is kept as a text; it is the time here. -/
structure Entry where
  id : Nat
  bno : Nat
  flags : List Flag
  timestamp : Option Int
  /-- the pointer `prev`; `next` is the next one in the list -/
  prev : Option Nat
  deriving DecidableEq, Repr

/-- `struct cntr`, as far as a client uses it. -/
structure Kid where
  id : Nat
  pid : Int
  bno : Int
  phase : Int
  ent : Cntr.Cntr

/-- `struct cstat`, as far as a client uses it. -/
structure Client where
  name : Str
  run : Run
  kids : List Kid
  bus : List Entry

/-- `current`: null, `cnew`, or an entry of the list. -/
inductive Cur where
  | null
  | new
  | old (i : Nat)
  deriving DecidableEq, Repr

/-- `cnew`, `current` and `*cslist`, `src/client/monitor/json_input.c:28-30`. -/
structure Clients where
  cnew : Option Client
  current : Cur
  list : List Client

/-- The other global variables, `src/client/monitor/json_input.c:21-48`, `bu_list`, `:274`, and what is reached through
`sel`. -/
structure St where
  depth : Int
  number : Nat
  timestamp : Option Int
  flags : List Flag
  cl : Clients
  /-- `cntr_ent`: the counters and the character -/
  ent : Option (Nat × Byte)
  lastkey : Str
  inBackups : Bool
  inFlags : Bool
  inCounters : Bool
  inList : Bool
  inContent : Bool
  /-- `*sselbu`, the backup that is selected -/
  sel : Option Nat
  /-- `ll_list`, while they come in, and `*sllines` -/
  coming : List Str
  lines : List Str
  /-- `jsll_list` -/
  loglines : List Str
  /-- `warning_list` -/
  warnings : List Str
  pid : Int
  bno : Int
  phase : Int
  /-- `bu_list` -/
  bus : List Entry
  /-- the next address -/
  next : Nat

/-- At the beginning. -/
def St.init : St where
  depth := 0
  number := 0
  timestamp := none
  flags := []
  cl := ⟨none, .null, []⟩
  ent := none
  lastkey := []
  inBackups := false
  inFlags := false
  inCounters := false
  inList := false
  inContent := false
  sel := none
  coming := []
  lines := []
  loglines := []
  warnings := []
  pid := -1
  bno := 0
  phase := 0
  bus := []
  next := 0

/-- What a call comes to. -/
inductive Out where
  | ok (s : St)
  /-- it returns 0: the parser gives up, and so does the program -/
  | stop
  /-- a null pointer is followed, memory is used that has been given back, or an array is overrun -/
  | undefined

/-- `*current`. -/
def Clients.cur (s : Clients) : Option Client :=
  match s.current with
  | .null => none
  | .new => s.cnew
  | .old i => s.list[i]?

/-- A change of `*current`. -/
def Clients.modCur (s : Clients) (f : Client → Client) : Clients :=
  match s.current with
  | .null => s
  | .new => ⟨s.cnew.map f, .new, s.list⟩
  | .old i => ⟨s.cnew, .old i, s.list.modify i f⟩

/-- The keys that the client knows. -/
inductive Key where
  | pid | backup | count | changed | same | deleted | scanned | number | timestamp | protocol
  | name | type | labels | runStatus | action | phase | flags | counters | list | logs | logline
  | log (g : Log) | warning | backups | other
  deriving DecidableEq, Repr

/-- The texts that `lastkey` is compared with in `src/client/monitor/json_input.c`. The text `backup` is that
of a number as well as that of a log. -/
def keys : List (Str × Key) :=
  [(bytes "pid", .pid), (bytes "backup", .backup), (bytes "count", .count), (bytes "changed", .changed),
   (bytes "same", .same), (bytes "deleted", .deleted), (bytes "scanned", .scanned), (bytes "number", .number),
   (bytes "timestamp", .timestamp), (bytes "protocol", .protocol), (bytes "name", .name), (bytes "type", .type),
   (bytes "labels", .labels), (bytes "run_status", .runStatus), (bytes "action", .action), (bytes "phase", .phase),
   (bytes "flags", .flags), (bytes "counters", .counters), (bytes "list", .list), (bytes "logs", .logs),
   (bytes "logline", .logline), (bytes "restore", .log .restore), (bytes "verify", .log .verify),
   (bytes "backup_stats", .log .backupStats), (bytes "restore_stats", .log .restoreStats),
   (bytes "verify_stats", .log .verifyStats), (bytes "warning", .warning), (bytes "backups", .backups)]

def keyOf (s : Str) : Key := ((keys.find? (fun p => decide (p.1 = s))).map (·.2)).getD .other

/-- The keys of the contents of logs, `src/client/monitor/json_input.c:236-241`. -/
def isLog : Key → Bool
  | .backup => true
  | .log _ => true
  | _ => false

/-- `(unsigned long)` and `(uint64_t)`, of a `long long`. -/
def unsigned (v : Int) : Nat := (v % 2 ^ 64).toNat

/-- `cntr_ent->… = …`. Simplification: the counters are looked for among those of the current client; if they
are not there, memory has been given back, or they are those of another client. -/
def setEnt (s : St) (f : Cntr.Ent → Cntr.Ent) : Out :=
  match s.ent with
  | none => .stop
  | some (id, ch) =>
    match s.cl.cur with
    | none => .undefined
    | some c =>
      if c.kids.any (fun k => decide (k.id = id)) then
        .ok { s with cl := s.cl.modCur (fun c => { c with kids := c.kids.map (fun k =>
          if k.id = id then { k with ent := Cntr.upd k.ent ch f } else k) }) }
      else .undefined

/-- `input_integer`, `src/client/monitor/json_input.c:60-133`. -/
def integer (s : St) (v : Int) : Out :=
  let u : UInt64 := UInt64.ofNat (unsigned v)
  match keyOf s.lastkey with
  | .pid => .ok { s with pid := v }
  | .backup => .ok { s with bno := v }
  | k =>
    if s.inCounters then
      match k with
      | .count => setEnt s (fun e => { e with count := u })
      | .changed => setEnt s (fun e => { e with changed := u })
      | .same => setEnt s (fun e => { e with same := u })
      | .deleted => setEnt s (fun e => { e with deleted := u })
      | .scanned => setEnt s (fun e => { e with phase1 := u })
      | _ => .stop
    else if s.inBackups && !s.inFlags && !s.inList then
      if s.cl.current = .null then .stop
      else match k with
        | .number => .ok { s with number := unsigned v }
        | .timestamp => .ok { s with timestamp := some v }
        | _ => .stop
    else if k = .protocol then .ok s
    else .stop

/-- `run_str_to_status`, `src/cstat.c:129-136`. -/
def runOf (s : Str) : Run :=
  if s = bytes "idle" then .idle else if s = bytes "running" then .running else .unset

/-- `cntr_str_to_status`, `src/cntr.c:1053-1074`. -/
def statusOf (s : Str) : Int :=
  if s = bytes "scanning" then 1 else if s = bytes "backup" then 2 else if s = bytes "merging" then 3
  else if s = bytes "shuffling" then 4 else if s = bytes "listing" then 5 else if s = bytes "restoring" then 6
  else if s = bytes "verifying" then 7 else if s = bytes "deleting" then 8 else if s = bytes "diffing" then 9
  else 0

/-- The flags, `src/client/monitor/json_input.c:203-208`. -/
def flagOf (s : Str) : Option Flag :=
  if s = bytes "hardlinked" then some .hardlinked else if s = bytes "deletable" then some .deletable
  else if s = bytes "working" then some .working else if s = bytes "finishing" then some .finishing
  else if s = bytes "current" then some .current else if s = bytes "manifest" then some .manifest
  else none

/-- The logs, `src/client/monitor/json_input.c:217-222`. -/
def logOf (s : Str) : Option Flag := (Log.all.find? (fun g => decide (g.name = s))).map .log

/-- `input_string`, `src/client/monitor/json_input.c:135-263`. -/
def string (s : St) (val : Str) : Out :=
  let str := Iobuf.cstr val
  let k := keyOf s.lastkey
  if s.inCounters then
    match k with
    | .name => .ok s
    | .type =>
      match s.cl.cur with
      | none => .stop
      | some c => match c.kids with
        | [] => .stop
        | kid :: _ =>
          let ch := str.headD 0
          .ok { s with ent := if Cntr.has ch then some (kid.id, ch) else none }
    | _ => .stop
  else match k with
    | .name =>
      if s.cl.cnew.isSome then .stop
      else match s.cl.list.findIdx? (fun c => decide (c.name = str)) with
        | some i => .ok { s with cl := (⟨s.cl.cnew, .old i, s.cl.list⟩ : Clients).modCur (fun c => { c with kids := [] }) }
        | none => .ok { s with cl := ⟨some ⟨str, .unset, [], []⟩, .new, s.cl.list⟩ }
    | .labels => if s.cl.current = .null then .stop else .ok s
    | .runStatus => if s.cl.current = .null then .stop else .ok { s with cl := s.cl.modCur (fun c => { c with run := runOf str }) }
    | .action => .ok s
    | .phase => if s.cl.current = .null then .stop else .ok { s with phase := statusOf str }
    | .flags =>
      if s.cl.current = .null then .stop
      else match flagOf str with
        | some f => .ok { s with flags := s.flags ++ [f] }
        | none => .stop
    | .counters => .ok s
    | .list => match logOf str with
        | some f => .ok { s with flags := s.flags ++ [f] }
        | none => .stop
    | .logs => .ok s
    | .logline => .ok { s with loglines := s.loglines ++ [str] }
    | .warning => .ok { s with warnings := s.warnings ++ [str] }
    | k => if isLog k then .ok { s with coming := s.coming ++ [str] } else .stop

/-- `input_map_key`, `src/client/monitor/json_input.c:265-272`. The array has 32 bytes, and the length is not
looked at. -/
def mapKey (s : St) (val : Str) : Out :=
  if val.length + 1 ≤ 32 then .ok { s with lastkey := Iobuf.cstr val } else .undefined

/-- `add_to_bu_list`, `src/client/monitor/json_input.c:276-303`. Simplification: the pointers `prev` of the new
list are not kept; they are set when an entry comes into the list of the client. -/
def addToBuList (s : St) : St :=
  if s.number = 0 then s
  else { s with
    bus := s.bus ++ [⟨s.next, s.number, s.flags, s.timestamp, none⟩]
    next := s.next + 1
    number := 0
    flags := []
    timestamp := none }

/-- `o->next->prev=…`, if there is a next one. -/
def setPrev (p : Option Nat) : List Entry → List Entry
  | [] => []
  | e :: es => { e with prev := p } :: es

/-- The first loop of `merge_bu_lists`, `src/client/monitor/json_input.c:374-429`. `kept` are the entries before
`o`, the last one first; the first of them is `lasto`. Result: the list of the client, the new list and the
selected backup. When the very first one is taken away, `o` becomes null, and the loop ends. -/
def mergeOld (sel : Option Nat) (kept : List Entry) (new : List Entry) :
    List Entry → List Entry × List Entry × Option Nat
  | [] => (kept.reverse, new, sel)
  | o :: rest =>
    match new.find? (fun n => decide (o.bno = n.bno)) with
    | some n => mergeOld sel ({ o with flags := n.flags, timestamp := n.timestamp } :: kept)
        (new.eraseP (fun n => decide (o.bno = n.bno))) rest
    | none =>
      let sel := if sel = some o.id then none else sel
      match kept with
      | l :: ls => mergeOld sel (l :: ls) new (setPrev (some l.id) rest)
      | [] => (setPrev none rest, new, sel)
termination_by l => l.length
decreasing_by
  · simp
  · cases rest <;> simp [setPrev]

/-- The place of an entry of the new list, in `merge_bu_lists`, `src/client/monitor/json_input.c:436-456`. `last`
is `lasto`. -/
def place (n : Entry) (last : Option Nat) : List Entry → List Entry
  | [] => [{ n with prev := last }]
  | o :: os =>
    if n.bno < o.bno then o :: place n (some o.id) os
    else { n with prev := last } :: (if last = none then { o with prev := some n.id } else o) :: os

/-- `merge_bu_lists`, `src/client/monitor/json_input.c:367-459`. -/
def mergeBuLists (sel : Option Nat) (old new : List Entry) : List Entry × Option Nat :=
  let r := mergeOld sel [] new old
  (r.2.1.foldl (fun l n => place n none l) r.1, r.2.2)

/-- `update_live_counter_flag`, `src/client/monitor/json_input.c:461-473`. -/
def updateLive (c : Client) : Client :=
  { c with bus := c.bus.map (fun b =>
      if c.kids.any (fun k => decide (b.bno = unsigned k.bno)) then { b with flags := b.flags ++ [.live] } else b) }

/-- `cstat_add_to_list`, `src/cstat.c:68-94`. -/
def addToList (new : Client) : List Client → List Client
  | [] => [new]
  | c :: cs => if BackupNumber.strLe c.name new.name then c :: addToList new cs else new :: c :: cs

/-- A new client comes into the list, in `input_end_array`, `src/client/monitor/json_input.c:488-493`. -/
def Clients.close (s : Clients) : Clients :=
  ⟨none, .null, match s.cnew with
    | some c => addToList c s.list
    | none => s.list⟩

/-- `input_end_map`, `src/client/monitor/json_input.c:312-321`. -/
def endMap (s : St) : Out :=
  let s := { s with depth := s.depth - 1 }
  if s.inBackups && !s.inFlags && !s.inCounters && !s.inList then .ok (addToBuList s) else .ok s

/-- The counters of a child, `src/client/monitor/json_input.c:336-349`, with `cstat_add_cntr_to_list`,
`src/cstat.c:35-39`. `now` is the time, which `cntr_init` puts in. -/
def startCounters (now : UInt64) (s : St) : Out :=
  match s.cl.cur with
  | none => .undefined
  | some c =>
    if c.kids.any (fun k => decide (k.pid = s.pid)) then
      match c.kids.find? (fun k => decide (k.pid = s.pid)) with
      | none => .undefined
      | some k => .ok { s with inCounters := true, cl := s.cl.modCur (fun c => { c with kids := c.kids.map (fun k' =>
          if k'.id = k.id then { k' with bno := s.bno, phase := s.phase } else k') }) }
    else
      let k : Kid := ⟨s.next, s.pid, s.bno, s.phase, Cntr.setCount Cntr.init Cmd.timestamp.toByte now⟩
      .ok { s with inCounters := true, next := s.next + 1, cl := s.cl.modCur (fun c => { c with kids := k :: c.kids }) }

/-- `input_start_array`, `src/client/monitor/json_input.c:323-365`. -/
def startArr (now : UInt64) (s : St) : Out :=
  match keyOf s.lastkey with
  | .backups => .ok { s with inBackups := true }
  | .flags => .ok { s with inFlags := true }
  | .counters => startCounters now s
  | .list => .ok { s with inList := true }
  | k => if isLog k then .ok { s with inContent := true } else .ok s

/-- `input_end_array`, `src/client/monitor/json_input.c:475-515`. -/
def endArr (s : St) : Out :=
  if s.inBackups && !s.inFlags && !s.inCounters && !s.inList then
    let s := addToBuList { s with inBackups := false }
    match s.cl.cur with
    | none => .undefined
    | some c =>
      let m := mergeBuLists s.sel c.bus s.bus
      let cl := s.cl.modCur (fun c => updateLive { c with bus := m.1 })
      .ok { s with
        sel := m.2
        bus := []
        cl := cl.close }
  else if s.inFlags then .ok { s with inFlags := false }
  else if s.inCounters then .ok { s with inCounters := false }
  else if s.inList then .ok { s with inList := false }
  else if s.inContent then .ok { s with inContent := false, lines := s.coming, coming := [] }
  else .ok s

/-- A call. `now` is the time. -/
def step (now : UInt64) (s : St) : Tok → Out
  | .int v => integer s v
  | .str v => string s v
  | .key v => mapKey s v
  | .startMap => .ok { s with depth := s.depth + 1 }
  | .endMap => endMap s
  | .startArr => startArr now s
  | .endArr => endArr s

/-- The calls, one after the other. -/
def feed (now : UInt64) (s : St) : List Tok → Out
  | [] => .ok s
  | t :: ts => match step now s t with
    | .ok s' => feed now s' ts
    | o => o

/-- What `json_input` returns, `src/client/monitor/json_input.c:600-614`, when the parser has gone through what
there was: 0 if there is more to come, 1 at the end of a text, 2 if there are warnings. -/
def result (s : St) : Int := if s.depth = 0 then (if s.warnings = [] then 1 else 2) else 0

end Verif.JsonInput
