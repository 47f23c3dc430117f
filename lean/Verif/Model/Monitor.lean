import Verif.Model.Auth
import Verif.Model.Seed
import Verif.Model.BackupNumber

/-!
# The status monitor: `src/server/monitor/status_server.c`, `src/server/monitor/cstat.c`, `src/cstat.c` and
`src/server/monitor/json_output.c`

A monitor is a connection of a client to the status port of the server. The server process behind it has a list
of clients. It fills the list from the disk, the main process tells it about children that are at work, and the
monitor sends requests.

Allocation and network writes do not fail. What is written for a monitor is modelled as the fields of the JSON
text, not as the text itself. What a directory of a manifest comes to is a parameter here. Pretty
printing changes white space only.
-/

namespace Verif.Monitor

/-! ### What there is to see -/

/-- The kinds of log and statistics files, `src/bu.h`. -/
inductive Log where
  | backup | restore | verify | backupStats | restoreStats | verifyStats
  deriving DecidableEq, Repr

/-- In the order of `json_send_backup`, `src/server/monitor/json_output.c:257-262`. -/
def Log.all : List Log := [.backup, .restore, .verify, .backupStats, .restoreStats, .verifyStats]

/-- What a monitor calls them, `src/server/monitor/json_output.c:257-262`. -/
def Log.name : Log → Str
  | .backup => bytes "backup"
  | .restore => bytes "restore"
  | .verify => bytes "verify"
  | .backupStats => bytes "backup_stats"
  | .restoreStats => bytes "restore_stats"
  | .verifyStats => bytes "verify_stats"

/-- The file, in `open_backup_log`, `src/server/monitor/json_output.c:112-123`. -/
def Log.file : Log → Str
  | .backup => bytes "log"
  | .restore => bytes "restorelog"
  | .verify => bytes "verifylog"
  | .backupStats => bytes "backup_stats"
  | .restoreStats => bytes "restore_stats"
  | .verifyStats => bytes "verify_stats"

/-- `struct bu`, `src/bu.h`. -/
structure Bu where
  bno : Nat
  timestamp : Int
  /-- the directory of the backup -/
  path : Str
  hardlinked : Bool
  deletable : Bool
  working : Bool
  finishing : Bool
  current : Bool
  manifest : Bool
  /-- the `BU_LOG_` and `BU_STATS_` flags that are set -/
  logs : List Log
  deriving DecidableEq, Repr

/-- What the settings of a client come to, as far as they are looked at here. -/
structure ClientConf where
  restoreClients : List Str
  superClients : List Str
  /-- sorted -/
  labels : List Str
  /-- the directory of the client; `none` if `sdirs_init_from_confs` fails -/
  dir : Option Str
  deriving DecidableEq, Repr

/-- The settings of the monitor, `monitor_cconfs`. They are read when it connects. -/
structure Watcher where
  cname : Option Str
  /-- `super_client`: set when it has switched to another client -/
  superClient : Option Str

/-- The server: the monitor, the text of the main configuration file as it was when the monitor connected, and
what the text of a client's file comes to with that. The text stands for that of a file and of everything it
includes. -/
structure Server where
  who : Watcher
  globalText : Str
  /-- `conf_load_clientconfdir`, from the main text, the name of the client and its text -/
  load : Str → Str → Str → Option ClientConf

/-- The disk at some moment. -/
structure World where
  /-- what `scandir` of `clientconfdir` gives; `none` if it fails -/
  names : Option (List Str)
  /-- modification time of the main configuration file, if it is a regular file -/
  globalTime : Option Int
  /-- modification time and text of the configuration file of a client, if it is a regular file -/
  conf : Str → Option (Int × Str)
  /-- modification time of a directory -/
  dirTime : Str → Option Int
  /-- `bu_get_list_with_working` of a directory -/
  backups : Str → Option (List Bu)
  /-- the lines of a log file -/
  file : Str → Option (List Str)
  /-- what is listed of a manifest for a directory -/
  browse : Str → Str → Option (List Str)

/-! ### The list of clients -/

inductive Run where
  | unset | idle | running
  deriving DecidableEq, Repr

/-- A `struct cntr` in the list of a client. -/
structure Child where
  r : Cntr.Reader
  found : Bool

/-- `struct cstat`, `src/cstat.h`. -/
structure CStat where
  name : Str
  confTime : Int
  permitted : Bool
  labels : List Str
  /-- the directory in `sdirs`. Simplification: empty before the settings have been read, when `sdirs` is
  null. -/
  dir : Str
  dirTime : Int
  run : Run
  cntrs : List Child
  /-- the backups, in the order in which they are seen from where `bu` points to: from the first on or, after
  `cstat_set_backup_list`, from the last back -/
  bus : List Bu

/-- `cstat_alloc` and `cstat_init`, `src/cstat.c:9-21`. -/
def fresh (name : Str) : CStat := ⟨name, 0, false, [], [], 0, .unset, [], []⟩

/-- `cstat_add_to_list`, `src/cstat.c:68-94`. -/
def addToList (new : CStat) : List CStat → List CStat
  | [] => [new]
  | c :: cs => if BackupNumber.strLe c.name new.name then c :: addToList new cs else new :: c :: cs

/-- `cstat_permitted`, `src/server/monitor/cstat.c:17-45`. -/
def permitted (m : Watcher) (name : Str) (cc : ClientConf) : Bool :=
  match m.cname with
  | none => false
  | some me =>
    if name = me then true
    else if m.superClient.isSome then false
    else cc.restoreClients.contains me || cc.superClients.contains me

/-- One entry in the loop of `cstat_get_client_names`, `src/server/monitor/cstat.c:105-122`, with `filter_dot`,
`src/fsops.c:441-448`. -/
def addName (l : List CStat) (name : Str) : List CStat :=
  if name = [dot] ∨ name = [dot, dot] then l
  else if Auth.cnameValid name = .valid then
    if l.any (fun c => decide (c.name = name)) then l else addToList (fresh name) l
  else l

/-- `cstat_get_client_names`, `src/server/monitor/cstat.c:90-133`. `none` is a return of `-1`. -/
def getNames (w : World) (l : List CStat) : Option (List CStat) := w.names.map (fun ns => ns.foldl addName l)

/-- What becomes of a client in the loop of `cstat_reload_from_client_confs`. -/
inductive Reloaded where
  | gone
  | kept (c : CStat)
  | error

/-- The body of the loop of `cstat_reload_from_client_confs`, `src/server/monitor/cstat.c:200-235`, with
`set_cstat_from_conf`, `:71-88`. `unchanged` tells that the time of the main configuration file is the same as
before. -/
def reloadOne (sv : Server) (w : World) (unchanged : Bool) (c : CStat) : Reloaded :=
  match w.conf c.name with
  | none => .gone
  | some (t, text) =>
    if t = c.confTime ∧ unchanged = true then .kept c
    else match sv.load sv.globalText c.name text with
      | none => .kept { c with confTime := t, permitted := false }
      | some cc => match cc.dir with
        | none => .error
        | some d => .kept { c with
            confTime := t, permitted := permitted sv.who c.name cc, dir := d, labels := cc.labels }

/-- One pass of that loop, `src/server/monitor/cstat.c:199-235`: the list, and whether it begins again because a
client has been removed. `done` are the clients in front. -/
def pass (sv : Server) (w : World) (unchanged : Bool) (done : List CStat) :
    List CStat → Option (List CStat × Bool)
  | [] => some (done, false)
  | c :: cs => match reloadOne sv w unchanged c with
    | .gone => some (done ++ cs, true)
    | .kept c' => pass sv w unchanged (done ++ [c']) cs
    | .error => none

/-- The outer loop, `src/server/monitor/cstat.c:197-238`. Each pass but the last removes a client, so as many
passes as there are clients and one more are enough. -/
def passes (sv : Server) (w : World) (unchanged : Bool) : Nat → List CStat → Option (List CStat)
  | 0, l => some l
  | n + 1, l => match pass sv w unchanged [] l with
    | none => none
    | some (l', false) => some l'
    | some (l', true) => passes sv w unchanged n l'

/-- One client in `reload_from_clientdir`, `src/server/monitor/cstat.c:259-285`. -/
def reloadDir (w : World) (c : CStat) : Option CStat :=
  if c.permitted then
    match w.dirTime c.dir with
    | none => some c
    | some t =>
      if t = c.dirTime then some c
      else match w.backups c.dir with
        | none => none
        | some l => some { c with dirTime := t, bus := l }
  else some c

/-- The state of the server process of a monitor. -/
structure State where
  clients : List CStat
  /-- the static `global_mtime` of `cstat_reload_from_client_confs` -/
  globalTime : Int
  /-- the static `response_markers` of `parse_client_data` -/
  markers : Bool
  /-- the version of the peer -/
  peer : Int

/-- `cstat_load_data_from_disk`, `src/server/monitor/cstat.c:291-301`, with
`cstat_reload_from_client_confs`, `:173-242`, and `reload_from_clientdir`, `:255-289`. -/
def loadDisk (sv : Server) (w : World) (st : State) : Option State :=
  (getNames w st.clients).bind fun l =>
  w.globalTime.bind fun g =>
  (passes sv w (decide (g = st.globalTime)) (l.length + 1) l).bind fun l =>
  (l.mapM (reloadDir w)).map fun l => { st with clients := l, globalTime := g }

/-! ### What the main process says -/

/-- `cstat_set_run_status`, `src/server/monitor/cstat.c:244-249`. -/
def setRun (r : Run) (c : CStat) : CStat := if c.permitted then { c with run := r } else c

/-- Change the first element with `p`. -/
def mapFirst {α : Type} (p : α → Bool) (f : α → α) : List α → List α
  | [] => []
  | x :: xs => if p x then f x :: xs else x :: mapFirst p f xs

/-- The children of a client after a line of counters, in `parse_cntr_data`,
`src/server/monitor/status_server.c:44-57`. -/
def countOne (s : Str) (pid : Int) (l : List Child) : Option (List Child) :=
  match l.find? (fun k => decide (k.r.pid = pid)) with
  | none => (Cntr.strToCntr s ⟨true, Cntr.init, pid, 0, 0, none⟩).map (fun r => ⟨r, false⟩ :: l)
  | some k => (Cntr.strToCntr s k.r).map
      (fun r => mapFirst (fun k => decide (k.r.pid = pid)) (fun k => { k with r := r }) l)

/-- `parse_cntr_data`, `src/server/monitor/status_server.c:15-67`. -/
def parseCntr (s : Str) (l : List CStat) : Option (List CStat) :=
  match Cntr.splitFirst Cntr.tab s with
  | none => some l
  | some (_, dp) =>
    let p := Cntr.clientPidBno (dp.takeWhile (fun c => c ≠ Cntr.tab))
    l.mapM fun c =>
      if c.name = p.1 then
        (countOne s p.2.1 (setRun .running c).cntrs).map (fun k => { setRun .running c with cntrs := k })
      else some c

/-- One running child in `parse_clients_list`, `src/server/monitor/status_server.c:109-133`. -/
def listedOne (l : List CStat) (tok : Str) : List CStat :=
  let p := Cntr.clientPidBno tok
  mapFirst (fun c => decide (c.name = p.1))
    (fun c => { setRun .running c with
      cntrs := mapFirst (fun k => decide (k.r.pid = p.2.1))
        (fun k => ⟨{ k.r with bno := p.2.2 }, true⟩) (setRun .running c).cntrs }) l

/-- `parse_clients_list`, `src/server/monitor/status_server.c:90-138`, with `clean_up_cntrs`, `:69-88`. -/
def parseClients (s : Str) (l : List CStat) : List CStat :=
  match Cntr.tokens [] s with
  | [] => l
  | _ :: toks =>
    let l := l.map (fun c =>
      setRun .idle { c with cntrs := c.cntrs.map (fun k => { k with found := false }) })
    (toks.foldl listedOne l).map (fun c => { c with cntrs := c.cntrs.filter (·.found) })

/-- The line with the children at work, `update_status_child_client_lists`, `src/server/main.c:790-815`: for each
the name of the client, the process and the backup. -/
def clientsLine (l : List (Str × Nat × Nat)) : Str :=
  bytes "clients" ++ (l.map (fun x =>
    Cntr.tab :: (x.1 ++ [dot] ++ BackupNumber.decimal x.2.1 ++ [dot] ++ BackupNumber.decimal x.2.2))).flatten

/-- `parse_parent_data`, `src/server/monitor/status_server.c:143-160`. -/
def parseParent (s : Str) (l : List CStat) : Option (List CStat) :=
  if (bytes "cntr").isPrefixOf s then parseCntr s l
  else if (bytes "clients").isPrefixOf s then some (parseClients s l)
  else some l

/-! ### Requests -/

/-- `':'` -/
abbrev colon : Byte := 58

/-- `strtok` called again and again with the separator `:`, in `status_server_parse_cmd`. With each word comes
what follows the separator behind it, if there is one. `cur` is the word so far. -/
def words (cur : Str) : Str → List (Str × Option Str)
  | [] => if cur = [] then [] else [(cur, none)]
  | x :: xs =>
    if x = colon then
      if cur = [] then words [] xs else (cur, some xs) :: words [] xs
    else words (cur ++ [x]) xs

/-- What a request asks for. -/
structure Req where
  command : Option Str
  client : Option Str
  backup : Option Str
  logfile : Option Str
  browse : Option Str
  deriving DecidableEq, Repr

inductive Field where
  | command | client | backup | logfile
  deriving DecidableEq

def Req.put (q : Req) (f : Field) (v : Str) : Req :=
  match f with
  | .command => { q with command := some v }
  | .client => { q with client := some v }
  | .backup => { q with backup := some v }
  | .logfile => { q with logfile := some v }

/-- The loop of `status_server_parse_cmd`, `src/server/monitor/status_server.c:188-219`. `cur` is where the next
word goes to. -/
def parseWords (q : Req) (cur : Option Field) : List (Str × Option Str) → Req
  | [] => q
  | (t, rest) :: ts =>
    match cur with
    | some f => parseWords (q.put f t) none ts
    | none =>
      if t = bytes "j" then parseWords q (some .command) ts
      else if t = bytes "c" then parseWords q (some .client) ts
      else if t = bytes "b" then parseWords q (some .backup) ts
      else if t = bytes "l" then parseWords q (some .logfile) ts
      else if t = bytes "p" then
        match rest with
        | none => q
        | some r => { q with browse := some r }
      else parseWords q none ts

/-- `status_server_parse_cmd`, `src/server/monitor/status_server.c:165-225`. -/
def parseReq (s : Str) : Req := parseWords ⟨none, none, none, none, none⟩ none (words [] s)

/-! ### Answers -/

/-- A child at work, in `do_children`, `src/server/monitor/json_output.c:318-340`. Simplification: the time of
the end, which is set to the present time for display, is that of the line of counters. -/
structure ChildInfo where
  pid : Int
  bno : Int
  /-- `action` and `phase` -/
  status : Int
  counters : List (Cmd × Cntr.Ent)

structure BackupInfo where
  bno : Nat
  timestamp : Int
  flags : List Str
  counters : Option (List (Cmd × Cntr.Ent))
  logs : List Str
  /-- the lines of the log that has been asked for -/
  lines : Option (List Str)
  /-- the entries of the directory that has been asked for -/
  entries : Option (Str × List Str)

structure Info where
  name : Str
  labels : List Str
  run : Run
  /-- `children`, for peers later than 2.1.8 -/
  children : List ChildInfo
  /-- `phase`, for other peers -/
  phase : Option Int
  backups : List BackupInfo

inductive Msg where
  | start (request : Str)
  | finish (request : Str)
  | warning (text : Str)
  | clients (l : List Info)

/-- What making a part of an answer comes to, with the files that are opened for it. -/
inductive Made (α : Type) where
  | ok (a : α) (opened : List Str)
  /-- a file cannot be read: the connection ends, after an answer that is cut short -/
  | failed (opened : List Str)
  /-- a null pointer is followed -/
  | undefined

def Made.bind {α β : Type} (m : Made α) (f : α → Made β) : Made β :=
  match m with
  | .ok a o => match f a with
    | .ok b o' => .ok b (o ++ o')
    | .failed o' => .failed (o ++ o')
    | .undefined => .undefined
  | .failed o => .failed o
  | .undefined => .undefined

/-- All of a list, one after the other. -/
def Made.all {α : Type} : List (Made α) → Made (List α)
  | [] => .ok [] []
  | m :: ms => m.bind fun a => (Made.all ms).bind fun l => .ok (a :: l) []

/-- `version_to_long("2.1.8")`, `src/server/monitor/json_output.c:63`. -/
def v218 : Int := Version.versionToLong (some (bytes "2.1.8"))

/-- `do_counters`, `src/server/monitor/json_output.c:168-216`. -/
def counters (k : Child) : List (Cmd × Cntr.Ent) := Cntr.jsonRows k.r.ent

/-- The flags in `json_send_backup`, `src/server/monitor/json_output.c:233-238`. -/
def flags (b : Bu) : List Str :=
  (if b.hardlinked then [bytes "hardlinked"] else []) ++ (if b.deletable then [bytes "deletable"] else []) ++
  (if b.working then [bytes "working"] else []) ++ (if b.finishing then [bytes "finishing"] else []) ++
  (if b.current then [bytes "current"] else []) ++ (if b.manifest then [bytes "manifest"] else [])

/-- `open_backup_log`, `src/server/monitor/json_output.c:106-137`. -/
def openLog (w : World) (b : Bu) (g : Log) : Made (List Str) :=
  let path := Prepend.prependS (some b.path) g.file
  match w.file path with
  | some l => .ok l [path]
  | none => match w.file (path ++ bytes ".gz") with
    | some l => .ok l [path, path ++ bytes ".gz"]
    | none => .failed [path, path ++ bytes ".gz"]

/-- The log that has been asked for, in `json_send_backup`, `src/server/monitor/json_output.c:265-280`, with
`flag_wrap_str_zp`, `:139-166`. -/
def showLog (w : World) (b : Bu) (logfile : Option Str) : Made (Option (List Str)) :=
  match logfile with
  | none => .ok none []
  | some f => match Log.all.find? (fun g => b.logs.contains g && decide (f = g.name)) with
    | none => .ok none []
    | some g => (openLog w b g).bind fun l => .ok (some l) []

/-- The directory that has been asked for, in `json_send_backup`,
`src/server/monitor/json_output.c:283-295`, with `browse_manifest_start`,
`src/server/monitor/browse.c:59-80`. -/
def showDir (w : World) (b : Bu) (browse : Option Str) : Made (Option (Str × List Str)) :=
  match browse with
  | none => .ok none []
  | some d =>
    let path := Prepend.prependS (some b.path) (bytes "manifest.gz")
    match w.browse path d with
    | some l => .ok (some (d, l)) [path]
    | none => .failed [path]

/-- The counters in `json_send_backup`, `src/server/monitor/json_output.c:241-248`. -/
def showCounters (peer : Int) (c : CStat) (b : Bu) : Made (Option (List (Cmd × Cntr.Ent))) :=
  if (b.working || b.finishing) && decide (peer ≤ v218) then
    match c.cntrs with
    | [] => .undefined
    | k :: _ => .ok (some (counters k)) []
  else .ok none []

/-- `json_send_backup`, `src/server/monitor/json_output.c:218-301`. -/
def showBackup (w : World) (peer : Int) (c : CStat) (logfile browse : Option Str) (b : Bu) : Made BackupInfo :=
  (showCounters peer c b).bind fun k =>
  if b.logs = [] then .ok ⟨b.bno, b.timestamp, flags b, k, [], none, none⟩ []
  else
    (showLog w b logfile).bind fun lines =>
    (showDir w b browse).bind fun entries =>
    .ok ⟨b.bno, b.timestamp, flags b, k, (Log.all.filter (fun g => b.logs.contains g)).map Log.name, lines, entries⟩ []

/-- `json_send_client_start`, `src/server/monitor/json_output.c:342-372`, with `str_array`, `:303-316`, and the
backups that follow. -/
def info (peer : Int) (c : CStat) (backups : List BackupInfo) : Info :=
  ⟨c.name, c.labels, c.run,
    if peer > v218 then c.cntrs.map (fun k => ⟨k.r.pid, k.r.bno, k.r.status, counters k⟩) else [],
    if peer > v218 then none else c.cntrs.head?.map (·.r.status),
    backups⟩

/-- `bu_find_current`, `src/bu.c:82-85`, with `bu_find`, `:67-80`. -/
def findCurrent (l : List Bu) : Option Bu := l.find? (·.current)

/-- `bu_find_working_or_finishing`, `src/bu.c:87-92`. -/
def findWorking (l : List Bu) : Option Bu := (l.find? (·.working)).or (l.find? (·.finishing))

/-- `json_send_client_backup`, `src/server/monitor/json_output.c:382-398`, and `json_send_client_backup_list`,
`:400-418`. -/
def showClient (w : World) (peer : Int) (c : CStat) (logfile browse : Option Str) (l : List Bu) : Made Info :=
  (Made.all (l.map (showBackup w peer c logfile browse))).bind fun bs => .ok (info peer c bs) []

/-- `json_send`, `src/server/monitor/json_output.c:420-458`. -/
def send (w : World) (peer : Int) (clist : List CStat) (c : Option CStat) (b : Option Bu)
    (logfile browse : Option Str) : Made (List Info) :=
  match c with
  | some c => match b with
    | some b => (showClient w peer c logfile browse [b]).bind fun i => .ok [i] []
    | none => (showClient w peer c none none c.bus).bind fun i => .ok [i] []
  | none => Made.all ((clist.filter (·.permitted)).map (fun c =>
      showClient w peer c none none ((findCurrent c.bus).toList ++ (findWorking c.bus).toList)))

/-- `cstat_set_backup_list`, `src/server/monitor/cstat.c:303-324`. -/
def setBackupList (w : World) (c : CStat) : CStat :=
  if c.permitted then { c with bus := ((w.backups c.dir).getD []).reverse } else { c with bus := [] }

/-- What a step of the server process comes to. -/
inductive Out where
  | goesOn (st : State) (msgs : List Msg) (opened : List Str)
  /-- the process, and with it the connection, ends -/
  | ends (opened : List Str)
  | undefined

/-- The commands in `parse_client_data`, `src/server/monitor/status_server.c:272-307`: the new state and the
result; `none` if the connection ends. -/
def command (st : State) (c : Str) : Option (State × Str) :=
  let pv := bytes "peer_version="
  if c = bytes "pretty-print-on" then some (st, bytes "Pretty print on")
  else if c = bytes "pretty-print-off" then some (st, bytes "Pretty print off")
  else if c = bytes "response-markers-on" then some ({ st with markers := true }, bytes "Response markers on")
  else if c = bytes "response-markers-off" then some ({ st with markers := false }, bytes "Response markers off")
  else if pv.isPrefixOf c then
    let v := Version.versionToLong (some (c.drop pv.length))
    if v = 0 then none else some ({ st with peer := v }, bytes "Peer version updated")
  else some (st, bytes "Unknown command")

/-- The answer to a request that is no command, in `parse_client_data`,
`src/server/monitor/status_server.c:320-393`: the list of clients afterwards and a message. -/
def reply (w : World) (st : State) (q : Req) : List CStat × Made Msg :=
  let logfile := if q.browse.isSome then some (bytes "manifest") else q.logfile
  let browse := q.browse.map Seed.stripTrailing
  let rest (clist : List CStat) (c : Option CStat) (b : Option Bu) : Made Msg :=
    match logfile with
    | some f =>
      if f = bytes "manifest" ∨ f ∈ Log.all.map Log.name then
        (send w st.peer clist c b logfile browse).bind fun l => .ok (.clients l) []
      else .ok (.warning (bytes "File not supported")) []
    | none => (send w st.peer clist c b logfile browse).bind fun l => .ok (.clients l) []
  match q.client with
  | none => (st.clients, rest st.clients none none)
  | some name =>
    match st.clients.find? (fun c => decide (c.name = name)) with
    | none => (st.clients, .ok (.warning ((bytes "Could not find client: " ++ name).take 255)) [])
    | some c =>
      let c' := setBackupList w c
      let clist := mapFirst (fun c => decide (c.name = name)) (setBackupList w) st.clients
      match q.backup with
      | none => (clist, rest clist (some c') none)
      | some n =>
        if (Cntr.strtoull n).toNat = 0 then (clist, .ok (.warning (bytes "Could not get backup number")) [])
        else match c'.bus.find? (fun b => decide (b.bno = (Cntr.strtoull n).toNat)) with
          | none => (clist, .ok (.warning (bytes "Backup not found")) [])
          | some b => (clist, rest clist (some c') (some b))

/-- `parse_client_data`, `src/server/monitor/status_server.c:248-406`. -/
def request (w : World) (st : State) (s : Str) : Out :=
  let q := parseReq s
  let framed (st : State) (m : Msg) : List Msg :=
    if st.markers then [.start s, m, .finish s] else [m]
  match q.command with
  | some c => match command st c with
    | none => .ends []
    | some (st', text) => .goesOn st' (framed st' (.warning text)) []
  | none =>
    let r := reply w st q
    let st' := { st with clients := r.1 }
    match r.2 with
    | .ok m opened => .goesOn st' (framed st' m) opened
    | .failed opened => .ends opened
    | .undefined => .undefined

/-! ### The loop -/

/-- Something that happens to the server process of a monitor. -/
inductive Event where
  /-- the disk is read -/
  | disk (w : World)
  /-- the main process sends a line -/
  | parent (s : Str)
  /-- the monitor sends a line -/
  | ask (w : World) (s : Str)

/-- A turn of the loops in `status_server`, `src/server/monitor/status_server.c:513-536`, and `get_initial_data`,
`:454-478`. Which event comes when is not restricted. -/
def step (sv : Server) (st : State) : Event → Out
  | .disk w => match loadDisk sv w st with
    | none => .ends []
    | some st' => .goesOn st' [] []
  | .parent s => match parseParent s st.clients with
    | none => .ends []
    | some l => .goesOn { st with clients := l } [] []
  | .ask w s => request w st s

/-- The beginning, with the version of the peer. -/
def start (peer : Int) : State := ⟨[], 0, false, peer⟩

/-- A history: the state after it; `none` if the process has ended. -/
def runs (sv : Server) (st : State) : List Event → Option State
  | [] => some st
  | e :: es => match step sv st e with
    | .goesOn st' _ _ => runs sv st' es
    | _ => none

end Verif.Monitor
