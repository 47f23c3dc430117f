import Verif.Model.SendConf
import Verif.Model.Seed
import Verif.Model.Switch
import Verif.Model.Version

/-!
# Agreeing on features: `src/client/extra_comms.c` and `src/server/extra_comms.c`

Client and server run side by side and talk over a connection that keeps the order of messages in each direction
(C11, C20). Writing never waits. Allocation does not fail. All messages are of type `CMD_GEN`. Upgrading the client
over the connection (`autoupgrade`) is not modelled, nor are the copies of the settings that are kept in the global
settings of the server.
-/

namespace Verif.Negotiate
open Verif.Confs

/-! ### The server -/

/-- What is around the server. -/
structure Host where
  env : Env
  /-- the version of the client (`version_to_long`) -/
  cli : Int
  /-- built with `HAVE_BLAKE2` -/
  blake2 : Bool
  /-- there is a regular file (`is_reg_lstat`) -/
  isFile : Str → Bool
  /-- the lines of a file, `none` if it cannot be read -/
  lines : Str → Option (List Str)
  /-- the settings of a client (`conf_load_clientconfdir`), `none` on errors -/
  load : Str → Option Confs

/-- Where the server is. -/
inductive Phase where
  /-- waits for `extra_comms_begin` -/
  | start
  /-- in the loop of `extra_comms_read` -/
  | reading
  /-- waits for `srestore end ok` -/
  | sentRestore
  /-- waits for `sincexc end ok` -/
  | sentIncludes
  /-- receives settings; these have come so far -/
  | receiving (acc : Option Str)
  /-- has answered `extra_comms_end` -/
  | ended
  /-- has answered `extra_comms_end`, but does not accept the settings for seeding -/
  | refused
  | failed
  deriving DecidableEq, Repr

/-- The state of the server. -/
structure Sv where
  phase : Phase
  confs : Confs
  srestore : Bool := false
  incexc : Option Str := none
  /-- files that have been removed -/
  unlinked : List Str := []

/-- `get_e_rshash`, `src/conf.c:112-116`. -/
def rshash (c : Confs) : Rshash := match c .RSHASH with | .rshash h => h | _ => .unset

/-- `get_restorepath`, `src/server/extra_comms.c:41-50`. -/
def restorePath (c : Confs) : Str :=
  Prepend.prependS (some (Prepend.prependS (getStr c .DIRECTORY) ((getStr c .CNAME).getD []))) (bytes "restore")

/-- `set_restore_path`, `src/server/extra_comms.c:52-68`: the settings. -/
def setRestorePath (h : Host) (c : Confs) : Confs :=
  if h.isFile (restorePath c) then set c .RESTORE_PATH (.str (some (restorePath c))) else c

/-- `append_to_feat`, `src/server/extra_comms.c:21-35`, on condition. -/
def feat (b : Bool) (s : String) : Str := if b then bytes s else []

/-- `send_features`, `src/server/extra_comms.c:81-151`: the list that is sent, from what is offered. -/
def featureList (srestore sincexc counters blake2 : Bool) : Str :=
  bytes "extra_comms_begin ok:autoupgrade:incexc:orig_client:uname:failover:vss_restore:regex_icase:" ++
    feat srestore "srestore:" ++ feat sincexc "sincexc:" ++ feat counters "counters_json:" ++
    bytes "msg:forceproto=1:" ++ feat blake2 "rshash=blake2:" ++ bytes "seed:"

/-- `send_features`, `src/server/extra_comms.c:81-151`. -/
def features (h : Host) (c : Confs) : Str :=
  featureList (getStr (setRestorePath h c) .RESTORE_PATH).isSome
    (decide (getLst c .STARTDIR ≠ [] ∨ getLst c .INCGLOB ≠ []))
    (decide (Version.versionToLong (some (bytes "2.0.46")) ≤ h.cli)) h.blake2

/-- `restore_client_allowed`, `src/conffile.c:1627-1639`, and the permissions of `conf_switch_to_orig_client`,
`src/conffile.c:1679-1713`. `CLIENT_CAN_...` of the new settings. -/
def switchRights (c s : Confs) : Option Confs :=
  let rights := [Opt.CLIENT_CAN_DELETE, .CLIENT_CAN_DIFF, .CLIENT_CAN_LIST, .CLIENT_CAN_MONITOR, .CLIENT_CAN_RESTORE,
    .CLIENT_CAN_VERIFY]
  let me := (getStr c .CNAME).getD []
  if (getLst s .SUPER_CLIENTS).any (fun r => decide (r.path = me)) then
    some (fun o => if o = .CLIENT_CAN_FORCE_BACKUP then .int 0
      else if o ∈ rights then .int (getInt c o) else s o)
  else if (getLst s .RESTORE_CLIENTS).any (fun r => decide (r.path = me)) then
    some (fun o => if o = .CLIENT_CAN_FORCE_BACKUP then .int 0
      else if o ∈ rights ∧ getInt c o = 0 then .int 0 else s o)
  else none

/-- `conf_switch_to_orig_client`, `src/conffile.c:1641-1739`. -/
def switchConfs (h : Host) (c : Confs) (orig : Str) : Option Confs :=
  if (getStr c .CNAME).getD [] = orig then some c
  else match h.load orig with
    | none => none
    | some s =>
      match switchRights c (set s .SEND_CLIENT_CNTR (.int (getInt c .SEND_CLIENT_CNTR))) with
      | none => none
      | some s =>
        let s := set s .CONNECT_CLIENT (.str (getStr c .CONNECT_CLIENT))
        let s := set s .RESTORE_PATH (.str (getStr c .RESTORE_PATH))
        let s := set s .SUPER_CLIENT (.str (getStr s .CNAME))
        some (set s .ORIG_CLIENT (.str (getStr s .CNAME)))

/-- Settings from a file: `conf_parse_incexcs_path`, `src/conffile.c:1356-1363`, by its name. -/
def parsePath (h : Host) (c : Confs) (path : Option Str) : Option Confs :=
  match path.bind h.lines with
  | none => none
  | some ls => match parseIncexcsPath h.env c ls with
    | .ok c => some c
    | _ => none

/-- `strncasecmp("Windows", uname, strlen("Windows"))`, `src/server/extra_comms.c:335`. -/
def isWindows (os : Str) : Bool :=
  decide ((os.take 7).map Auth.toLower = bytes "windows")

/-- What a message asks for. -/
inductive Req where
  | finish | restoreOk | restoreNotOk | includesOk | settings | counters
  | autoupgrade
  | uname (s : Str)
  | origClient (s : Str)
  | ignored
  | blake2
  | message
  | failovers (s : Str)
  | seedSrc (s : Str)
  | seedDst (s : Str)
  | vssOff | vssStrip
  | icase
  | unknown
  deriving DecidableEq, Repr

/-- The tests in `extra_comms_read`, in their order, `src/server/extra_comms.c:241-413`. `strncmp_w`, `src/handy.c`,
compares as many bytes as the second string has. -/
def classify (m : Str) : Req :=
  if m = bytes "extra_comms_end" then .finish
  else if (bytes "autoupgrade:").isPrefixOf m then .autoupgrade
  else if m = bytes "srestore ok" then .restoreOk
  else if m = bytes "srestore not ok" then .restoreNotOk
  else if m = bytes "sincexc ok" then .includesOk
  else if m = bytes "incexc" then .settings
  else if m = bytes "counters_json ok" then .counters
  else if (bytes "uname=").isPrefixOf m ∧ 6 < m.length then .uname (m.drop 6)
  else if (bytes "orig_client=").isPrefixOf m ∧ 12 < m.length then .origClient (m.drop 12)
  else if (bytes "restore_spool=").isPrefixOf m then .ignored
  else if (bytes "rshash=blake2").isPrefixOf m then .blake2
  else if (bytes "msg").isPrefixOf m then .message
  else if (bytes "backup_failovers_left=").isPrefixOf m then .failovers (m.drop 22)
  else if (bytes "seed_src=").isPrefixOf m then .seedSrc (m.drop 9)
  else if (bytes "seed_dst=").isPrefixOf m then .seedDst (m.drop 9)
  else if (bytes "vss_restore=off").isPrefixOf m then .vssOff
  else if (bytes "vss_restore=strip").isPrefixOf m then .vssStrip
  else if (bytes "regex_icase=1").isPrefixOf m then .icase
  else .unknown

/-- The server gives up. -/
def Sv.fail (s : Sv) : Sv × List Str := ({ s with phase := .failed }, [])

/-- The end of `extra_comms`, `src/server/extra_comms.c:503-514`, after `extra_comms_end`. -/
def finishServer (s : Sv) : Sv :=
  let c := if rshash s.confs = .unset then set s.confs .RSHASH (.rshash .md4) else s.confs
  { s with confs := c
           phase := if Seed.checkSeed (getStr c .SEED_SRC) (getStr c .SEED_DST) then .ended else .refused }

/-- One message in the loop of `extra_comms_read`, `src/server/extra_comms.c:230-414`. -/
def readOne (h : Host) (s : Sv) (m : Str) : Sv × List Str :=
  match classify m with
  | .finish => (finishServer s, [bytes "extra_comms_end ok"])
  | .autoupgrade => s.fail
  | .restoreOk =>
    match getStr s.confs .RESTORE_PATH with
    | none => s.fail
    | some path =>
      match parsePath h (set s.confs .INCEXCDIR (.lst [])) (some path) with
      | none => ({ s with phase := .failed, srestore := true }, [])
      | some c => ({ s with confs := c, srestore := true, phase := .sentRestore },
          doSends Flags.incexcRestore c ++ [bytes "srestore end"])
  | .restoreNotOk =>
    ({ s with confs := set s.confs .RESTORE_PATH (.str none)
              unlinked := (getStr s.confs .RESTORE_PATH).toList ++ s.unlinked }, [])
  | .includesOk => ({ s with phase := .sentIncludes }, doSends Flags.incexc s.confs ++ [bytes "sincexc end"])
  | .settings => ({ s with phase := .receiving none }, [bytes "incexc ok"])
  | .counters => ({ s with confs := set s.confs .SEND_CLIENT_CNTR (.int 1) }, [])
  | .uname os => ({ s with confs := if isWindows os then set s.confs .CLIENT_IS_WINDOWS (.int 1) else s.confs }, [])
  | .origClient name =>
    match switchConfs h s.confs name with
    | none => s.fail
    | some c =>
      if s.srestore then
        match parsePath h c (getStr c .RESTORE_PATH) with
        | none => s.fail
        | some c => ({ s with confs := c }, [bytes "orig_client ok"])
      else ({ s with confs := c }, [bytes "orig_client ok"])
  | .ignored => (s, [])
  | .blake2 => if h.blake2 then ({ s with confs := set s.confs .RSHASH (.rshash .blake2) }, []) else s.fail
  | .message => ({ s with confs := set s.confs .MESSAGE (.int 1) }, [])
  | .failovers n => ({ s with confs := set s.confs .BACKUP_FAILOVERS_LEFT (.int (Cntr.atoi n)) }, [])
  | .seedSrc p => match Seed.setupSeed true p with
    | none => s.fail
    | some p => ({ s with confs := set s.confs .SEED_SRC (.str (some p)) }, [])
  | .seedDst p => match Seed.setupSeed false p with
    | none => s.fail
    | some p => ({ s with confs := set s.confs .SEED_DST (.str (some p)) }, [])
  | .vssOff => ({ s with confs := set s.confs .VSS_RESTORE (.int 0) }, [])
  | .vssStrip => ({ s with confs := set s.confs .VSS_RESTORE (.int 1) }, [])
  | .icase => ({ s with confs := set s.confs .REGEX_CASE_INSENSITIVE (.int 1) }, [])
  | .unknown => s.fail

/-- `compression = %d`, `src/server/extra_comms.c:311-322`. -/
def withCompression (c : Confs) (incexc : Str) : Str :=
  incexc ++ bytes "compression = " ++ showInt (getInt c .COMPRESSION) ++ [newline]

/-- The server reads one message. -/
def serverStep (h : Host) (s : Sv) (m : Str) : Sv × List Str :=
  match s.phase with
  | .start =>
    if m = bytes "extra_comms_begin" then
      if h.cli = Version.versionToLong (some (bytes "1.3.0")) then
        ({ s with phase := .reading }, [bytes "extra_comms_begin ok"])
      else ({ s with phase := .reading, confs := setRestorePath h s.confs }, [features h s.confs])
    else s.fail
  | .reading => readOne h s m
  | .sentRestore => if m = bytes "srestore end ok" then ({ s with phase := .reading }, []) else s.fail
  | .sentIncludes => if m = bytes "sincexc end ok" then ({ s with phase := .reading }, []) else s.fail
  | .receiving acc =>
    if m = bytes "incexc end" then
      ({ s with phase := .reading, incexc := some (withCompression s.confs (addToIncexc acc [newline])) },
        [bytes "incexc end ok"])
    else ({ s with phase := .receiving (some (addToIncexc acc m)) }, [])
  | .ended => s.fail
  | .refused => s.fail
  | .failed => s.fail

/-- The beginning of `extra_comms`, `src/server/extra_comms.c:462-475`. -/
def serverStart (h : Host) (c : Confs) : Sv :=
  if h.cli < 0 then ⟨.failed, c, false, none, []⟩
  else
    let c := if h.cli < Version.versionToLong (some (bytes "1.3.6")) then set c .DIRECTORY_TREE (.int 0) else c
    ⟨if h.cli < Version.versionToLong (some (bytes "1.2.7")) then .ended else .start, c, false, none, []⟩

/-! ### The client -/

/-- What is around the client. -/
structure Me where
  env : Env
  /-- built with `HAVE_BLAKE2` -/
  blake2 : Bool
  /-- the name of the operating system, if it is known -/
  os : Option Str
  /-- the number of servers that are left to try -/
  failovers : Nat

/-- What the client has when it is done: what it will do, its settings, and the settings that the server sent. -/
structure Cl where
  act : Act
  confs : Confs
  incexc : Option Str

/-- The client as a program that sends and receives. -/
inductive Prog where
  | send (m : Str) (k : Prog)
  | recv (k : Str → Prog)
  /-- receive settings until this message comes, `incexc_recv`, `src/incexc_recv.c:39-53` -/
  | recvUntil (endreq : Str) (acc : Option Str) (k : Str → Prog)
  | done (r : Cl)
  | failed

/-- `asfd_read_expect`. -/
def expect (m : Str) (k : Prog) : Prog := .recv fun x => if x = m then k else .failed

/-- Send several messages. -/
def sendAll (ms : List Str) (k : Prog) : Prog := ms.foldr Prog.send k

/-- On condition. -/
def sendIf (b : Bool) (m : Str) (k : Prog) : Prog := if b then .send m k else k

/-- `server_supports`, `src/client/extra_comms.c:19-22`. -/
def supports (feat : Str) (s : String) : Bool := Timer.strstr feat (bytes s)

/-- The end, `src/client/extra_comms.c:280-287`. -/
def clientEnd (r : Cl) : Prog := .send (bytes "extra_comms_end") (expect (bytes "extra_comms_end ok") (.done r))

/-- `src/client/extra_comms.c:258-278`. -/
def clientFlags (feat : Str) (c : Confs) (k : Prog) : Prog :=
  sendIf (supports feat ":vss_restore:" && decide (getInt c .VSS_RESTORE = 0)) (bytes "vss_restore=off")
    (sendIf (supports feat ":vss_restore:" && decide (getInt c .VSS_RESTORE = 1)) (bytes "vss_restore=strip")
      (sendIf (supports feat ":regex_icase:" && decide (getInt c .REGEX_CASE_INSENSITIVE ≠ 0)) (bytes "regex_icase=1") k))

/-- `src/client/extra_comms.c:231-256`. -/
def clientSeeds (feat : Str) (c : Confs) (k : Prog) : Prog :=
  match getStr c .SEED_SRC, getStr c .SEED_DST with
  | some src, some dst =>
    if src ≠ [] ∧ dst ≠ [] ∧ supports feat ":seed:" then
      .send (bytes "seed_src=" ++ src) (.send (bytes "seed_dst=" ++ dst) k)
    else k
  | _, _ => k

/-- `src/client/extra_comms.c:214-229`. -/
def clientFailovers (me : Me) (feat : Str) (act : Act) (k : Prog) : Prog :=
  sendIf (supports feat ":failover:" && decide (act = .backup ∨ act = .backupTimed))
    (bytes "backup_failovers_left=" ++ showInt me.failovers) k

/-- `src/client/extra_comms.c:195-229` and what comes after it. -/
def clientRest (me : Me) (feat : Str) (r : Cl) : Prog :=
  let c1 := if supports feat ":msg:" then set r.confs .MESSAGE (.int 1) else r.confs
  let b := me.blake2 && supports feat ":rshash=blake2:"
  let c2 := set c1 .RSHASH (.rshash (if b then .blake2 else .md4))
  sendIf (supports feat ":msg:") (bytes "msg")
    (sendIf b (bytes "rshash=blake2")
      (clientFailovers me feat r.act (clientSeeds feat c2 (clientFlags feat c2 (clientEnd { r with confs := c2 })))))

/-- `src/client/extra_comms.c:166-193` and what comes after it. -/
def clientUname (me : Me) (feat : Str) (r : Cl) : Prog :=
  sendIf (supports feat ":uname:" && me.os.isSome) (bytes "uname=" ++ me.os.getD []) (clientRest me feat r)

/-- `incexc_send_client`, `src/incexc_send.c:102-109`. -/
def sendSettings (c : Confs) (k : Prog) : Prog :=
  .send (bytes "incexc") (expect (bytes "incexc ok")
    (sendAll (doSends Flags.incexc c) (.send (bytes "incexc end") (expect (bytes "incexc end ok") k))))

/-- `src/client/extra_comms.c:159-164` and what comes after it. -/
def clientSettings (me : Me) (feat : Str) (r : Cl) : Prog :=
  if supports feat ":incexc:" then sendSettings r.confs (clientUname me feat r) else clientUname me feat r

/-- `src/client/extra_comms.c:152-157` and what comes after it. -/
def clientCounters (me : Me) (feat : Str) (r : Cl) : Prog :=
  if supports feat ":counters_json:" then
    .send (bytes "counters_json ok")
      (clientSettings me feat { r with confs := set r.confs .SEND_CLIENT_CNTR (.int 1) })
  else clientSettings me feat r

/-- `src/client/extra_comms.c:128-150` and what comes after it. -/
def clientIncludes (me : Me) (feat : Str) (r : Cl) : Prog :=
  if (r.act = .backup ∨ r.act = .backupTimed ∨ r.act = .timerCheck) ∧ r.incexc = none ∧ supports feat ":sincexc:" ∧
      getInt r.confs .SERVER_CAN_OVERRIDE_INCLUDES ≠ 0 then
    .send (bytes "sincexc ok") (.recvUntil (bytes "sincexc end") none fun buf =>
      .send (bytes "sincexc end ok") (match parseIncexcsBuf me.env r.confs buf with
        | .ok c => clientCounters me feat ⟨r.act, c, some buf⟩
        | _ => .failed))
  else clientCounters me feat r

/-- `src/client/extra_comms.c:108-126` and what comes after it. The name is cut to fit into 512 bytes. -/
def clientOrig (me : Me) (feat : Str) (r : Cl) : Prog :=
  match getStr r.confs .ORIG_CLIENT with
  | none => clientIncludes me feat r
  | some o =>
    if supports feat ":orig_client:" then
      .send ((bytes "orig_client=" ++ o).take 511) (expect (bytes "orig_client ok") (clientIncludes me feat r))
    else .failed

/-- `src/client/extra_comms.c:79-106` and what comes after it. -/
def clientRestore (me : Me) (feat : Str) (act : Act) (c : Confs) : Prog :=
  if supports feat ":srestore:" then
    if act = .monitor then clientOrig me feat ⟨act, c, none⟩
    else if getInt c .SERVER_CAN_RESTORE ≠ 0 then
      .send (bytes "srestore ok") (.recvUntil (bytes "srestore end") none fun buf =>
        .send (bytes "srestore end ok") (match parseIncexcsSrestore me.env c buf with
          | .ok c => clientOrig me feat ⟨.restore, c, some buf⟩
          | _ => .failed))
    else .send (bytes "srestore not ok") (clientOrig me feat ⟨act, c, none⟩)
  else clientOrig me feat ⟨act, c, none⟩

/-- `extra_comms_client`, `src/client/extra_comms.c:34-291`. -/
def client (me : Me) (act : Act) (c : Confs) : Prog :=
  .send (bytes "extra_comms_begin") (.recv fun feat =>
    if (bytes "extra_comms_begin ok").isPrefixOf feat then clientRestore me feat act c else .failed)

/-! ### Both together -/

/-- Both sides and what is on its way between them. -/
structure World where
  cl : Prog
  /-- from the client to the server -/
  up : List Str
  sv : Sv
  /-- from the server to the client -/
  down : List Str

/-- The server has left the conversation. -/
def Sv.over (s : Sv) : Prop := s.phase = .ended ∨ s.phase = .refused ∨ s.phase = .failed

instance (s : Sv) : Decidable s.over := by unfold Sv.over; infer_instance

/-- One of the two takes a step. Which one does is up to the schedule. -/
inductive Step (h : Host) : World → World → Prop
  | send (m k up sv down) : Step h ⟨.send m k, up, sv, down⟩ ⟨k, up ++ [m], sv, down⟩
  | recv (k up sv m down) : Step h ⟨.recv k, up, sv, m :: down⟩ ⟨k m, up, sv, down⟩
  | line (e acc k up sv m down) (hm : m ≠ e) :
      Step h ⟨.recvUntil e acc k, up, sv, m :: down⟩ ⟨.recvUntil e (some (addToIncexc acc m)) k, up, sv, down⟩
  | last (e acc k up sv down) :
      Step h ⟨.recvUntil e acc k, up, sv, e :: down⟩ ⟨k (addToIncexc acc [newline]), up, sv, down⟩
  | server (cl m up sv down) (ho : ¬ sv.over) :
      Step h ⟨cl, m :: up, sv, down⟩ ⟨cl, up, (serverStep h sv m).1, down ++ (serverStep h sv m).2⟩

/-- The beginning. -/
def start (h : Host) (me : Me) (act : Act) (c d : Confs) : World := ⟨client me act c, [], serverStart h d, []⟩

end Verif.Negotiate
