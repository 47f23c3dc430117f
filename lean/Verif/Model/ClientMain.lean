import Verif.Model.Cntr
import Verif.Model.RunAction

/-!
# The client as a whole: scripts, answers of the server, other servers, exit codes

`src/client/main.c`, and `src/run_script.c` as far as arguments and return values are concerned. What scanning, sending,
restoring and so on do is a result here: other modules say more about them. Logging, sleeping and freeing are left out.
-/

namespace Verif.ClientMain
open Verif RunAction

/-- `enum action`. All kinds of listing are one, and so are all kinds of comparing; status is one. -/
inductive Act where
  | backup | timed | check | restore | verify | list | diff | delete | monitor | estimate | status
  deriving DecidableEq, Repr

/-- `enum cliret`, `src/client/main.c:33-44`. -/
inductive Ret where
  | ok | error | warnings | timer | connect | maxParallel | reconnect
  deriving DecidableEq, Repr

/-- The exit code, `src/client/main.c:33-44`. -/
def Ret.code : Ret → Nat
  | .ok => 0
  | .error => 1
  | .warnings => 2
  | .timer => 3
  | .connect => 4
  | .maxParallel => 5
  | .reconnect => 100

/-- How a script ended: `none` if it could not be started or watched, an exit code, or a signal. -/
inductive Ended where
  | failed
  | exited (code : Nat)
  | signalled (sig : Nat)
  deriving DecidableEq, Repr

/-- The return value of `run_script_to_buf`, `src/run_script.c:153-185`, for scripts that are waited for. -/
def scriptRet : Ended → Int
  | .failed => -1
  | .exited n => (n % 256 : Nat)
  | .signalled _ => -1

/-- The arguments of a script: those of the program and then those of the user, 63 at most, `src/run_script.c:116-133`. -/
def scriptArgs (args user : List Str) : List Str := (args ++ user).take 63

/-- The settings that matter here, those that apply once the server has been talked to. A script that is not set is
`none`. -/
structure Opts where
  startDirs : Bool := true
  preScript : Option Str := none
  preArgs : List Str := []
  postScript : Option Str := none
  postArgs : List Str := []
  postOnFail : Bool := false
  /-- `b_script_reserved_args`, or that for restores -/
  reserved : Bool := false
  globAfter : Bool := false
  compression : Int := 5
  deriving DecidableEq, Repr

/-- How `initial_comms` ends. -/
inductive Comms where
  | ok (act : Act)
  | error
  | reconnect
  deriving DecidableEq, Repr

/-- What happens in one attempt with one server. -/
structure Env where
  connected : Bool := true
  /-- memory and the like for the connection -/
  setup : Bool := true
  comms : Comms
  /-- settings for a backup, and for a restore -/
  bopts : Opts := {}
  ropts : Opts := {}
  /-- the server's includes and excludes can be logged -/
  incexc : Bool := true
  /-- the answer to the request for a backup -/
  answer : Option Str := none
  pre : Ended := .exited 0
  globOk : Bool := true
  /-- the actual work -/
  work : Bool := true
  post : Ended := .exited 0
  /-- how many warnings there were -/
  warned : Nat := 0
  flush : Bool := true

/-- What is seen of a client. -/
inductive Event where
  | connecting (server : Str)
  | asked (msg : Str) (answer : Option Str)
  | pre (args : List Str) (e : Ended)
  /-- the script after, and how it ended -/
  | post (args : List Str) (e : Ended)
  | worked (act : Act) (resume : Bool) (compression : Int) (ok : Bool)
  deriving DecidableEq, Repr

/-- What the client makes of an answer. -/
inductive Answer where
  | go (resume : Bool) (level : Option Int)
  | stop (r : Ret)
  | unexpected
  /-- memory after the end of the text is read -/
  | beyond
  deriving DecidableEq, Repr

/-- `maybe_check_timer_func`, `src/client/main.c:51-97`. -/
def answer (s : Str) : Answer :=
  if s = bytes "max parallel backups" then .stop .maxParallel
  else if s = bytes "timer conditions not met" then .stop .timer
  else if s = bytes "timer conditions met" then .stop .ok
  else if begins s (bytes "ok") then .go false (if 3 < s.length then some (Cntr.atoi (s.drop 3)) else none)
  else if begins s (bytes "resume") then
    if s.length < 7 then .beyond else .go true (some (Cntr.atoi (s.drop 7)))
  else .unexpected

/-- The arguments that tell a script what it is run for, `src/client/main.c:149-160` and `181-191`. -/
def reserved (o : Opts) (pre : Bool) (failed : Bool) : List Str :=
  if o.reserved then
    (if pre then [bytes "pre", bytes "reserved2"] else [bytes "post", if failed then bytes "1" else bytes "0"]) ++
      [bytes "reserved3", bytes "reserved4", bytes "reserved5"]
  else []

/-- Running the script before, `src/client/main.c:145-172` and `391-408`: what is seen, and whether all is well. The pattern
expansion is only for backups (`glob`). -/
def runPre (o : Opts) (e : Env) (glob : Bool) : List Event × Bool :=
  match o.preScript with
  | none => ([], true)
  | some p => ([.pre (scriptArgs (p :: reserved o true false) o.preArgs) e.pre],
      decide (scriptRet e.pre = 0) && (!(glob && o.globAfter) || e.globOk))

/-- Running the script after, `src/client/main.c:177-200` and `414-434`; `ok` is the state so far. -/
def runPost (o : Opts) (e : Env) (ok : Bool) : List Event × Bool :=
  match o.postScript with
  | none => ([], ok)
  | some p =>
    if ok || o.postOnFail then
      ([.post (scriptArgs (p :: reserved o false (!ok)) o.postArgs) e.post], ok && decide (scriptRet e.post = 0))
    else ([], ok)

/-- Script before, work and script after, `src/client/main.c:145-200`. -/
def around (o : Opts) (e : Env) (glob : Bool) (ev : Event) : List Event × Bool :=
  let (l1, ok1) := runPre o e glob
  let (l2, ok2) := if ok1 then ([ev], e.work) else ([], false)
  let (l3, ok3) := runPost o e ok2
  (l1 ++ l2 ++ l3, ok3)

/-- The outcome of a part of the client: what is seen and its result, or undefined behaviour. -/
inductive Out where
  | done (l : List Event) (r : Ret)
  | undefined (l : List Event)
  deriving DecidableEq, Repr

/-- What is asked for, `src/client/main.c:506-519`. -/
def phase1str : Act → Str
  | .timed => bytes "backupphase1timed"
  | .check => bytes "backupphase1timedcheck"
  | _ => bytes "backupphase1"

/-- `backup_wrapper`, `src/client/main.c:114-213`. -/
def backupWrapper (a : Act) (e : Env) : Out :=
  if e.incexc = false then .done [] .error
  else if e.bopts.startDirs = false then .done [] .error
  else
    let q := Event.asked (phase1str a) e.answer
    let go := fun resume level =>
      let (l, ok) := around e.bopts e true (.worked a resume level e.work)
      Out.done (q :: l) (if ok then .ok else .error)
    match e.answer with
    | none => .done [q] .error
    | some s => match answer s with
      | .unexpected => .done [q] .error
      | .beyond => .undefined [q]
      | .stop .ok => if a = .check then .done [q] .ok else go false e.bopts.compression
      | .stop .timer => .done [q] .timer
      | .stop .maxParallel => .done [q] .maxParallel
      | .stop _ => .done [q] .error
      | .go r lv => if a = .check then .done [q] .ok else go r (lv.getD e.bopts.compression)

/-- `restore_wrapper`, `src/client/main.c:384-442`. -/
def restoreWrapper (a : Act) (e : Env) : Out :=
  let (l, ok) := around e.ropts e false (.worked a false e.ropts.compression e.work)
  .done l (if ok then (if 0 < e.warned then .warnings else .ok) else .error)

/-- The work of `do_client`, `src/client/main.c:506-554`. -/
def perform (a : Act) (e : Env) : Out :=
  let plain := Out.done [.worked a false 0 e.work] (if e.work then .ok else .error)
  match a with
  | .backup | .timed | .check => backupWrapper a e
  | .restore | .verify => restoreWrapper a e
  | _ => plain

/-- `asfd_flush_asio` at the end of `do_client`, `src/client/main.c:556-557`. It is not reached when a function other than
the two wrappers fails, but the result is the same then. -/
def flush (e : Env) : Out → Out
  | .done l r => .done l (if e.flush then r else .error)
  | .undefined l => .undefined l

/-- `do_client`, `src/client/main.c:444-575`: one attempt. For an estimate there is no connection, and for the status another
program is started. -/
def doClient (a : Act) (server : Str) (e : Env) : Out :=
  match a with
  | .status => .done [.worked .status false 0 e.work] (if e.work then .ok else .error)
  | .estimate => perform .estimate e
  | _ =>
    let c := Event.connecting server
    if e.connected = false then .done [c] .connect
    else if e.setup = false then .done [c] .ok
    else match e.comms with
      | .error => .done [c] .error
      | .reconnect => .done [c] .reconnect
      | .ok a' => match flush e (perform a' e) with
        | .done l r => .done (c :: l) r
        | .undefined l => .undefined (c :: l)

/-- One attempt, and a second one if the client has just got its certificate, `src/client/main.c:600-608`. -/
def twice (a : Act) (server : Str) (e e' : Env) : Out :=
  match doClient a server e with
  | .done l .reconnect => match doClient a server e' with
    | .done l' r => .done (l ++ l') r
    | .undefined l' => .undefined (l ++ l')
  | o => o

/-- Whether another server is to be tried, `src/client/main.c:609-646`. -/
def tryOther (a : Act) (onError : Bool) : Ret → Bool
  | .connect => true
  | .error => (decide (a = .backup) || decide (a = .timed)) && onError
  | _ => false

/-- The loop of `client`, `src/client/main.c:598-647`; `env n` and `env' n` is what happens with the nth server. -/
def servers (a : Act) (onError : Bool) (env env' : Nat → Env) : Nat → Str → List Str → Out
  | n, s, others =>
    match twice a s (env n) (env' n) with
    | .undefined l => .undefined l
    | .done l r =>
      if tryOther a onError r then
        match others with
        | [] => .done l r
        | s' :: rest => match servers a onError env env' (n + 1) s' rest with
          | .done l' r' => .done (l ++ l') r'
          | .undefined l' => .undefined (l ++ l')
      else .done l r
  termination_by _ _ others => others.length

/-- `client`, `src/client/main.c:577-656`. -/
def client (enabled : Bool) (a : Act) (onError : Bool) (server : Str) (others : List Str) (env env' : Nat → Env) : Out :=
  if enabled then servers a onError env env' 0 server others else .done [] .ok

end Verif.ClientMain
