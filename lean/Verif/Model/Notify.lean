import Verif.Model.RunAction
import Verif.Model.BackupNumber

/-!
# Scripts and notifications on the server

`src/server/child.c`, `maybe_do_notification` and the end of `run_action_server_do` in
`src/server/run_action.c`, `run_script_to_buf` in `src/run_script.c`. What a script returns is a parameter.
Left out: the notifications after a restore and a verification (`src/server/run_action.c:281-286`), and that
before an interrupted backup is deleted (`src/server/rubble.c:103-116`). Memory does not run out.
-/

namespace Verif.Notify
open Verif Verif.RunAction

/-- The settings for the scripts. -/
structure Settings where
  cname : Str
  pre : Option Str
  preArgs : List Str
  preNotify : Bool
  post : Option Str
  postArgs : List Str
  postNotify : Bool
  postRunOnFail : Bool
  success : Option Str
  successArgs : List Str
  warningsOnly : Bool
  changesOnly : Bool
  failure : Option Str
  failureArgs : List Str
  /-- `notify_failure_on_backup_with_failovers_left` -/
  failoversSetting : Bool
  deriving DecidableEq, Repr

/-- What happens to be the case. -/
structure World where
  /-- what a script returns, given its command line -/
  scriptRet : List Str → Int
  /-- what a script prints -/
  output : List Str → Str
  /-- what comes of a backup that was begun: `do_backup_server` and `delete_backups` -/
  backupRet : Int
  warnings : Nat
  changed : Nat
  failoversLeft : Bool
  clientDir : Str
  current : Str

inductive Ev where
  | script (cmd : List Str)
  | did (e : Effect)
  deriving DecidableEq, Repr

/-- The command line, `run_script_to_buf`, `src/run_script.c:120-140`: an array of 64 pointers, the last of
which is null. -/
def cmdline (args user : List Str) : List Str := (args ++ user).take 63

/-- `run_script`, `src/run_script.c:198-203`, with a script that may not be set. -/
def runScript (script : Option Str) (args user : List Str) : List Ev :=
  match script with
  | none => []
  | some s => [.script (cmdline (s :: args) user)]

/-- `maybe_do_notification`, `src/server/run_action.c:101-139`. -/
def maybeNotify (s : Settings) (w : World) (status : Int) (clientDir storageDir file brv : Str) : List Ev :=
  let args := [s.cname, clientDir, storageDir, file, brv]
  if status ≠ 0 then runScript s.failure (args ++ [bytes "0"]) s.failureArgs
  else if (s.warningsOnly && decide (w.warnings > 0)) || (s.changesOnly && decide (w.changed > 0)) ||
      (!s.warningsOnly && !s.changesOnly) then
    runScript s.success (args ++ [Verif.BackupNumber.decimal w.warnings]) s.successArgs
  else []

/-- `buf_to_notify_str`, `src/server/run_action.c:414-424`. -/
def notifyStr (buf : Str) : Str :=
  if begins buf (bytes "backup") then bytes "backup"
  else if begins buf (bytes "delete") then bytes "delete"
  else if begins buf (bytes "diff") then bytes "diff"
  else if begins buf (bytes "list") then bytes "list"
  else if begins buf (bytes "restore") then bytes "restore"
  else if begins buf (bytes "verify") then bytes "verify"
  else bytes "unknown"

/-- Whether a backup was begun. -/
def begun (l : List Effect) : Bool := l.contains (.backedUp true) || l.contains (.backedUp false)

/-- `*timer_ret`, `src/server/backup.c:325`. -/
def timerRet (e : Env) (l : List Effect) : Int :=
  if l.contains .ranTimer then
    match e.timer with
    | none => -1
    | some false => 1
    | some true => 0
  else 0

/-- What `run_action_server_do`, `src/server/run_action.c:460-590`, returns, the value of `*timer_ret`, and what
was done. -/
structure Out where
  evs : List Ev
  ret : Int
  timer : Int
  deriving DecidableEq, Repr

/-- `run_action_server_do`, `src/server/run_action.c:460-590`, with what is notified. What is done is that of
`Verif.RunAction.runAction`. -/
def actionServer (c : Conf) (e : Env) (s : Settings) (w : World) (gen : Bool) (buf : Str) : Out :=
  let r := runAction c e gen buf
  let evs := r.1.map Ev.did
  if e.mkpath && gen && (begins buf (bytes "backup") || begins buf (bytes "Delete ")) then
    match e.lock with
    | .notGot => ⟨evs, 1, 0⟩
    | .error => ⟨evs ++ maybeNotify s w (-1) [] (bytes "error in get_lock_sdirs()") [] (notifyStr buf), -1, 0⟩
    | .got =>
      match e.rubble with
      | .finalising => ⟨evs, 1, 0⟩
      | .error => ⟨evs ++ maybeNotify s w (-1) [] (bytes "error in check_for_rubble()") [] (notifyStr buf), -1, 0⟩
      | .ok _ =>
        if begins buf (bytes "Delete ") then ⟨evs, r.2, 0⟩
        else if c.maxParallel ≠ 0 ∧ e.working ≥ c.maxParallel then ⟨evs, r.2, 0⟩
        else
          let ret := if begun r.1 then w.backupRet else r.2
          let t := timerRet e r.1
          if ret ≠ 0 ∧ s.failoversSetting ∧ w.failoversLeft then ⟨evs, ret, t⟩
          else if t < 0 then
            ⟨evs ++ maybeNotify s w ret [] (bytes "error running timer script") [] (bytes "backup"), ret, t⟩
          else if t = 0 then ⟨evs ++ maybeNotify s w ret w.clientDir w.current (bytes "log") (bytes "backup"), ret, t⟩
          else ⟨evs, ret, t⟩
  else ⟨evs, r.2, 0⟩

/-- `get_action_from_client`, `src/server/child.c:207-231`. -/
def actionFrom (buf : Str) : Str :=
  if buf = bytes "backupphase1" then bytes "backup"
  else if buf = bytes "backupphase1timed" then bytes "backup_timed"
  else buf.takeWhile (· ≠ space)

/-- `"1"` or `"0"`. -/
def flag (n : Int) : Str := if n ≠ 0 then bytes "1" else bytes "0"

/-- `run_server_script`, `src/server/child.c:147-205`. The message is not cut at 255 bytes here. -/
def serverScript (s : Settings) (w : World) (kind action script : Str) (user : List Str) (notify : Bool)
    (ret timer : Int) : List Ev × Int :=
  let cmd := cmdline [script, kind, action, s.cname, flag ret, flag timer] user
  if w.scriptRet cmd = 0 then ([.script cmd], 0)
  else
    ([.script cmd, .did (.saidError (bytes "server " ++ kind ++ bytes " script " ++ script ++ bytes " returned an error"))] ++
      (if notify && !(begins action (bytes "backup") && s.failoversSetting && w.failoversLeft) then
        runScript s.failure [s.cname, [], w.output cmd, [], [], []] s.failureArgs
      else []), -1)

/-- The script to be run first, `child`, `src/server/child.c:301-311`. -/
def runPre (s : Settings) (w : World) (action : Str) : List Ev × Int :=
  match s.pre with
  | none => ([], 0)
  | some script => serverScript s w (bytes "pre") action script s.preArgs s.preNotify 0 0

/-- `child`, `src/server/child.c:233-331`, from the request on. -/
def child (c : Conf) (e : Env) (s : Settings) (w : World) (gen : Bool) (buf : Str) : List Ev × Int :=
  let action := actionFrom buf
  let p := runPre s w action
  let a : Out := if p.2 = 0 then actionServer c e s w gen buf else ⟨[], p.2, 0⟩
  match s.post with
  | none => (p.1 ++ a.evs, a.ret)
  | some script =>
    if a.ret ≠ 0 ∧ !s.postRunOnFail then (p.1 ++ a.evs, a.ret)
    else
      let q := serverScript s w (bytes "post") action script s.postArgs s.postNotify a.ret a.timer
      (p.1 ++ a.evs ++ q.1, q.2)

end Verif.Notify
