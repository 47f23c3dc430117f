import Verif.Model.Seed

/-!
# Requests to the server: `src/server/run_action.c` and `run_backup` in `src/server/backup.c`

What is done about a request. The actions themselves are modelled elsewhere; here they are effects. Memory does not
run out. Notifications are left out.
-/

namespace Verif.RunAction
open Verif Seed

/-- The settings of the client that matter here. -/
structure Conf where
  canList : Bool
  canDiff : Bool
  canRestore : Bool
  canVerify : Bool
  canDelete : Bool
  canForceBackup : Bool
  /-- `super_client` is set: another client does this in the name of the client -/
  superClient : Bool
  maxParallel : Nat
  deriving DecidableEq, Repr

inductive LockRes where
  | got
  | notGot
  | error
  deriving DecidableEq, Repr

inductive RubbleRes where
  | ok (resume : Bool)
  | finalising
  | error
  deriving DecidableEq, Repr

/-- What happens to be the case. -/
structure Env where
  /-- the directories can be made -/
  mkpath : Bool
  /-- there is a file at `restore_path` -/
  restoreFile : Bool
  /-- the answer can be sent, and the list of files received -/
  sent : Bool
  received : Bool
  lock : LockRes
  rubble : RubbleRes
  working : Nat
  /-- `run_timer`: an error, or whether the conditions are met -/
  timer : Option Bool
  /-- `get_new_bno` is allowed with the seed settings -/
  seedOk : Bool
  deriving DecidableEq, Repr

inductive Effect where
  | wroteCreated
  | loggedCommand
  | saidError (msg : Str)
  | said (msg : Str)
  | listed (backup : Option Str) (regex browse : Option Str)
  | diffed (backup1 backup2 : Option Str)
  | usedRestoreFile
  | receivedList
  | restored (backup : Str) (regex : Option Str) (list : Bool)
  | verified (backup : Str) (regex : Option Str) (list : Bool)
  | removedList
  | locked
  | recovered
  | deleted (backup : Str)
  | ranTimer
  | backedUp (resume : Bool)
  deriving DecidableEq, Repr

/-- What was done, and the return value. -/
abbrev Done := List Effect × Int

/-- `!strncmp_w(s, t)`, src/handy.h. -/
def begins (s t : Str) : Bool := t.isPrefixOf s

/-- Cutting at the first colon: what is before, and what is after, if there is one. -/
def cutColon (s : Str) : Str × Option Str :=
  (s.takeWhile (· ≠ 58), match s.dropWhile (· ≠ 58) with | [] => none | _ :: t => some t)

/-- The arguments of `list` and `listb`, src/server/run_action.c:326-350: backup, regular expression and directory
to browse. -/
def listArgs (buf : Str) : Option Str × Option Str × Option Str :=
  if begins buf (bytes "list ") then (some ((cutColon buf).1.drop 5), (cutColon buf).2, none)
  else if begins buf (bytes "listb ") then
    (some ((cutColon buf).1.drop 6), none, (cutColon buf).2.map stripTrailing)
  else (none, none, none)

/-- `run_list`, src/server/run_action.c:308-363. -/
def runList (c : Conf) (e : Env) (buf : Str) : Done :=
  if !c.canList then ([.said (bytes "Client list is not allowed")], -1)
  else if !e.sent then ([], -1)
  else ([.said (bytes "ok"), .listed (listArgs buf).1 (listArgs buf).2.1 (listArgs buf).2.2], 0)

/-- The arguments of `diff`, src/server/run_action.c:381-391. -/
def diffArgs (buf : Str) : Option Str × Option Str :=
  if begins buf (bytes "diff ") then (some ((cutColon buf).1.drop 5), (cutColon buf).2)
  else (none, none)

/-- `run_diff`, src/server/run_action.c:365-401. -/
def runDiff (c : Conf) (e : Env) (buf : Str) : Done :=
  if !c.canDiff then ([.said (bytes "Client diff is not allowed")], -1)
  else if !e.sent then ([], -1)
  else ([.said (bytes "ok"), .diffed (diffArgs buf).1 (diffArgs buf).2], 0)

/-- An empty regular expression is none. -/
def noEmpty : Option Str → Option Str
  | some [] => none
  | r => r

/-- `parse_restore_str`, src/server/run_action.c:142-195, and `parse_restore_str_and_set_confs`, 197-223:
whether it is a restore, whether a list of files will come, the backup, and the regular expression. -/
def parseRestore (buf : Str) : Option (Bool × Bool × Str × Option Str) :=
  let act := if begins buf (bytes "restore ") then some true
    else if begins buf (bytes "verify ") then some false else none
  match act with
  | none => none
  | some isRestore =>
    let cp := (buf.dropWhile (· ≠ space)).drop 1
    let input := begins cp (bytes "restore_list ")
    let cp := if input then cp.drop 13 else cp
    some (isRestore, input, (cutColon cp).1, noEmpty (cutColon cp).2)

/-- `run_restore`, src/server/run_action.c:225-288, with `client_can_restore`, 84-97. -/
def runRestore (c : Conf) (e : Env) (buf : Str) : Done :=
  match parseRestore buf with
  | none => ([], -1)
  | some (isRestore, input, backup, regex) =>
    let pre : List Effect := if isRestore && e.restoreFile then [.usedRestoreFile] else []
    if isRestore && !(e.restoreFile || c.canRestore) then
      ([.said (bytes "Client restore is not allowed")], if e.sent then 0 else -1)
    else if !isRestore && !c.canVerify then
      ([.said (bytes "Client verify is not allowed")], if e.sent then 0 else -1)
    else
      let act : Effect := if isRestore then .restored backup regex input else .verified backup regex input
      if !e.sent then (pre, -1)
      else if input then
        if !e.received then (pre ++ [.said (bytes "ok restore_list")], -1)
        else (pre ++ [.said (bytes "ok restore_list"), .receivedList, act], 0)
      else (pre ++ [.said (bytes "ok"), act], 0)

/-- `run_delete`, src/server/run_action.c:290-306. -/
def runDelete (c : Conf) (buf : Str) : Done :=
  if !c.canDelete then ([.said (bytes "Client delete is not allowed")], -1)
  else ([.deleted (buf.drop 7)], 0)

/-- `run_backup`, src/server/backup.c:300-377. -/
def runBackup (c : Conf) (e : Env) (resume : Bool) (buf : Str) : Done :=
  let go : Done :=
    if !e.seedOk then ([.saidError (bytes "When seeding, there must be no previous backups for this client\n")], -1)
    else if !e.sent then ([], -1)
    else ([.said (if resume then bytes "resume" else bytes "ok"), .backedUp resume], 0)
  if c.superClient then ([.said (bytes "Backup is not allowed")], 0)
  else if begins buf (bytes "backupphase1timed") then
    match e.timer with
    | none => ([.ranTimer], -1)
    | some false => ([.ranTimer, .said (bytes "timer conditions not met")], 0)
    | some true =>
      if begins buf (bytes "backupphase1timedcheck") then ([.ranTimer, .said (bytes "timer conditions met")], 0)
      else (.ranTimer :: go.1, go.2)
  else if !c.canForceBackup then ([.said (bytes "Forced backup is not allowed")], 0)
  else go

/-- What is done after the request has been logged. -/
def dispatch (c : Conf) (e : Env) (buf : Str) : Done :=
  if begins buf (bytes "list ") || begins buf (bytes "listb ") then runList c e buf
  else if begins buf (bytes "diff ") then runDiff c e buf
  else if begins buf (bytes "delete ") then
    ([.saidError (bytes "old style delete is not supported on this server")], -1)
  else if begins buf (bytes "restore ") || begins buf (bytes "verify ") then
    let r := runRestore c e buf
    (r.1 ++ [.removedList], r.2)
  else if !begins buf (bytes "backup") && !begins buf (bytes "Delete ") then
    ([.saidError (bytes "unknown command")], -1)
  else match e.lock with
    | .notGot => ([.saidError (bytes "another instance is already running")], 1)
    | .error => ([.saidError (bytes "problem with lock file on server")], -1)
    | .got => match e.rubble with
      | .error => ([.locked, .recovered], -1)
      | .finalising => ([.locked, .recovered], 1)
      | .ok resume =>
        if begins buf (bytes "Delete ") then
          let r := runDelete c buf
          (.locked :: .recovered :: r.1, r.2)
        else if c.maxParallel ≠ 0 ∧ e.working ≥ c.maxParallel then
          ([.locked, .recovered, .said (bytes "max parallel backups")], 0)
        else
          let r := runBackup c e resume buf
          (.locked :: .recovered :: r.1, r.2)

/-- `run_action_server_do`, src/server/run_action.c:453-590. `gen` tells whether the request is a `CMD_GEN`. -/
def runAction (c : Conf) (e : Env) (gen : Bool) (buf : Str) : Done :=
  if !e.mkpath then ([.saidError (bytes "could not mkpath")], -1)
  else if !gen then ([.wroteCreated, .saidError (bytes "unknown command")], -1)
  else
    let r := dispatch c e buf
    (.wroteCreated :: .loggedCommand :: r.1, r.2)

end Verif.RunAction
