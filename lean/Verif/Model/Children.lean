import Verif.Model.Basic

/-!
# How many clients are served at the same time: `run_server` and `chld_check_counts` of `src/server/main.c`

The server process keeps a list of file descriptors: one for each address that it listens on, and one for each
child process, which remembers the address that the child was accepted on. The children of the model are the
running processes themselves.
-/

namespace Verif.Children

/-- An entry of the list of file descriptors, `struct asfd`. -/
structure Fd where
  listen : Str
  /-- the child at the other end; `none` for a listening socket -/
  pid : Option Nat
  /-- `cntr_status` is that of a scan or a backup -/
  working : Bool
  deriving DecidableEq, Repr

/-- What a child process is doing. -/
inductive Doing where
  /-- has not yet come to the question whether there are too many backups -/
  | deciding
  | backup
  /-- anything else: a restore, a refused backup, and so on -/
  | other
  deriving DecidableEq, Repr

/-- A running child process. -/
structure Proc where
  pid : Nat
  listen : Str
  /-- the counter `working` as it was when the process was forked -/
  seen : Nat
  doing : Doing
  deriving DecidableEq, Repr

/-- The configuration: addresses (`listen` and `listen_status`) with the number of children for each, and
`max_parallel_backups`. -/
structure Conf where
  listen : List (Str × Nat)
  maxParallel : Nat
  deriving DecidableEq, Repr

structure St where
  conf : Conf
  fds : List Fd
  procs : List Proc
  /-- the static variable of `server_get_working` -/
  working : Nat
  deriving DecidableEq, Repr

/-- `init_listen_sockets`, `src/server/main.c:207-216`: no address is there twice, or `bind` fails. -/
def listening (c : Conf) : List Fd := c.listen.map (fun a => ⟨a.1, none, false⟩)

/-- `run_server` before its loop, `src/server/main.c:933-981`. -/
def start (c : Conf) : St := ⟨c, listening c, [], 0⟩

/-- `find_listen_in_conf`, `src/server/main.c:421-431`. -/
def findListen (c : Conf) (a : Str) : Option Nat := (c.listen.find? (fun x => x.1 = a)).map Prod.snd

/-- `chld_check_counts`, `src/server/main.c:433-477`, for the listening socket of the address: whether there is a
child to spare. All other entries with this address are counted. -/
def checkCounts (s : St) (a : Str) : Bool :=
  match findListen s.conf a with
  | none => false
  | some max => decide (((s.fds.filter (fun f => f.listen = a)).length : Int) - 1 < max)

/-- `server_get_working`, `src/server/main.c:720-742`. -/
def getWorking (s : St) : Nat := (s.fds.filter (fun f => f.working)).length

/-- `process_incoming_client`, `src/server/main.c:528-642`, and before it the update of `working`, 995-997. `pid` is
the number of the new process, if one is forked. -/
def connect (s : St) (a : Str) (pid : Nat) : St :=
  let s := if s.conf.maxParallel ≠ 0 then { s with working := getWorking s } else s
  if checkCounts s a then
    { s with
      fds := s.fds ++ [⟨a, some pid, false⟩]
      procs := s.procs ++ [⟨pid, a, s.working, .deciding⟩] }
  else s

/-- The child comes to the check in `run_action_server_do`, `src/server/run_action.c:558-569`. Simplification:
`max_parallel_backups` is the same for all clients. -/
def decideBackup (c : Conf) (p : Proc) : Proc :=
  if c.maxParallel ≠ 0 && decide (p.seen ≥ c.maxParallel) then { p with doing := .other }
  else { p with doing := .backup }

/-- Things that happen. -/
inductive Event where
  /-- a client connects, and the next process number is this -/
  | connect (a : Str) (pid : Nat)
  /-- a child asks whether its backup may run -/
  | backup (pid : Nat)
  /-- a child does something else -/
  | other (pid : Nat)
  /-- a status line of a child arrives (`extract_client_cntr_status`, `src/server/main.c:744-756`) -/
  | report (pid : Nat)
  /-- a child ends -/
  | exit (pid : Nat)
  /-- the server notices which children have ended (`chld_check_for_exiting`, `src/server/main.c:55-71`) -/
  | reap
  /-- `SIGHUP`: `run_server` returns, all file descriptors are closed, and it runs again with the new configuration
  (`src/server/main.c:1096-1103`, 1129-1141) -/
  | reload (c : Conf)
  deriving DecidableEq, Repr

/-- What happens. `none` if it cannot happen: process numbers of running processes, and of those that have not been
waited for, are not given out again. -/
def step (s : St) : Event → Option St
  | .connect a pid =>
    if s.procs.any (fun p => p.pid = pid) || s.fds.any (fun f => f.pid = some pid) then none
    else if s.conf.listen.any (fun x => x.1 = a) then some (connect s a pid)
    else none
  | .backup pid =>
    some { s with procs := s.procs.map (fun p =>
      if p.pid = pid && p.doing = .deciding then decideBackup s.conf p else p) }
  | .other pid =>
    some { s with procs := s.procs.map (fun p =>
      if p.pid = pid && p.doing = .deciding then { p with doing := .other } else p) }
  | .report pid =>
    some { s with fds := s.fds.map (fun f =>
      if f.pid = some pid then
        { f with working := s.procs.any (fun p => p.pid = pid && p.doing = .backup) } else f) }
  | .exit pid => some { s with procs := s.procs.filter (fun p => p.pid ≠ pid) }
  | .reap =>
    some { s with fds := s.fds.filter (fun f => match f.pid with
      | none => true
      | some pid => s.procs.any (fun p => p.pid = pid)) }
  | .reload c => some { s with conf := c, fds := listening c }

/-- A sequence of events. -/
def run (s : St) : List Event → Option St
  | [] => some s
  | e :: es => (step s e).bind (fun s => run s es)

end Verif.Children
