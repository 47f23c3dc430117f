import Verif.Model.Asfd
import Verif.Model.Cntr

/-!
# The main process of the server: `run_server` and `server` of `src/server/main.c`

The main process accepts connections, forks a child for each, and passes what the children say about their
work on to the children that serve monitors. The model has the pipes from and to the children with the
buffers of `src/asfd.c`. What the operating system, the clients, the children and the person at the keyboard
do is chosen freely in each turn of the loop. The limits for the number of children are in `Model/Children`,
the allowed addresses in `Model/Ipacl`. Not modelled: `fork = no`, socket activation, and the counter of
`max_parallel_backups` (see `Model/Children`).
-/

namespace Verif.MainLoop
open Verif Verif.Iobuf Verif.Asfd

/-- The pipe from a child that serves a client, `ASFD_FD_SERVER_PIPE_READ`. `conn.net` is what the child has
written and will still write. -/
structure Reader where
  pid : Nat
  conn : Conn
  /-- `asfd->client` -/
  client : Option Str := none

/-- The pipe to a child that serves a monitor, `ASFD_FD_SERVER_PIPE_WRITE`. -/
structure Writer where
  pid : Nat
  tx : Tx := {}

/-- The main process. -/
structure St where
  readers : List Reader := []
  writers : List Writer := []
  /-- children that have not been waited for -/
  procs : List Nat := []
  /-- `lasttime`, `src/server/main.c:821` -/
  lastTime : Int := 0
  /-- `hupreload` -/
  hup : Bool := false
  /-- `gentleshutdown` -/
  gentle : Bool := false

/-- What `async_io` meets at the pipe from a child. -/
inductive ReadIo where
  /-- nothing, or the buffer is parsed and up to `n` bytes are read -/
  | io (n : Nat) (stale1 stale2 : Str)
  /-- an error, the end of the data, or an exception -/
  | fail

/-- What `async_io` meets at the pipe to a child. -/
inductive WriteIo where
  | write (w : Nat)
  | fail

/-- What becomes of a connection that waits to be accepted, `process_incoming_client`,
`src/server/main.c:528-642`. -/
inductive Incoming where
  /-- `accept`, `pipe` or `fork` fails, or the address of the peer cannot be printed -/
  | error
  /-- the call is interrupted, the address is not allowed, or there is no spare child -/
  | refused
  /-- a child for a client; what it will write to its pipe -/
  | client (pid : Nat) (net : Str)
  /-- a child for a monitor -/
  | monitor (pid : Nat)

/-- What happens in a turn of the loop. -/
structure Turn where
  reads : Nat → ReadIo
  writes : Nat → WriteIo
  /-- `select` fails, or there is an exception at a listening socket -/
  fatal : Bool := false
  incoming : List Incoming := []
  now : Int
  /-- children that have ended, as `waitpid` says -/
  ended : List Nat := []
  /-- `SIGHUP` -/
  hup : Bool := false
  /-- `SIGUSR2` -/
  usr2 : Bool := false
  /-- the configuration can be loaded again and the sockets can be opened again, should that be asked for -/
  reloadOk : Bool := true

/-- Something that is passed on to the monitors. -/
inductive Said where
  /-- a message from the child -/
  | status (pid : Nat) (r : Rec)
  /-- the list of the clients -/
  | list (r : Rec)

/-- The message. -/
def Said.msg : Said → Rec
  | .status _ r => r
  | .list r => r

/-- `async_io` for a pipe from a child, `src/async.c:115-121,173-205`, with `run_server` taking out a pipe that
had a problem, `src/server/main.c:1012-1032`: `none`. -/
def readOne (t : Turn) (d : Reader) : Option Reader :=
  match t.reads d.pid with
  | .fail => none
  | .io n s1 s2 =>
    let c := Asfd.step d.conn (.io n s1 s2)
    if c.rx.err then none else some { d with conn := c }

/-- `async_io` for a pipe to a child, `src/async.c:123-124,173-212`. Nothing is read from it
(`attempt_reads`). -/
def writeOne (t : Turn) (w : Writer) : Option Writer :=
  match t.writes w.pid with
  | .fail => none
  | .write n => some { w with tx := txStep w.tx (.write n) }

/-- Whether a pipe had a problem. Then no connection is accepted in this turn
(`src/server/main.c:985-1036`). -/
def problem (t : Turn) (s : St) : Bool :=
  s.readers.any (fun d => (readOne t d).isNone) || s.writers.any (fun w => (writeOne t w).isNone)

/-- `setup_parent_child_pipes`, `src/server/main.c:479-526`, and the end of `process_incoming_client`,
`src/server/main.c:633-640`. New pipes come last in the list (`src/async.c:258-269`). -/
def accept (s : St) : Incoming → St
  | .error => s
  | .refused => s
  | .client pid net => { s with readers := s.readers ++ [⟨pid, { net := net }, none⟩], procs := s.procs ++ [pid] }
  | .monitor pid => { s with writers := s.writers ++ [⟨pid, {}⟩], procs := s.procs ++ [pid] }

/-- `mainas->read_write` and what `run_server` does with the result, `src/server/main.c:985-1036`. `none`: the
function returns with an error. -/
def readWrite (t : Turn) (s : St) : Option St :=
  if t.fatal then none
  else
    let s' := { s with readers := s.readers.filterMap (readOne t), writers := s.writers.filterMap (writeOne t) }
    if problem t s then some s'
    else if t.incoming.any (fun i => match i with | .error => true | _ => false) then none
    else some (t.incoming.foldl accept s')

/-- `extract_client_name`, `src/server/main.c:699-718`: what is between the first two tabs. -/
def clientIn (client : Option Str) (buf : Str) : Option Str :=
  if client.isSome then client
  else
    match Cntr.splitFirst Cntr.tab (cstr buf) with
    | none => none
    | some (_, rest) =>
      match Cntr.splitFirst Cntr.tab rest with
      | none => none
      | some (name, _) => some name

/-- `write_to_status_children`, `src/server/main.c:757-788`: a message for which there is no room is left out. -/
def tell (ws : List Writer) (r : Rec) : List Writer :=
  ws.map (fun w => { w with tx := txStep w.tx (.append r) })

/-- The loop over the pipes from the children, `src/server/main.c:1038-1053`. -/
def forward : List Reader → List Writer → List Reader × List Writer × List Said
  | [], ws => ([], ws, [])
  | d :: ds, ws =>
    match d.conn.rx.rbuf with
    | none =>
      let x := forward ds ws
      (d :: x.1, x.2.1, x.2.2)
    | some r =>
      let x := forward ds (tell ws r)
      ({ d with conn := Asfd.step d.conn .take, client := clientIn d.client r.buf } :: x.1, x.2.1,
        .status d.pid r :: x.2.2)

/-- The message of `update_status_child_client_lists`, `src/server/main.c:797-810`. -/
def listMsg (ds : List Reader) : Rec :=
  ⟨Cmd.gen.toByte, bytes "clients" ++ (ds.filterMap (·.client)).flatMap (fun c => Cntr.tab :: c)⟩

/-- `maybe_update_status_child_client_lists`, `src/server/main.c:817-844`. -/
def maybeList (now : Int) (s : St) : St × List Said :=
  if s.writers.isEmpty then (s, [])
  else if now - s.lastTime < 5 then
    (if now - s.lastTime < 0 then { s with lastTime := now } else s, [])
  else ({ s with lastTime := now, writers := tell s.writers (listMsg s.readers) }, [.list (listMsg s.readers)])

/-- `chld_check_for_exiting`, `src/server/main.c:54-73`. -/
def reap (ended : List Nat) (s : St) : St :=
  let gone := fun p => ended.contains p && s.procs.contains p
  { s with
    readers := s.readers.filter (fun d => !gone d.pid)
    writers := s.writers.filter (fun w => !gone w.pid)
    procs := s.procs.filter (fun p => !gone p) }

/-- What is in the process, whether `server` has returned and what it said (`some true` is success), and what
has been passed on to the monitors. -/
structure Run where
  st : St := {}
  over : Option Bool := none
  told : List Said := []

/-- A turn of the loop of `run_server`, `src/server/main.c:982-1098`, and, where that ends the loop, the turn of
the loop of `server`, `src/server/main.c:1133-1146`. The handlers of the signals, `src/server/main.c:40-52`, run
while the process waits for `select`. -/
def turn (s0 : St) (t : Turn) : Run :=
  let s := { s0 with hup := s0.hup || t.hup, gentle := s0.gentle || t.usr2 }
  match readWrite t s with
  | none => ⟨s, some false, []⟩
  | some s1 =>
    let x := forward s1.readers s1.writers
    let y := maybeList t.now { s1 with readers := x.1, writers := x.2.1 }
    let s2 := reap t.ended y.1
    let told := x.2.2 ++ y.2
    if s2.gentle && (s2.readers.isEmpty && s2.writers.isEmpty) then ⟨s2, some true, told⟩
    else if !s2.hup then ⟨s2, none, told⟩
    else if s2.gentle then ⟨{ s2 with readers := [], writers := [] }, some true, told⟩
    else if t.reloadOk then ⟨{ s2 with readers := [], writers := [], hup := false }, none, told⟩
    else ⟨{ s2 with readers := [], writers := [] }, some false, told⟩

/-- The next turn, if the server has not ended. -/
def next (r : Run) (t : Turn) : Run :=
  match r.over with
  | some _ => r
  | none =>
    let x := turn r.st t
    { x with told := r.told ++ x.told }

/-- The server from its start. -/
def run (ts : List Turn) : Run := ts.foldl next {}

end Verif.MainLoop
