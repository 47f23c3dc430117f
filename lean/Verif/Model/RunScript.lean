import Verif.Model.Iobuf

/-!
# Running scripts: `src/run_script.c`, `src/forkchild.c`, `logm`, `logw` in `src/log.c`

A script is a child process with two pipes, for what it prints and for its complaints. What the script and the
kernel do is a list of events; between them burp takes turns of its loop. On Windows a script is not waited for
and nothing is read from it: that is not modelled, and neither is a script that is not waited for (an autoupgrade,
after which the client ends). Running out of memory is not modelled.
-/

namespace Verif.RunScript
open Verif.Iobuf

/-- One of the two pipes, `src/forkchild.c:42-64`. -/
structure Stream where
  /-- written to the pipe and not yet taken by `fgets`: in the kernel or in the buffer of the `FILE` -/
  left : Str
  /-- some process holds the end to which is written -/
  held : Bool
  /-- burp has not closed its end -/
  isOpen : Bool
  deriving DecidableEq, Repr

/-- `fgets` over what is there, with room for `n` bytes: up to the end of the line, or as many as there is room
for. What it gives and what it leaves. -/
def gets : Nat → Str → Str × Str
  | 0, s => ([], s)
  | _ + 1, [] => ([], [])
  | n + 1, b :: s => if b = newline then ([b], s) else (b :: (gets n s).1, (gets n s).2)

/-- `fgets` was stopped by the end of a line or by the end of its room; if not, it asked the pipe for more. -/
def stopped : Nat → Str → Bool
  | 0, _ => true
  | _ + 1, [] => false
  | n + 1, b :: s => if b = newline then true else stopped n s

/-- The room in `char buf[256]`, `src/run_script.c:18`, without the NUL. -/
def room : Nat := 255

/-- `log_script_output`, `src/run_script.c:14-49`: the piece that is logged, if any, and the pipe afterwards. The
pipe does not block: when it has no more bytes, `fgets` gives what it has, and only when nobody holds the other
end has it met the end of the file. -/
def readPiece (s : Stream) : Option Str × Stream :=
  if s.isOpen then
    let p := gets room s.left
    (if p.1 = [] then none else some p.1,
      { s with left := p.2, isOpen := s.held || stopped room s.left })
  else (none, s)

/-- What `select` says, `src/run_script.c:85-93`: which pipes can be read, or that it was interrupted (then the
sets are as they were: burp tries each pipe that it has open), or another error. -/
inductive Sel
  | ready (out err : Bool)
  | interrupted
  | failed
  deriving DecidableEq, Repr

/-- What may happen while burp waits for a script. -/
inductive Ev
  /-- something that holds the end of a pipe (`true`: of the pipe for complaints) writes to it -/
  | writes (err : Bool) (b : Str)
  /-- the last process that held the end of the pipe lets go of it -/
  | closes (err : Bool)
  /-- a child has ended, and the handler has its status from `waitpid`, `src/run_script.c:54-60` -/
  | ended (status : Nat)
  /-- a turn of the loop, `src/run_script.c:77-112` -/
  | turn (sel : Sel)
  deriving DecidableEq, Repr

/-- What has become of the loop. -/
inductive Result
  | waiting
  | finished
  | error
  deriving DecidableEq, Repr

structure State where
  out : Stream
  err : Stream
  /-- `got_sigchld`, `src/run_script.c:51`: static, kept from one script to the next -/
  got : Bool
  /-- `run_script_status`, `src/run_script.c:52` -/
  status : Nat
  /-- the pieces read from the pipes (`true`: complaints), the oldest first -/
  pieces : List (Bool × Str)
  result : Result
  deriving DecidableEq, Repr

/-- Before the first turn: both pipes are empty and held by the script. `got`, `status`: left by earlier scripts. -/
def start (got : Bool) (status : Nat) : State :=
  ⟨⟨[], true, true⟩, ⟨[], true, true⟩, got, status, [], .waiting⟩

/-- One of the two pipes. -/
def State.stream (s : State) (err : Bool) : Stream := if err then s.err else s.out

/-- `log_script_output` for one pipe when `FD_ISSET` says so, `src/run_script.c:94-103`. -/
def State.readFrom (s : State) (err isset : Bool) : State :=
  if isset then
    let r := readPiece (s.stream err)
    let s := { s with pieces := s.pieces ++ (r.1.map fun p => (err, p)).toList }
    if err then { s with err := r.2 } else { s with out := r.2 }
  else s

/-- The end of a turn, `src/run_script.c:105-111`. -/
def State.finish (s : State) : State :=
  if !s.out.isOpen && !s.err.isOpen && s.got then { s with got := false, result := .finished } else s

/-- One turn, `src/run_script.c:77-112`. A pipe that burp has closed is not in the set for `select`. -/
def State.takeTurn (s : State) (sel : Sel) : State :=
  match sel with
  | .failed => { s with result := .error }
  | .interrupted => ((s.readFrom false s.out.isOpen).readFrom true s.err.isOpen).finish
  | .ready o e => ((s.readFrom false (o && s.out.isOpen)).readFrom true (e && s.err.isOpen)).finish

/-- Bytes come into a pipe, if somebody holds its end. -/
def Stream.write (s : Stream) (b : Str) : Stream := if s.held then { s with left := s.left ++ b } else s

/-- One event. When the loop has ended, nothing more is read, and the handler is no longer there,
`src/run_script.c:165-166`. -/
def step (s : State) : Ev → State
  | .writes true b => { s with err := s.err.write b }
  | .writes false b => { s with out := s.out.write b }
  | .closes true => { s with err := { s.err with held := false } }
  | .closes false => { s with out := { s.out with held := false } }
  | .ended st => if s.result = .waiting then { s with got := true, status := st } else s
  | .turn sel => if s.result = .waiting then s.takeTurn sel else s

/-- Events one after the other, `run_script_select`, `src/run_script.c:62-116`. -/
def run (s : State) (evs : List Ev) : State := evs.foldl step s

/-- `WIFEXITED` -/
def exited (status : Nat) : Bool := status % 128 == 0

/-- `WEXITSTATUS` -/
def exitCode (status : Nat) : Nat := status / 256 % 256

/-- `WIFSIGNALED` -/
def signaled (status : Nat) : Bool := status % 128 != 0 && status % 128 != 127

/-- What `run_script_to_buf` returns after the loop, `src/run_script.c:162-194`; nothing while it waits. -/
def returned (s : State) : Option Int :=
  match s.result with
  | .waiting => none
  | .error => some (-1)
  | .finished => some (if exited s.status then (exitCode s.status : Int) else -1)

/-- What is kept in `logbuf`, `src/run_script.c:22`: the pieces, each as a C string. -/
def State.buffer (s : State) : Str := (s.pieces.map fun p => cstr p.2).flatten

/-- The words of `src/run_script.c:176-193` to the other side: none for the exit code 0. -/
inductive Word
  | code (n : Nat)
  | signal (n : Nat)
  | strange
  deriving DecidableEq, Repr

/-- The last warning of a script that was waited for, with `log_remote`, `src/run_script.c:172-193`. -/
def lastWord (s : State) : Option Word :=
  if s.result = .finished then
    if exited s.status then if exitCode s.status = 0 then none else some (.code (exitCode s.status))
    else if signaled s.status then some (.signal (s.status % 128)) else some .strange
  else none

/-- A line that is formatted into `char buf[512]`, `src/log.c:31-38`, `src/log.c:221-224`, `src/log.c:241-244`. -/
def formatted (s : Str) : Str := s.take 511

/-- How a piece appears in the log, `src/run_script.c:23-45` (with `log_remote`, `logm` and `logw` print it with the
same words as `logp` does here, `src/log.c:230`, `src/log.c:253`). -/
def logged (doLogp remote : Bool) (p : Bool × Str) : Str :=
  let text := formatted (cstr p.2)
  if remote || doLogp then formatted (bytes (if p.1 then "WARNING: " else "MESSAGE: ") ++ text) else text

/-- The message that `logm` or `logw` sends for a piece, `src/log.c:218-259`, with `log_remote`; not in an estimate.
The other side has said that it takes messages. -/
def sent (p : Bool × Str) : Rec :=
  ⟨if p.1 then 119 else 112, formatted (cstr p.2)⟩

/-- The warnings that are counted with `log_remote`, `cntr_add` in `logw`, `src/log.c:256`. -/
def warnings (s : State) : Nat := (s.pieces.filter (·.1)).length + (lastWord s).toList.length

/-- The loop over `args`, `src/run_script.c:138`: `l` places are taken. -/
def takeArgs : Nat → List Str → List Str
  | _, [] => []
  | l, a :: as => if l < 63 then a :: takeArgs (l + 1) as else []

/-- The command line, `src/run_script.c:129-140`: at most 63 words. -/
def cmdLine (args user : List Str) : List Str :=
  takeArgs 0 args ++ takeArgs (takeArgs 0 args).length user

/-- Several scripts one after the other in one process: the two static variables go from one to the next. The
events of each script are those between its start and the next. -/
def runAll (got : Bool) (status : Nat) : List (List Ev) → List State
  | [] => []
  | evs :: rest =>
    let s := run (start got status) evs
    s :: runAll s.got s.status rest

end Verif.RunScript
