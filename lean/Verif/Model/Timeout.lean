/-!
# Giving up on a silent connection: `src/async.c`, `src/asfd.c`

What `async_io` does with the time-outs of its connections. The connections themselves are an
environment here: in every call of `async_io`, for every connection, it is chosen freely what is
wanted (`attempt_reads`, a message waiting in `rbuf`, data in the write buffer, and so on) and what
the operating system answers. The bytes are in `Verif.Asfd`. The code for Windows is left out.
-/

namespace Verif.Timeout

/-- What a connection looks like during one call of `async_io`: the fields of `struct asfd` that the
first loop looks at, and what the operating system has to say about its descriptor. -/
structure Sit where
  /-- `asfd->attempt_reads`. -/
  attemptReads : Bool := true
  /-- `asfd->rbuf->buf`: a message is waiting to be taken. -/
  msg : Bool := false
  /-- `asfd->read_blocked_on_write`. -/
  rbw : Bool := false
  /-- `asfd->write_blocked_on_read`. -/
  wbr : Bool := false
  /-- `asfd->writebuflen` is not 0. -/
  queued : Bool := false
  /-- `parse_readbuf` fails in the first loop. -/
  parseFails : Bool := false
  /-- `select` reports an exception. -/
  exc : Bool := false
  /-- `select` reports that it can be read. -/
  readable : Bool := false
  /-- `select` reports that it can be written. -/
  writable : Bool := false
  /-- `do_read`, or `parse_readbuf` after it, fails. -/
  readFails : Bool := false
  /-- `do_write` fails. -/
  writeFails : Bool := false
  deriving DecidableEq, Repr

/-- `asfd->doread` after the first loop, src/async.c:108-121. -/
def wantsRead (doread : Bool) (s : Sit) : Bool :=
  s.attemptReads && doread && !(s.msg || s.rbw)

/-- `asfd->dowrite` after the first loop, src/async.c:113,123-124. -/
def wantsWrite (s : Sit) : Bool := s.queued && !s.wbr

/-- "Able to read", src/async.c:188: the descriptor is in the set only if reading was wanted. -/
def reads (doread : Bool) (s : Sit) : Bool := wantsRead doread s && s.readable

/-- "Able to write", src/async.c:207. -/
def writes (s : Sit) : Bool := wantsWrite s && s.writable

/-- `struct asfd`: the two fields of the time-out. -/
structure Fd where
  /-- `max_network_timeout`. -/
  max : Int
  /-- `network_timeout`. -/
  left : Int
  deriving DecidableEq, Repr

/-- `asfd_set_timeout`, src/asfd.c:557-561. A connection for which it is not called has 0 and 0,
from `calloc`, src/asfd.c:645. -/
def setTimeout (max : Int) : Fd := ⟨max, max⟩

/-- How `async_io` ends for one connection. -/
inductive Res where
  | ok
  /-- "no activity for %d seconds". -/
  | timeout
  /-- Any other problem. -/
  | broken
  deriving DecidableEq, Repr

/-- What `select` returns. -/
inductive Sel where
  | ok
  /-- `EAGAIN` or `EINTR`. -/
  | interrupted
  | failed
  deriving DecidableEq, Repr

/-- One call of `async_io`. -/
structure Call where
  /-- `time(NULL)` at the beginning. -/
  now : Int
  /-- Whether reading is wanted: `async_read_write` or `async_write`, src/async.c:235-243. -/
  doread : Bool := true
  /-- Both `setsec` and `setusec` are 0: `async_read_quick`, src/async.c:245-256. -/
  quick : Bool := false
  sel : Sel := .ok
  deriving DecidableEq, Repr

/-- The second loop of `async_io` for one connection, src/async.c:165-228; `last` is
`as->last_time`. The descriptors that accept new connections take the same way, but have no
time-out. -/
def fdStep (last : Int) (c : Call) (s : Sit) (f : Fd) : Fd × Res :=
  if (wantsRead c.doread s || wantsWrite s) && s.exc then (f, .broken)
  else
    let f1 : Fd := if reads c.doread s then { f with left := f.max } else f
    if reads c.doread s && s.readFails then (f1, .broken)
    else
      let f2 : Fd := if writes s then { f1 with left := f1.max } else f1
      if writes s && s.writeFails then (f2, .broken)
      else if !reads c.doread s && !writes s then
        if !c.quick && decide (f2.max > 0) && decide (c.now - last > 0) then
          ({ f2 with left := f2.left - 1 }, if f2.left ≤ 0 then .timeout else .ok)
        else (f2, .ok)
      else (f2, .ok)

/-- How a call of `async_io` ends. -/
inductive Out where
  | ok
  /-- "no activity for %d seconds", said of this connection. -/
  | gaveUp (i : Nat)
  /-- Any other problem. -/
  | broken
  deriving DecidableEq, Repr

/-- The second loop, src/async.c:165-228: it ends at the first problem. The connections after it
are left as they were. Each connection comes with what it looks like; `i` is the number of the first
one. -/
def loop (last : Int) (c : Call) (i : Nat) : List (Fd × Sit) → List Fd × Out
  | [] => ([], .ok)
  | (f, s) :: rest =>
    match fdStep last c s f with
    | (f', .ok) => (f' :: (loop last c (i + 1) rest).1, (loop last c (i + 1) rest).2)
    | (f', .timeout) => (f' :: rest.map (·.1), .gaveUp i)
    | (f', .broken) => (f' :: rest.map (·.1), .broken)

/-- `struct async`: `last_time`, 0 if there was no call yet, and the connections. -/
structure Async where
  last : Int
  fds : List Fd
  deriving DecidableEq, Repr

/-- `async_io`, src/async.c:83-233, when not estimating. `sits` is what the connections look like,
in order. `last_time` becomes `now` however the call ends: src/async.c:231, or `asfd_problem`,
src/async.c:24-29. -/
def asyncIo (as : Async) (c : Call) (sits : List Sit) : Async × Out :=
  let last := if as.last = 0 then c.now else as.last
  if c.doread && sits.any (·.parseFails) then ({ as with last := c.now }, .broken)
  else if !sits.any (fun s => wantsRead c.doread s || wantsWrite s) then
    ({ as with last := c.now }, .ok)
  else
    match c.sel with
    | .interrupted => ({ as with last := c.now }, .ok)
    | .failed => ({ as with last := c.now }, .broken)
    | .ok => (⟨c.now, (loop last c 0 (as.fds.zip sits)).1⟩, (loop last c 0 (as.fds.zip sits)).2)

/-- Calls of `async_io`, one after the other, until one of them has a problem, after which the
programs end: `asfd_read` and `asfd_write`, src/asfd.c:453-464,482-494. -/
def run (as : Async) : List (Call × List Sit) → Async × Out
  | [] => (as, .ok)
  | (c, sits) :: rest =>
    match asyncIo as c sits with
    | (as', .ok) => run as' rest
    | (as', .gaveUp i) => (as', .gaveUp i)
    | (as', .broken) => (as', .broken)

end Verif.Timeout
