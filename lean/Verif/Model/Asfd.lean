import Verif.Model.Iobuf

/-!
# The network layer: `src/asfd.c`, `src/async.c`

One connection of stream type `ASFD_STREAM_STANDARD`. What the operating system does (how many bytes
a `read` or `write` transfers, whether the descriptor is ready) is chosen freely, by the parameters
of each step. Rate limiting and time-outs only choose when steps happen. TLS (`asfd_do_read_ssl`,
`asfd_do_write_ssl`) moves the same bytes through the same buffers and is modelled by the same steps.
-/

namespace Verif.Asfd
open Verif Verif.Iobuf

/-- `ASYNC_BUF_LEN`, src/async.h:4. -/
def asyncBufLen : Nat := 16000

/-- `asfd->bufmaxsize`, src/asfd.c:581. -/
def bufMax : Nat := asyncBufLen * 2 + 32

/-- The receiving half of `struct asfd`: the first `readbuflen` bytes of `readbuf`, the message that
the caller has not taken yet (`rbuf`, unset while `rbuf->buf` is NULL), and whether an error was
reported. -/
structure Rx where
  readbuf : Str := []
  rbuf : Option Rec := none
  err : Bool := false
  deriving DecidableEq, Repr

/-- `extract_buf`, src/asfd.c:37-68; the caller has checked that `len + offset` bytes are there. -/
def extractBuf (s : Rx) (c : Byte) (len offset : Nat) : Rx × Bool :=
  if offset + len ≥ bufMax then (s, false)
  else ({ s with rbuf := some ⟨c, (s.readbuf.drop offset).take len⟩,
                 readbuf := s.readbuf.drop (len + offset) }, true)

/-- `parse_readbuf_standard`, src/asfd.c:109-133. `stale` is what the rest of the buffer holds after
the first `readbuflen` bytes: `sscanf` does not know where the received bytes end. -/
def parseStandard (s : Rx) (stale : Str) : Rx × Bool :=
  if s.readbuf.length < 5 then (s, true)
  else
    match scanLead (s.readbuf ++ stale) with
    | none => (s, false)
    | some (c, n) =>
      if n ≥ bufMax then (s, false)
      else if s.readbuf.length ≥ n + 5 then extractBuf s c n 5
      else (s, true)

/-- `asfd_parse_readbuf`, src/asfd.c:135-146, with `truncate_readbuf`, src/asfd.c:24-28. -/
def parseReadbuf (s : Rx) (stale : Str) : Rx :=
  if s.rbuf.isSome then s
  else
    match parseStandard s stale with
    | (s', true) => s'
    | (s', false) => { s' with readbuf := [], err := true }

/-- `asfd_do_read`, src/asfd.c:165-190: `n` is how much the operating system is willing to give; it
gives at most what has arrived (`net`) and what there is room for. A `read` into no room returns 0,
which is taken for the end of data. Nothing available is `EAGAIN`. Returns what is left of `net`. -/
def doRead (s : Rx) (net : Str) (n : Nat) : Rx × Str :=
  if bufMax - s.readbuf.length = 0 then ({ s with readbuf := [], err := true }, net)
  else
    let r := min n (bufMax - s.readbuf.length)
    ({ s with readbuf := s.readbuf ++ net.take r }, net.drop r)

/-- The reading part of `async_io`, src/async.c:115-121,188-205. -/
def io (s : Rx) (net : Str) (n : Nat) (stale1 stale2 : Str) : Rx × Str :=
  if s.err then (s, net)
  else
    let s1 := parseReadbuf s stale1
    if s1.err then (s1, net)
    else if s1.rbuf.isSome then (s1, net)
    else
      let d := doRead s1 net n
      if d.1.err then d else (parseReadbuf d.1 stale2, d.2)

/-- A connection as seen by the receiver: bytes still to come, and messages taken by the caller. -/
structure Conn where
  rx : Rx := {}
  net : Str
  delivered : List Rec := []

/-- What can happen at the receiving end. -/
inductive Ev where
  /-- `async_io` runs. -/
  | io (n : Nat) (stale1 stale2 : Str)
  /-- The caller uses the message in `rbuf` and frees it (`iobuf_free_content`). -/
  | take

/-- One step at the receiving end. -/
def step (c : Conn) : Ev → Conn
  | .io n st1 st2 =>
    { c with rx := (io c.rx c.net n st1 st2).1, net := (io c.rx c.net n st1 st2).2 }
  | .take =>
    match c.rx.rbuf with
    | some r => { c with rx := { c.rx with rbuf := none }, delivered := c.delivered ++ [r] }
    | none => c

/-- Any sequence of steps. -/
def run (c : Conn) (evs : List Ev) : Conn := evs.foldl step c

/-! ### Sending -/

/-- `asfd_append_all_to_write_buffer`, src/asfd.c:380-412, for the standard stream type:
the new buffer, or `none` for `APPEND_BLOCKED`. The lead is at most 9 characters (`sbuf[10]`). -/
def append (writebuf : Str) (r : Rec) : Option Str :=
  if writebuf.length + 6 + r.buf.length ≥ bufMax - 1 then none
  else some (writebuf ++ (r.cmd :: hex04 (r.buf.length % 2 ^ 32)).take 9 ++ r.buf)

/-- `asfd_do_write`, src/asfd.c:285-313: the operating system takes `w` bytes (none if it is not
ready). Returns the new buffer and the bytes that went out. -/
def doWrite (writebuf : Str) (w : Nat) : Str × Str :=
  (writebuf.drop w, writebuf.take w)

/-- The sending half: buffer, bytes gone to the socket, messages accepted so far. -/
structure Tx where
  writebuf : Str := []
  sent : Str := []
  accepted : List Rec := []

/-- What can happen at the sending end. -/
inductive TxEv where
  | append (r : Rec)
  | write (w : Nat)

/-- One step at the sending end. -/
def txStep (t : Tx) : TxEv → Tx
  | .append r =>
    match append t.writebuf r with
    | some wb => { t with writebuf := wb, accepted := t.accepted ++ [r] }
    | none => t
  | .write w =>
    { t with writebuf := (doWrite t.writebuf w).1, sent := t.sent ++ (doWrite t.writebuf w).2 }

/-- Any sequence of steps. -/
def txRun (t : Tx) (evs : List TxEv) : Tx := evs.foldl txStep t

/-- `asfd_write`, src/asfd.c:482-494: as long as the message has a length, append it and let the
operating system take some bytes. `ws` is what it takes in each round; the result is the new state,
and whether the call returned before `ws` was used up. -/
def asfdWrite (t : Tx) (r : Rec) : List Nat → Tx × Bool
  | [] => (t, r.buf.length = 0)
  | w :: ws =>
    if r.buf.length = 0 then (t, true)
    else
      match append t.writebuf r with
      | some wb => (txStep { t with writebuf := wb, accepted := t.accepted ++ [r] } (.write w), true)
      | none => asfdWrite (txStep t (.write w)) r ws

end Verif.Asfd
