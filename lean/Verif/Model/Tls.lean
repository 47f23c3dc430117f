import Verif.Model.Asfd

/-!
# Messages through TLS: `src/asfd.c`, `src/async.c`

The same buffers as in `Verif.Asfd`, with what TLS adds: data travels in records. OpenSSL is used in
its default modes (there is no `SSL_CTX_set_mode` and no `SSL_pending` in the source), of which this
is assumed: `SSL_write` puts what it is given into records and is finished only when all of it is out,
and when it is called again because it was not finished, it goes on where it was, even if there is
more to write by then; `SSL_read` returns bytes of one record, and keeps the rest of the record for
the next call; `select` knows nothing of what is kept there.
-/

namespace Verif.Tls
open Verif Verif.Iobuf Verif.Asfd

/-- The receiving end: `struct asfd`, what is left inside TLS of the last record, the records that
have arrived at the socket, those that are still under way, and the messages taken by the caller. -/
structure TRx where
  rx : Rx := {}
  inner : Str := []
  socket : List Str := []
  wire : List Str := []
  delivered : List Rec := []
  deriving DecidableEq, Repr

/-- `asfd_do_read_ssl`, src/asfd.c:198-247: as many bytes as there is room for, of what is left from
before, or else of the next record. With no room, `SSL_read` fails. -/
def sslRead (c : TRx) : TRx :=
  let room := bufMax - c.rx.readbuf.length
  if room = 0 then { c with rx := { c.rx with readbuf := [], err := true } }
  else if c.inner ≠ [] then
    { c with rx := { c.rx with readbuf := c.rx.readbuf ++ c.inner.take room },
             inner := c.inner.drop room }
  else
    match c.socket with
    | [] => c
    | r :: rest =>
      { c with rx := { c.rx with readbuf := c.rx.readbuf ++ r.take room },
               inner := r.drop room, socket := rest }

/-- The reading part of `async_io`, src/async.c:115-121,188-205: it reads only if `select` says that
there is something at the socket. -/
def io (c : TRx) (stale1 stale2 : Str) : TRx :=
  if c.rx.err then c
  else
    let c1 := { c with rx := parseReadbuf c.rx stale1 }
    if c1.rx.err || c1.rx.rbuf.isSome || c1.socket.isEmpty then c1
    else
      let c2 := sslRead c1
      if c2.rx.err then c2 else { c2 with rx := parseReadbuf c2.rx stale2 }

/-- What can happen at the receiving end. -/
inductive Ev where
  /-- A record arrives. -/
  | arrive
  /-- `async_io` runs. -/
  | io (stale1 stale2 : Str)
  /-- The caller uses the message in `rbuf` and frees it. -/
  | take

/-- One step at the receiving end. -/
def step (c : TRx) : Ev → TRx
  | .arrive =>
    match c.wire with
    | [] => c
    | r :: rest => { c with socket := c.socket ++ [r], wire := rest }
  | .io st1 st2 => io c st1 st2
  | .take =>
    match c.rx.rbuf with
    | some r => { c with rx := { c.rx with rbuf := none }, delivered := c.delivered ++ [r] }
    | none => c

/-- Any sequence of steps. -/
def run (c : TRx) (evs : List Ev) : TRx := evs.foldl step c

/-- The sending end: the write buffer, how much of it is in records already although `SSL_write` has
not finished, the records so far, and the messages accepted so far. -/
structure TTx where
  writebuf : Str := []
  out : Nat := 0
  records : List Str := []
  accepted : List Rec := []
  deriving DecidableEq, Repr

/-- What can happen at the sending end. -/
inductive TxEv where
  /-- `asfd_append_all_to_write_buffer`. -/
  | append (r : Rec)
  /-- `SSL_write` makes a record of the next `k` bytes. -/
  | emit (k : Nat)
  /-- `SSL_write` is finished. -/
  | done

/-- One step at the sending end; `asfd_do_write_ssl`, src/asfd.c:321-370, for `emit` and `done`. -/
def txStep (t : TTx) : TxEv → TTx
  | .append r =>
    match Asfd.append t.writebuf r with
    | some wb => { t with writebuf := wb, accepted := t.accepted ++ [r] }
    | none => t
  | .emit k =>
    if t.out + k ≤ t.writebuf.length then
      { t with records := t.records ++ [(t.writebuf.drop t.out).take k], out := t.out + k }
    else t
  | .done => if t.out = t.writebuf.length then { t with writebuf := [], out := 0 } else t

/-- Any sequence of steps. -/
def txRun (t : TTx) (evs : List TxEv) : TTx := evs.foldl txStep t

end Verif.Tls
