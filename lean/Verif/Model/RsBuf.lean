import Verif.Model.Asfd
import Verif.Model.Cmd
import Verif.Model.BackupNumber

/-!
# Buffers around librsync: `src/rs_buf.c`, `src/client/backup_phase2.c`, `src/server/blocklen.c`

librsync is not modelled. What is known of a job is its interface: each time it is run it is told what
input there is, whether that is the last of it, and how much room there is for output, and it says how much
of the input it has used, what it has put out, and whether it has finished.

What the operating system does - how much a `read` gives, whether the network takes a message, whether a
`write` goes through - is chosen freely for each turn.
-/

namespace Verif.RsBuf
open Verif Verif.Iobuf

/-- `rs_result`, as far as the code makes a difference between its values. -/
inductive Result where
  | done
  | blocked
  | running
  | ioError
  /-- anything else that librsync returns -/
  | other
  deriving DecidableEq, Repr

/-- What one call of `rs_job_iter` comes to. -/
structure Iter (σ : Type) where
  job : σ
  used : Nat
  out : Str
  res : Result

/-- A librsync job: how it starts, and `rs_job_iter`, given what is in the input buffer, `eof_in`, and the
room in the output buffer. -/
structure Job (σ : Type) where
  init : σ
  iter : σ → Str → Bool → Nat → Iter σ

/-- `rs_buffers_t`. The input is `avail_in` bytes at `next_in`; `out` is what lies between the start of the
output buffer and `next_out`, `none` while `next_out` is `NULL`. That `next_in` and `next_out` point into
the buffers, which src/rs_buf.c:119-138,256-285 checks, is always so here and the checks are left out. -/
structure Bufs where
  data : Str := []
  eof : Bool := false
  out : Option Str := none
  deriving DecidableEq, Repr

/-- Where the input comes from: a file that is backed up (`bfd`), or one that is stored (`fzp`). -/
inductive Src where
  | bfd
  | fzp
  deriving DecidableEq, Repr

/-- Where the output goes. -/
inductive Sink where
  | net
  | file
  deriving DecidableEq, Repr

/-- What `read` does: it fails, or gives at most `k + 1` bytes, and none only if there are none. -/
inductive Read where
  | err
  | upTo (k : Nat)
  deriving DecidableEq, Repr

/-- What `append_all_to_write_buffer` does. -/
inductive App where
  | ok
  | blocked
  | error
  deriving DecidableEq, Repr

/-- What the operating system does in one turn: a read, a message to the network or a write to a file, and
`as->write` after that. -/
structure Turn where
  read : Read := .upTo 100000
  app : App := .ok
  /-- all of it was written to the file -/
  wrote : Bool := true
  /-- `as->write` succeeded -/
  net : Bool := true
  deriving DecidableEq, Repr

/-- A job with its two `rs_filebuf`s. `rest` is what has not been read of the input, `left` is `data_len` if
`do_known_byte_count` is set; `seen` is what was counted in `bytes` and given to `md5_update`; `sent` is
what has been written, a piece at a time. -/
structure St (σ : Type) where
  job : σ
  buf : Bufs := {}
  rest : Str
  left : Option Nat := none
  seen : Str := []
  sent : List Str := []

/-- How much is asked of `read`: src/rs_buf.c:170-187,210. -/
def ask (src : Src) (len : Nat) (left : Option Nat) : Nat :=
  match src, left with
  | .bfd, some n => min len n
  | _, _ => len

/-- `rs_infilebuf_fill`, src/rs_buf.c:98-237, for an input that is a file; `len` is `buf_len`.
`md5_update` does not fail. For an `fzp` there is an error when `read` gives nothing and it is not the end. -/
def fill {σ} (src : Src) (len : Nat) (r : Read) (s : St σ) : Result × St σ :=
  if s.buf.data.length > len then (.ioError, s)
  else if s.buf.eof then (.done, s)
  else if s.buf.data ≠ [] then (.done, s)
  else if ask src len s.left = 0 then (.done, { s with buf := { s.buf with eof := true } })
  else
    match r with
    | .err => (.ioError, s)
    | .upTo k =>
      let got := s.rest.take (min (ask src len s.left) (k + 1))
      if got = [] then (.done, { s with buf := { s.buf with eof := true } })
      else (.done, { s with
        buf := { s.buf with data := got }
        rest := s.rest.drop got.length
        left := s.left.map (· - got.length)
        seen := s.seen ++ got })

/-- `rs_outfilebuf_drain`, src/rs_buf.c:244-322. -/
def drain {σ} (sink : Sink) (t : Turn) (s : St σ) : Result × St σ :=
  match s.buf.out with
  | none => (.done, { s with buf := { s.buf with out := some [] } })
  | some w =>
    if w = [] then (.done, s)
    else
      let sent := { s with buf := { s.buf with out := some [] }, sent := s.sent ++ [w] }
      match sink with
      | .net =>
        match t.app with
        | .ok => (.done, sent)
        | .blocked => (.blocked, s)
        | .error => (.ioError, s)
      | .file => if t.wrote then (.done, sent) else (.ioError, s)

/-- The room in the output buffer: `avail_out`. -/
def room (len : Nat) : Option Str → Nat
  | none => 0
  | some w => len - w.length

/-- `rs_job_iter`, as far as the buffers are concerned. -/
def iter {σ} (j : Job σ) (outLen : Nat) (s : St σ) : Result × St σ :=
  let r := j.iter s.job s.buf.data s.buf.eof (room outLen s.buf.out)
  (r.res, { s with
    job := r.job
    buf := { s.buf with data := s.buf.data.drop r.used, out := s.buf.out.map (· ++ r.out) } })

/-- What is to be known of a run: the job, the two files, and the lengths of their buffers. -/
structure Setup (σ : Type) where
  job : Job σ
  src : Src
  sink : Sink
  inLen : Nat
  outLen : Nat

/-- `rs_async_drive`, src/rs_buf.c:324-356, with both callbacks. -/
def drive {σ} (u : Setup σ) (t : Turn) (s : St σ) : Result × St σ :=
  let f := if s.buf.eof then (.done, s) else fill u.src u.inLen t.read s
  if f.1 ≠ .done then f
  else
    let i := iter u.job u.outLen f.2
    if i.1 ≠ .done ∧ i.1 ≠ .blocked then i
    else
      let d := drain u.sink t i.2
      if d.1 ≠ .done then d else (i.1, d.2)

/-- What a run has come to. -/
inductive Outcome (σ : Type) where
  | going (s : St σ)
  | done (s : St σ)
  | failed

/-- The loops around `rs_async`: `load_signature_and_send_delta`, src/client/backup_phase2.c:93-141, and on
the server `maybe_send_sig` each time it is called, src/server/backup_phase2.c:653-686. -/
def run {σ} (u : Setup σ) : List Turn → St σ → Outcome σ
  | [], s => .going s
  | t :: ts, s =>
    match (drive u t s).1 with
    | .done => .done (drive u t s).2
    | .blocked => if t.net then run u ts (drive u t s).2 else .failed
    | .running => if t.net then run u ts (drive u t s).2 else .failed
    | _ => .failed

/-- `rs_whole_gzrun`, src/rs_buf.c:358-380, with librsync's `rs_job_drive`, which does what `rs_async_drive`
does until the job is done. -/
def whole {σ} (u : Setup σ) : List Turn → St σ → Outcome σ
  | [], s => .going s
  | t :: ts, s =>
    match (drive u t s).1 with
    | .done => .done (drive u t s).2
    | .blocked => whole u ts (drive u t s).2
    | _ => .failed

/-- How a run starts, `rs_filebuf_new`, src/rs_buf.c:52-83: the count is only kept to if it is not 0. -/
def begin_ {σ} (j : Job σ) (content : Str) (dataLen : Nat) : St σ :=
  { job := j.init, rest := content, left := if dataLen > 0 then some dataLen else none }

/-- The messages that are sent for a difference: `rs_outfilebuf_drain` makes those with the pieces,
src/rs_buf.c:294-296; at the end `load_signature_and_send_delta` sends `write_endfile` with what was read of
the file, src/client/backup_phase2.c:117-126. -/
def deltaMessages {σ} (md5 : Str → Str) : Outcome σ → Option (List Rec)
  | .done s => some (s.sent.map (fun p => ⟨Cmd.append.toByte, p⟩) ++
      [⟨Cmd.endFile.toByte, BackupNumber.decimal s.seen.length ++ 58 :: md5 s.seen⟩])
  | _ => none

/-! ### The signature that the client is sent -/

/-- What comes of loading a signature from the network. -/
inductive Loaded (σ : Type) where
  | going (job : σ)
  | done (job : σ)
  | failed
  /-- the bytes were copied past the end of the buffer -/
  | overflow

/-- `rs_async` with an input that is the network, and no output: `rs_infilebuf_fill` takes the message in
`rbuf`, src/rs_buf.c:149-167. -/
def takeMsg {σ} (j : Job σ) (len : Nat) (m : Rec) (job : σ) (data : Str) (eof : Bool) :
    Option (Result × σ × Str × Bool) :=
  let go (d : Str) (e : Bool) : Option (Result × σ × Str × Bool) :=
    let r := j.iter job d e 0
    some (r.res, r.job, d.drop r.used, e)
  if eof then go data true
  else if data.length > len then some (.ioError, job, data, eof)
  else if data ≠ [] then go data false
  else if m.cmd = Cmd.append.toByte then
    if m.buf.length > len then none else go m.buf false
  else if m.cmd = Cmd.endFile.toByte then go [] true
  else some (.ioError, job, data, eof)

/-- `rs_loadsig_network_run`, src/client/backup_phase2.c:19-60: messages are read until the signature has
been loaded. Messages that are for the log (`CMD_MESSAGE`, `CMD_WARNING`) are passed over; the others
go to `rs_async`. With no more messages it goes on waiting, or fails. -/
def loadSig {σ} (j : Job σ) (len : Nat) : List Rec → σ → Str → Bool → Loaded σ
  | [], job, _, _ => .going job
  | m :: ms, job, data, eof =>
    if m.cmd = Cmd.message.toByte ∨ m.cmd = Cmd.warning.toByte then loadSig j len ms job data eof
    else
      match takeMsg j len m job data eof with
      | none => .overflow
      | some (.done, job', _, _) => .done job'
      | some (.blocked, job', d, e) => loadSig j len ms job' d e
      | some (.running, job', d, e) => loadSig j len ms job' d e
      | some _ => .failed

/-! ### The length of a block -/

/-- The square root, rounded up. -/
def ceilSqrt : Nat → Nat
  | 0 => 0
  | n + 1 => if n + 1 ≤ ceilSqrt n * ceilSqrt n then ceilSqrt n else ceilSqrt n + 1

/-- `get_librsync_block_len`, src/server/blocklen.c:13-23, of the size of the old file. The square root is
taken in floating point there; below 2^34 rounding does not make a difference, and above it the result is
the greatest in any case. -/
def blockLen (oldLen : Nat) : Nat :=
  let r := (ceilSqrt oldLen + 15) / 16 * 16
  if r < 64 then 64 else if r > 2 ^ 17 then 2 ^ 17 else r

end Verif.RsBuf
