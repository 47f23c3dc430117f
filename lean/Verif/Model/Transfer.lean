import Verif.Model.Cmd
import Verif.Model.BackupNumber

/-!
# Sending and receiving the contents of a file: `src/handy_extra.c`, `src/transfer.c`, `src/msg.c`

zlib and the ciphers of OpenSSL are parameters: what they do to the bytes they are given is not part of
burp. So is the digest. Write errors of the connection are not modelled on the sending side: what the
receiver sees of them is a stream of messages that stops. The parts for Windows (`HAVE_WIN32`) are left
out.
-/

namespace Verif.Transfer
open Verif Verif.BackupNumber

/-- A message between client and server. -/
structure Msg where
  cmd : Cmd
  buf : Str
  deriving DecidableEq, Repr

/-- zlib, `deflate` and `inflate` (`Z_NO_FLUSH`, then `Z_FINISH`). One call of `deflate` here is all the
calls of it for one piece of input; what each call puts out is an element of the list. `inflate` gives
`none` for `Z_NEED_DICT`, `Z_DATA_ERROR` and `Z_MEM_ERROR`. -/
structure Zlib where
  D : Type
  dinit : D
  deflate : D → Str → D × List Str
  finish : D → List Str
  I : Type
  iinit : I
  inflate : I → Str → Option (I × List Str)

/-- `EVP_CipherUpdate` and `EVP_CipherFinal_ex`, in both directions, after `enc_setup`,
src/handy_extra.c:44-137. -/
structure Crypt where
  E : Type
  einit : E
  encrypt : E → Str → E × Str
  encryptFinal : E → Str
  D : Type
  dinit : D
  decrypt : D → Str → Option (D × Str)
  decryptFinal : D → Option Str

/-- What the sender learns between two messages, `do_quick_read`, src/handy.c:27-57: nothing, the other
side wants no more of the file, or an error. -/
inductive Qr where
  | go | interrupt | fatal
  deriving DecidableEq, Repr

/-- How reading a file ends. -/
inductive Ending where
  | eof | error
  deriving DecidableEq, Repr

/-- `enum send_e`, src/handy_extra.h. -/
inductive SendRes where
  | ok | error | fatal
  deriving DecidableEq, Repr

/-- The sender: state of the cipher, messages sent, number of quick reads, bytes that went into the
digest, bytes read, what the last quick read said. -/
structure Tx (E : Type) where
  enc : E
  out : List Msg := []
  n : Nat := 0
  sum : Str := []
  bytes : Nat := 0
  flow : Qr := .go

/-- `asfd->write` of a `CMD_APPEND`; `asfd_write`, src/asfd.c:482-494, sends nothing for an empty buffer. -/
def emit {E : Type} (t : Tx E) (b : Str) : Tx E :=
  if b.isEmpty then t else { t with out := t.out ++ [⟨.append, b⟩] }

/-- The quick read after a message, src/handy_extra.c:333-345,588-601. -/
def quickRead {E : Type} (qr : Option (Nat → Qr)) (t : Tx E) : Tx E :=
  match qr with
  | none => t
  | some q => { t with n := t.n + 1, flow := q t.n }

/-- One piece of output of `send_whole_file_gzl`, src/handy_extra.c:315-345, with `do_encryption`,
src/handy_extra.c:19-42. -/
def sendPiece (c : Crypt) (enc : Bool) (qr : Option (Nat → Qr)) (t : Tx c.E) (p : Str) : Tx c.E :=
  quickRead qr
    (if enc then
      if p.isEmpty then t
      else
        let r := c.encrypt t.enc p
        { emit t r.2 with enc := r.1, sum := t.sum ++ r.2 }
    else emit t p)

/-- The inner loop of `send_whole_file_gzl`, src/handy_extra.c:294-347. -/
def sendPieces (c : Crypt) (enc : Bool) (qr : Option (Nat → Qr)) (t : Tx c.E) : List Str → Tx c.E
  | [] => t
  | p :: ps =>
    let t1 := sendPiece c enc qr t p
    if t1.flow = .go then sendPieces c enc qr t1 ps else t1

/-- The outer loop of `send_whole_file_gzl` up to the end of the input, src/handy_extra.c:223-359.
`chunks` is what `bfd->read` gives. -/
def gzChunks (z : Zlib) (c : Crypt) (comp enc : Bool) (qr : Option (Nat → Qr)) (d : z.D) (t : Tx c.E) :
    List Str → z.D × Tx c.E
  | [] => (d, t)
  | ch :: chs =>
    let r := if comp then z.deflate d ch else (d, [ch])
    let t1 := sendPieces c enc qr
      { t with bytes := t.bytes + ch.length, sum := if enc then t.sum else t.sum ++ ch } r.2
    if t1.flow = .go then gzChunks z c comp enc qr r.1 t1 chs else (r.1, t1)

/-- `write_endfile`, src/handy_extra.c:148-152, with `get_endfile_str`, src/handy_extra.c:139-146: the
number of bytes read, a colon and the digest. -/
def endMsg {E : Type} (md5 : Str → Str) (t : Tx E) : Msg :=
  ⟨.endFile, decimal t.bytes ++ 58 :: md5 t.sum⟩

/-- The warning that `logw` sends to the other side when a file cannot be read. -/
def readWarning : Msg := ⟨.warning, bytes "Error when reading"⟩

/-- The end of `send_whole_file_gzl` after the loops, src/handy_extra.c:361-414: finish encrypting unless
interrupted, then the end marker. -/
def gzEnd (c : Crypt) (enc : Bool) (md5 : Str → Str) (t : Tx c.E) : List Msg × SendRes :=
  match t.flow with
  | .fatal => (t.out, .fatal)
  | .interrupt => (t.out ++ [endMsg md5 t], .ok)
  | .go =>
    let t1 := if enc then { emit t (c.encryptFinal t.enc) with sum := t.sum ++ c.encryptFinal t.enc } else t
    (t1.out ++ [endMsg md5 t1], .ok)

/-- `send_whole_file_gzl`, src/handy_extra.c:163-414: all the messages for one file. -/
def sendGz (z : Zlib) (c : Crypt) (comp enc : Bool) (md5 : Str → Str) (qr : Option (Nat → Qr))
    (chunks : List Str) (e : Ending) : List Msg × SendRes :=
  let r := gzChunks z c comp enc qr z.dinit { enc := c.einit } chunks
  if r.2.flow = .go then
    match e with
    | .error => (r.2.out ++ [readWarning], .error)
    | .eof => gzEnd c enc md5 (sendPieces c enc qr r.2 (if comp then z.finish r.1 else []))
  else gzEnd c enc md5 r.2

/-- The loop of `send_whole_filel`, src/handy_extra.c:547-607. -/
def rawChunks (qr : Option (Nat → Qr)) (t : Tx Unit) : List Str → Tx Unit
  | [] => t
  | ch :: chs =>
    let t1 := quickRead qr (emit { t with bytes := t.bytes + ch.length, sum := t.sum ++ ch } ch)
    if t1.flow = .go then rawChunks qr t1 chs else t1

/-- `send_whole_filel`, src/handy_extra.c:456-624: the file as it is. The end marker is sent unless there
was a fatal error, so also after a file could not be read to its end. -/
def sendRaw (md5 : Str → Str) (qr : Option (Nat → Qr)) (chunks : List Str) (e : Ending) : List Msg × SendRes :=
  let t := rawChunks qr { enc := () } chunks
  match t.flow, e with
  | .fatal, _ => (t.out, .fatal)
  | .interrupt, _ => (t.out ++ [endMsg md5 t], .ok)
  | .go, .eof => (t.out ++ [endMsg md5 t], .ok)
  | .go, .error => (t.out ++ [readWarning, endMsg md5 t], .error)

/-- A file being written: given what it holds and the bytes to be written, what `bfd->write` returns:
-1, or the number of bytes taken (`write` may take fewer than it was given). -/
abbrev Dev := Str → Str → Int

/-- `do_write`, src/transfer.c:14-46 (without metadata), src/msg.c:23-36: anything positive is success. -/
def doWrite (dev : Dev) (file out : Str) : Option Str :=
  if dev file out ≤ 0 then none else some (file ++ out.take (dev file out).toNat)

/-- The writes of one call of `do_inflate`, src/transfer.c:64-83: nothing is written for an empty piece. -/
def writePieces (dev : Dev) (file : Str) : List Str → Option Str
  | [] => some file
  | p :: ps =>
    if p.isEmpty then writePieces dev file ps
    else match doWrite dev file p with
      | none => none
      | some f => writePieces dev f ps

/-- The receiver: state of the decompressor and of the cipher, and what the file holds. -/
structure Rx (z : Zlib) (c : Crypt) where
  infl : z.I
  dec : c.D
  file : Str

/-- `do_inflate`, src/transfer.c:48-85: what was encrypted without being compressed is written as it is.
On `none`, the file may hold some of the output already. -/
def doInflate (z : Zlib) (c : Crypt) (comp enc : Bool) (dev : Dev) (s : Rx z c) (b : Str) : Option (Rx z c) :=
  if enc && !comp then
    match doWrite dev s.file b with
    | none => none
    | some f => some { s with file := f }
  else match z.inflate s.infl b with
    | none => none
    | some (i, ps) => match writePieces dev s.file ps with
      | none => none
      | some f => some { s with infl := i, file := f }

/-- A `CMD_APPEND`, src/transfer.c:213-259. -/
def onAppend (z : Zlib) (c : Crypt) (comp enc : Bool) (dev : Dev) (s : Rx z c) (b : Str) : Option (Rx z c) :=
  if enc then
    match c.decrypt s.dec b with
    | none => none
    | some (d, o) =>
      if o.isEmpty then some { s with dec := d }
      else doInflate z c comp enc dev { s with dec := d } o
  else doInflate z c comp enc dev s b

/-- A `CMD_END_FILE`, src/transfer.c:260-284. -/
def onEnd (z : Zlib) (c : Crypt) (comp enc : Bool) (dev : Dev) (s : Rx z c) : Option (Rx z c) :=
  if enc then
    match c.decryptFinal s.dec with
    | none => none
    | some o => if o.isEmpty then some s else doInflate z c comp enc dev s o
  else some s

/-- What a transfer comes to: whether 0 was returned, the file, and the messages not read. -/
structure Got where
  ok : Bool
  file : Str
  rest : List Msg
  deriving DecidableEq, Repr

/-- `transfer_gzfile_inl`, src/transfer.c:154-311. With `enc := false` it is also `transfer_gzfile_in`,
src/msg.c:70-139. The end of the list is a connection that fails. -/
def transfer (z : Zlib) (c : Crypt) (comp enc : Bool) (dev : Dev) (s : Rx z c) : List Msg → Got
  | [] => ⟨false, s.file, []⟩
  | m :: ms =>
    match m.cmd with
    | .append => match onAppend z c comp enc dev s m.buf with
      | none => ⟨false, s.file, ms⟩
      | some s' => transfer z c comp enc dev s' ms
    | .endFile => match onEnd z c comp enc dev s with
      | none => ⟨false, s.file, ms⟩
      | some s' => ⟨true, s'.file, ms⟩
    | .message => transfer z c comp enc dev s ms
    | .warning => transfer z c comp enc dev s ms
    | _ => ⟨false, s.file, ms⟩

/-- A transfer into a new file. -/
def receive (z : Zlib) (c : Crypt) (comp enc : Bool) (dev : Dev) (ms : List Msg) : Got :=
  transfer z c comp enc dev ⟨z.iinit, c.dinit, []⟩ ms

/-- `receive_a_file`, src/handy.c:504-544, used for certificates and the configuration sent by the server:
the result of the transfer is overwritten. The file was opened and can be closed. -/
def receiveAFile (z : Zlib) (c : Crypt) (dev : Dev) (ms : List Msg) : Got :=
  { receive z c false false dev ms with ok := true }

end Verif.Transfer
