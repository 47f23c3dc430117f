import Verif.Model.Transfer

/-!
# Interrupting a file: `src/client/restore.c`, `src/handy.c`, `src/server/restore.c`,
`src/client/backup_phase2.c`, `src/server/backup_phase2.c`
-/

namespace Verif.Interrupt
open Verif Verif.Transfer

/-! ### Restore: the client wants no more of a file -/

/-- The loop of `restore_interrupt`, src/client/restore.c:55-74: read to the end marker. `none` is an error. -/
def skipToEnd : List Msg → Option (List Msg)
  | [] => none
  | m :: ms =>
    if m.buf.isEmpty then skipToEnd ms
    else match m.cmd with
      | .append => skipToEnd ms
      | .endFile => some ms
      | _ => none

/-- `restore_interrupt`, src/client/restore.c:18-79, without the warning it starts with: what is sent to the
server, and what is left to be read. -/
def restoreInterrupt (cmd : Cmd) (datapth : Option Str) (ms : List Msg) : List Msg × Option (List Msg) :=
  if !cmd.isFiledata && !cmd.isVssdata then ([], some ms)
  else match datapth with
    | none => ([], some ms)
    | some d => ([⟨.interrupt, d⟩], skipToEnd ms)

/-- `do_quick_read`, src/handy.c:27-57, given the message that has come, if any. -/
def doQuickRead (datapth : Str) : Option Msg → Qr
  | none => .go
  | some m => match m.cmd with
    | .message => .go
    | .warning => .go
    | .interrupt => if m.buf = datapth then .interrupt else .go
    | _ => .fatal

/-! ### Restore: both sides together

Client and server run concurrently; the connection in each direction delivers messages in order, at any
time after they were sent. Simplifications: the messages that announce a file (data path, attributes, path)
are one message, `hdr`; files the client has to interrupt are given by a function; entries without data,
about which nothing is read or interrupted, are left out. -/

/-- A file on the server. -/
structure File where
  datapth : Str
  pieces : List Str
  deriving DecidableEq, Repr

/-- From the server to the client. -/
inductive Down where
  | hdr (f : File)
  | data (b : Str)
  | fin
  deriving DecidableEq, Repr

/-- What the client is doing: waiting for a file, receiving one (`transfer_gzfile_inl`), skipping one
(`restore_interrupt`), or it has met an unexpected message. -/
inductive Mode where
  | idle
  | taking (f : File) (got : List Str)
  | skipping (f : File)
  | failed
  deriving DecidableEq, Repr

/-- The client: what it is doing and what became of the files so far (`none`: interrupted). -/
structure Client where
  mode : Mode := .idle
  log : List (File × Option (List Str)) := []
  deriving DecidableEq, Repr

/-- The client reads a message: `do_restore_client`, src/client/restore.c, with `transfer_gzfile_inl`,
src/transfer.c:192-299, or `restore_interrupt`. The second part is what it sends. -/
def clientRead (wants : File → Bool) (c : Client) (m : Down) : Client × List Str :=
  match c.mode, m with
  | .idle, .hdr f => if wants f then ({ c with mode := .taking f [] }, [])
      else ({ c with mode := .skipping f }, [f.datapth])
  | .taking f got, .data b => ({ c with mode := .taking f (got ++ [b]) }, [])
  | .taking f got, .fin => (⟨.idle, c.log ++ [(f, some got)]⟩, [])
  | .skipping f, .data _ => (⟨.skipping f, c.log⟩, [])
  | .skipping f, .fin => (⟨.idle, c.log ++ [(f, none)]⟩, [])
  | _, _ => ({ c with mode := .failed }, [])

/-- Server, client, and the messages on their way. -/
structure Sys where
  todo : List File
  cur : Option (File × List Str) := none
  down : List Down := []
  up : List Str := []
  client : Client := {}
  deriving DecidableEq, Repr

/-- A step of either side. -/
inductive Step (wants : File → Bool) : Sys → Sys → Prop where
  /-- The next file is announced, `do_send_file`, src/server/restore_sbuf.c:81. -/
  | start (s : Sys) (f : File) (fs : List File) : s.cur = none → s.todo = f :: fs →
      Step wants s { s with todo := fs, cur := some (f, f.pieces), down := s.down ++ [.hdr f] }
  /-- A late interrupt is ignored, `restore_stream`, src/server/restore.c:448-453. -/
  | ignore (s : Sys) (i : Str) (is : List Str) : s.cur = none → s.up = i :: is →
      Step wants s { s with up := is }
  /-- A piece is sent, and the quick read after it finds nothing, src/handy_extra.c:582-601. -/
  | send (s : Sys) (f : File) (p : Str) (ps : List Str) : s.cur = some (f, p :: ps) →
      Step wants s { s with cur := some (f, ps), down := s.down ++ [.data p] }
  /-- A piece is sent, and the quick read after it finds an interrupt: if it is for this file, the end
  marker follows. -/
  | sendRead (s : Sys) (f : File) (p : Str) (ps : List Str) (i : Str) (is : List Str) :
      s.cur = some (f, p :: ps) → s.up = i :: is →
      Step wants s (if doQuickRead f.datapth (some ⟨.interrupt, i⟩) = .interrupt
        then { s with cur := none, up := is, down := s.down ++ [.data p, .fin] }
        else { s with cur := some (f, ps), up := is, down := s.down ++ [.data p] })
  /-- The end marker. -/
  | finish (s : Sys) (f : File) : s.cur = some (f, []) →
      Step wants s { s with cur := none, down := s.down ++ [.fin] }
  /-- The client reads. -/
  | read (s : Sys) (m : Down) (ms : List Down) : s.down = m :: ms →
      Step wants s { s with down := ms, client := (clientRead wants s.client m).1,
                            up := s.up ++ (clientRead wants s.client m).2 }

/-- Any number of steps. -/
inductive Run (wants : File → Bool) : Sys → Sys → Prop where
  | refl (s : Sys) : Run wants s s
  | step {s t u : Sys} : Run wants s t → Step wants t u → Run wants s u

/-! ### Backup: the client forgets a file -/

/-- `rs_loadsig_network_run`, src/client/backup_phase2.c:19-60, with `rs_infilebuf_fill`,
src/rs_buf.c:154-173: read to the end of the signature. Simplification: the signature itself is in order. -/
def loadSignature : List Msg → Option (List Msg)
  | [] => none
  | m :: ms => match m.cmd with
    | .message => loadSignature ms
    | .warning => loadSignature ms
    | .append => loadSignature ms
    | .endFile => some ms
    | _ => none

/-- What becomes of a file the server asked for: it cannot be opened (has vanished, has the wrong size), it
is sent, or reading it fails half way. -/
inductive Fate where
  | unreadable | sent | broken
  deriving DecidableEq, Repr

/-- `forget_file`, src/client/backup_phase2.c:172-190, what it reads. -/
def forgetFile (cmd : Cmd) (datapth : Option Str) (ms : List Msg) : Option (List Msg) :=
  if cmd = .file ∧ datapth.isSome then loadSignature ms else some ms

/-- What `deal_with_data`, src/client/backup_phase2.c:215-388, reads of the messages that follow the
request for a file. -/
def dealWithData (cmd : Cmd) (datapth : Option Str) (fate : Fate) (ms : List Msg) : Option (List Msg) :=
  match fate with
  | .unreadable => forgetFile cmd datapth ms
  | .sent => if cmd = .file ∧ datapth.isSome then loadSignature ms else some ms
  | .broken =>
    if cmd = .file ∧ datapth.isSome then
      match loadSignature ms with
      | none => forgetFile cmd datapth []
      | some ms' => forgetFile cmd datapth ms'
    else forgetFile cmd datapth ms

/-- A file that the server has saved: where (for a new file, the number of the data file), whether it is
a delta, and what it got. -/
structure Saved where
  cmd : Cmd
  path : Str
  attr : Option Str
  place : Str ⊕ Nat
  content : Str
  endfile : Str
  deriving DecidableEq, Repr

/-- `struct sbuf *rb` while receiving. -/
structure Rb where
  datapth : Option Str := none
  attr : Option Str := none
  cur : Option (Cmd × Str × (Str ⊕ Nat) × Str) := none
  deriving DecidableEq, Repr

/-- The receiving side of the server in phase 2: the entry being received, the entries written to the
manifest, the path it waits for, the number of the next data file. -/
structure Srv where
  rb : Rb := {}
  saved : List Saved := []
  last : Option Str := none
  next : Nat := 0
  deriving DecidableEq, Repr

/-- What `do_stuff_to_receive` returns. -/
inductive Rcvd where
  | ok (s : Srv)
  | finished (s : Srv)
  | error
  deriving DecidableEq, Repr

/-- `*last_requested` is forgotten if it is this path. -/
def forgetLast (last : Option Str) (path : Str) : Option Str :=
  if last = some path then none else last

/-- `do_stuff_to_receive`, src/server/backup_phase2.c:833-917, with `deal_with_receive_append`, 783-798,
`deal_with_receive_end_file`, 718-781, and `deal_with_filedata`, 800-823. Files can be opened, written and
renamed; an append without bytes is an error. -/
def doStuffToReceive (s : Srv) (m : Msg) : Rcvd :=
  if m.cmd = .message ∨ m.cmd = .warning then .ok s
  else match s.rb.cur with
    | some (cmd, path, place, content) =>
      if m.cmd = .append then
        if m.buf.isEmpty then .error
        else .ok { s with rb := { s.rb with cur := some (cmd, path, place, content ++ m.buf) } }
      else if m.cmd = .endFile then
        .ok { s with rb := {}, saved := s.saved ++ [⟨cmd, path, s.rb.attr, place, content, m.buf⟩],
                     last := forgetLast s.last path }
      else if m.cmd = .interrupt then .ok { s with rb := {}, last := forgetLast s.last m.buf }
      else .error
    | none =>
      if m.cmd = .datapth then
        if PathCmp.hasDotComponent m.buf then .error
        else .ok { s with rb := { s.rb with datapth := some m.buf } }
      else if m.cmd = .attribs then .ok { s with rb := { s.rb with attr := some m.buf } }
      else if m.cmd = .gen then
        if m.buf = bytes "okbackupphase2end" then .finished s else .error
      else if m.cmd = .interrupt then .ok { s with last := forgetLast s.last m.buf }
      else if m.cmd.isFiledata || m.cmd.isVssdata then
        match s.rb.datapth with
        | some d => .ok { s with rb := { s.rb with cur := some (m.cmd, m.buf, .inl d, []) } }
        | none => .ok { s with rb := { s.rb with cur := some (m.cmd, m.buf, .inr s.next, []) },
                               next := s.next + 1 }
      else .error

/-- The messages from the client one after another. -/
def receiveAll (s : Srv) : List Msg → Rcvd
  | [] => .ok s
  | m :: ms => match doStuffToReceive s m with
    | .ok s' => receiveAll s' ms
    | r => r

/-- A request of the server for a file, as the client holds it; the attributes are its own. -/
structure Req where
  cmd : Cmd
  path : Str
  attr : Str
  datapth : Option Str
  deriving DecidableEq, Repr

/-- The messages that announce a file, src/client/backup_phase2.c:322-330,344-346. -/
def announce (r : Req) : List Msg :=
  (match r.datapth with
    | some d => if r.cmd = .file then [⟨.datapth, d⟩] else []
    | none => []) ++ [⟨.attribs, r.attr⟩, ⟨r.cmd, r.path⟩]

/-- What `deal_with_data`, src/client/backup_phase2.c:215-388, writes: for a file that cannot be opened (no
`body`), or has vanished, or has the wrong size, it says so; otherwise it announces the file, as a delta if
it was asked for one, and sends what the sender gives (`send_whole_file_w` or
`load_signature_and_send_delta`). `forget_file`, 172-190, follows if that failed. -/
def dataMsgs (r : Req) (body : Option (List Msg × SendRes)) : List Msg :=
  match body with
  | none => [⟨.interrupt, r.path⟩]
  | some b =>
    announce r ++ b.1 ++ (if b.2 = .error then [⟨.interrupt, r.path⟩] else [])

end Verif.Interrupt
