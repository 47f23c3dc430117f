import Verif.Model.Interrupt

/-!
# The second phase of a backup, both sides: `src/server/backup_phase2.c`, `src/client/backup_phase2.c`,
`src/asfd.c`, `src/async.c`

The server asks for files and takes what comes, in one loop that does not wait for either. The client answers
the requests one after another, and reads nothing while it writes. Each side puts its messages into a buffer of
a fixed size, from where they go to the network, which holds so and so many bytes in each direction.

Simplifications: messages go from the buffer to the network and from there to the other side as a whole, so that
the network takes a message of any length if it carries nothing else; the network loses nothing and is not broken
off; what the server finds out without the client (entries without data, files that have not changed) is left
out, and the files it has to ask for are given.
-/

namespace Verif.Exchange
open Verif Verif.Transfer Verif.Interrupt

/-! ### Buffers and network -/

/-- `asfd->bufmaxsize`, src/asfd.c:581 with `ASYNC_BUF_LEN`, src/async.h:4. -/
def bufMax : Nat := 16000 * 2 + 32

/-- The bytes of a message: command, four digits, contents, src/asfd.c:392-395,408. -/
def wire (m : Msg) : Nat := 5 + m.buf.length

/-- The bytes of some messages. -/
def load (ms : List Msg) : Nat := (ms.map wire).sum

/-- Not `APPEND_BLOCKED`: `asfd_append_all_to_write_buffer`, src/asfd.c:389-390. -/
def fits (buf : List Msg) (m : Msg) : Prop := load buf + 6 + m.buf.length < bufMax - 1

instance (buf : List Msg) (m : Msg) : Decidable (fits buf m) := inferInstanceAs (Decidable (_ < _))

/-- The network takes a message. -/
def carries (cap : Nat) (net : List Msg) (m : Msg) : Prop := net = [] ∨ load net + wire m ≤ cap

instance (cap : Nat) (net : List Msg) (m : Msg) : Decidable (carries cap net m) :=
  inferInstanceAs (Decidable (_ ∨ _))

/-- The bytes that the network holds on the way to the client, and on the way to the server. -/
structure Room where
  down : Nat
  up : Nat
  deriving DecidableEq, Repr

/-! ### The requests -/

/-- A file the server asks for: as a new one, or, if it has one to compare with, giving the data path and the
pieces of the signature. -/
structure Ask where
  cmd : Cmd
  path : Str
  attr : Str
  old : Option (Str × List Str)
  deriving DecidableEq, Repr

/-- What `do_stuff_to_send`, src/server/backup_phase2.c:613-686, sends for a file: data path, attributes, path,
signature and its end, as the flags say that are set in `process_changed_file`, 210-212, and `process_new`,
254-268. -/
def askMsgs (a : Ask) : List Msg :=
  (match a.old with
    | some (d, _) => [⟨.datapth, d⟩]
    | none => []) ++ [⟨.attribs, a.attr⟩, ⟨a.cmd, a.path⟩] ++
  (match a.old with
    | some (_, sig) => sig.map (fun p => ⟨.append, p⟩) ++ [⟨.endFile, bytes "endfile"⟩]
    | none => [])

/-- The end of the requests, src/server/backup_phase2.c:998. -/
def endMsg : Msg := ⟨.gen, bytes "backupphase2end"⟩

/-- The answer to it, src/client/backup_phase2.c:473. -/
def okMsg : Msg := ⟨.gen, bytes "okbackupphase2end"⟩

/-! ### The client -/

/-- What becomes of a file on the client: its attributes by now, the messages for the user before anything else,
and what the sender gives: nothing if the file has vanished, has the wrong size or cannot be opened. -/
structure Ans where
  attr : Str
  warns : List Msg
  body : Option (List Msg × SendRes)
  deriving DecidableEq, Repr

/-- What the client does next with what it reads: it waits for a request; it loads a signature and sends a delta
(`after`), which succeeds or not; it munches up a signature in `forget_file`; it has finished; it has failed. -/
inductive CMode where
  | idle
  | delta (path : Str) (after : List Msg) (ok : Bool)
  | munch
  | over
  | failed
  deriving DecidableEq, Repr

/-- The client: `sb->datapth`, what will become of the files, what it has to write before it reads again. -/
structure Cli where
  mode : CMode := .idle
  datapth : Option Str := none
  ans : List Ans := []
  pend : List Msg := []
  deriving DecidableEq, Repr

/-- `deal_with_data`, src/client/backup_phase2.c:212-387, with `forget_file`, 172-190: what is written, and what
is read before the next request. -/
def dealWith (c : Cli) (cmd : Cmd) (path : Str) : Cli :=
  match c.ans with
  | [] => ⟨.failed, none, [], []⟩
  | a :: as =>
    match a.body with
    | none =>
      ⟨if cmd = .file ∧ c.datapth.isSome then .munch else .idle, none, as, a.warns ++ [⟨.interrupt, path⟩]⟩
    | some (ms, res) =>
      if cmd = .file ∧ c.datapth.isSome then
        ⟨.delta path ms (res = .ok), none, as, a.warns ++ announce ⟨cmd, path, a.attr, c.datapth⟩⟩
      else match res with
        | .ok => ⟨.idle, none, as, a.warns ++ (announce ⟨cmd, path, a.attr, c.datapth⟩ ++ ms)⟩
        | .error => ⟨.idle, none, as,
            a.warns ++ (announce ⟨cmd, path, a.attr, c.datapth⟩ ++ ms ++ [⟨.interrupt, path⟩])⟩
        | .fatal => ⟨.failed, none, as, a.warns ++ (announce ⟨cmd, path, a.attr, c.datapth⟩ ++ ms)⟩

/-- A message while a signature is loaded: `rs_loadsig_network_run`, src/client/backup_phase2.c:34-53, with
`rs_infilebuf_fill`, src/rs_buf.c:154-166. The signature itself is in order. -/
inductive Sig where
  | more | complete | bad
  deriving DecidableEq, Repr

/-- See `Sig`. -/
def sigMsg (m : Msg) : Sig :=
  match m.cmd with
  | .append => .more
  | .message => .more
  | .warning => .more
  | .endFile => .complete
  | _ => .bad

/-- The client reads a message: `do_backup_phase2_client`, src/client/backup_phase2.c:464-482, `parse_rbuf`,
389-424, and the signatures. -/
def cliRead (c : Cli) (m : Msg) : Cli :=
  match c.mode with
  | .idle =>
    if m = endMsg then { c with mode := .over, pend := [okMsg] }
    else if m.cmd = .datapth then { c with datapth := some m.buf }
    else if m.cmd = .attribs then c
    else if m.cmd.isFiledata || m.cmd.isVssdata then dealWith c m.cmd m.buf
    else if m.cmd = .message ∨ m.cmd = .warning then c
    else { c with mode := .failed }
  | .delta path after ok =>
    match sigMsg m with
    | .more => c
    | .complete =>
      if ok then { c with mode := .idle, pend := after }
      else { c with mode := .munch, pend := after ++ [⟨.interrupt, path⟩] }
    | .bad => { c with mode := .munch, pend := [⟨.interrupt, path⟩] }
  | .munch =>
    match sigMsg m with
    | .more => c
    | .complete => { c with mode := .idle }
    | .bad => { c with mode := .failed }
  | .over => { c with mode := .failed }
  | .failed => c

/-! ### Both sides -/

/-- The server's requests: some are left; the last one is in the buffer and `asfd->write_str` is writing the end of
them; that is in the buffer, too. -/
inductive SMode where
  | asking | ending | ended
  deriving DecidableEq, Repr

/-- What `backup_phase2_server_all` has come to. -/
inductive Verdict where
  | running | done | error
  deriving DecidableEq, Repr

/-- Server, network and client: the files to be asked for, the rest of the request that is being sent (`p1b`), the
two buffers (`out`, `cout`), the two directions of the network, what the server receives. -/
structure Sys where
  todo : List Ask
  cur : List Msg := []
  mode : SMode := .asking
  out : List Msg := []
  down : List Msg := []
  cli : Cli
  cout : List Msg := []
  up : List Msg := []
  srv : Srv := {}
  verdict : Verdict := .running
  deriving DecidableEq, Repr

/-- The path of a file that has been asked for is remembered, src/server/backup_phase2.c:648-651. -/
def remember (s : Srv) (m : Msg) : Srv :=
  if m.cmd.isFiledata || m.cmd.isVssdata then { s with last := some m.buf } else s

/-- Whether the loop reads: src/server/backup_phase2.c:1251-1253. -/
def reads (s : Sys) : Prop :=
  (s.srv.last.isSome = true ∨ s.out ≠ [] ∨ s.mode = .ended) ∧ s.mode ≠ .ending

instance (s : Sys) : Decidable (reads s) := inferInstanceAs (Decidable (_ ∧ _))

/-- What the server does with a message, src/server/backup_phase2.c:1262-1276. -/
def take (s : Sys) (m : Msg) : Sys :=
  match doStuffToReceive s.srv m with
  | .ok t => { s with srv := t }
  | .finished t => { s with srv := t, verdict := .done }
  | .error => { s with verdict := .error }

/-- A step of either side, or of the network. -/
inductive Step (room : Room) : Sys → Sys → Prop where
  /-- `process_next_file_from_manios`, src/server/backup_phase2.c:1290-1293: the next file. -/
  | next (s : Sys) (a : Ask) (as : List Ask) : s.verdict = .running → s.mode = .asking → s.cur = [] →
      s.todo = a :: as → Step room s { s with todo := as, cur := askMsgs a }
  /-- There is no other file, src/server/backup_phase2.c:996-998. -/
  | last (s : Sys) : s.verdict = .running → s.mode = .asking → s.cur = [] → s.todo = [] →
      Step room s { s with mode := .ending }
  /-- `do_stuff_to_send`, src/server/backup_phase2.c:613-686, as long as it is not blocked. -/
  | send (s : Sys) (m : Msg) (ms : List Msg) : s.verdict = .running → s.mode = .asking → s.cur = m :: ms →
      fits s.out m → Step room s { s with cur := ms, out := s.out ++ [m], srv := remember s.srv m }
  /-- `asfd_write`, src/asfd.c:482-494: the end of the requests is put into the buffer. -/
  | sendEnd (s : Sys) : s.verdict = .running → s.mode = .ending → fits s.out endMsg →
      Step room s { s with mode := .ended, out := s.out ++ [endMsg] }
  /-- `async_io`, src/async.c:207-212: the server's buffer goes to the network. -/
  | flush (s : Sys) (m : Msg) (ms : List Msg) : s.verdict = .running → s.out = m :: ms →
      carries room.down s.down m → Step room s { s with out := ms, down := s.down ++ [m] }
  /-- The server reads a message. -/
  | receive (s : Sys) (m : Msg) (ms : List Msg) : s.verdict = .running → reads s → s.up = m :: ms →
      Step room s (take { s with up := ms } m)
  /-- The client reads a message, having written all it had to. -/
  | read (s : Sys) (m : Msg) (ms : List Msg) : s.cli.pend = [] → s.cli.mode ≠ .over → s.cli.mode ≠ .failed →
      s.down = m :: ms → Step room s { s with down := ms, cli := cliRead s.cli m }
  /-- The client writes a message, src/asfd.c:482-494. -/
  | write (s : Sys) (m : Msg) (ms : List Msg) : s.cli.pend = m :: ms → fits s.cout m →
      Step room s { s with cli := { s.cli with pend := ms }, cout := s.cout ++ [m] }
  /-- The client's buffer goes to the network. -/
  | cflush (s : Sys) (m : Msg) (ms : List Msg) : s.cout = m :: ms → carries room.up s.up m →
      Step room s { s with cout := ms, up := s.up ++ [m] }

/-- `n` steps. -/
inductive Steps (room : Room) : Nat → Sys → Sys → Prop where
  | refl (s : Sys) : Steps room 0 s s
  | step {n : Nat} {s t u : Sys} : Steps room n s t → Step room t u → Steps room (n + 1) s u

/-- How the phase starts, for files that the server has to ask for and what becomes of them on the client. -/
def begin_ (jobs : List (Ask × Ans)) : Sys :=
  { todo := jobs.map (·.1), cli := { ans := jobs.map (·.2) } }

end Verif.Exchange
