import Verif.Model.Exchange

/-!
# The data of a restore, both sides: `src/server/restore.c`, `src/server/restore_sbuf.c`, `src/handy.c`,
`src/client/restore.c`, `src/sbuf.c`, `src/asfd.c`

The server sends the entries of a backup one after another. It looks for messages of the client between two
entries, and after each piece of a file, but not while it writes. The client restores what it reads, complains
about what it cannot restore, and reads nothing while it writes. Buffers and network are those of
`Verif.Exchange`.

Simplifications: those of `Verif.Exchange`; which entries are sent in which order is given; what becomes of an
entry on the client is given.
-/

namespace Verif.RestoreFlow
open Verif Verif.Transfer Verif.Exchange

/-! ### What the server sends -/

/-- An entry that is to be restored: a directory or a special file; a link; something with data, with the messages
that follow it (src/server/restore_sbuf.c:386-388); something whose data cannot be found, with the message that says
so (393-399). -/
inductive Entry where
  | plain (cmd : Cmd) (path attr : Str)
  | link (cmd : Cmd) (path attr target : Str)
  | data (cmd : Cmd) (path attr datapth : Str) (pieces : List Str) (ender : Str) (after : List Str)
  | missing (attr datapth warn : Str)
  deriving DecidableEq, Repr

/-- What the server does: it writes a message and does nothing else until that is in the buffer, `asfd_write`,
src/asfd.c:482-494; it looks once, while it sends the file with this data path, `do_quick_read`, src/handy.c:27-57;
it looks until there is nothing, `restore_stream`, src/server/restore.c:432-457. -/
inductive Op where
  | say (m : Msg)
  | look (datapth : Str)
  | drain
  deriving DecidableEq, Repr

/-- `restore_sbuf_all`, src/server/restore_sbuf.c:405-435, with `restore_file`, 355-403, `do_send_file`, 72-150, and
the senders of whole files, src/handy.c:59-172 and src/handy_extra.c:560-624: each piece is followed by a look. -/
def entryOps : Entry → List Op
  | .plain cmd path attr => [.say ⟨.attribs, attr⟩, .say ⟨cmd, path⟩]
  | .link cmd path attr target => [.say ⟨.attribs, attr⟩, .say ⟨cmd, path⟩, .say ⟨cmd, target⟩]
  | .data cmd path attr d pieces ender after =>
    [.say ⟨.datapth, d⟩, .say ⟨.attribs, attr⟩, .say ⟨cmd, path⟩] ++
    (pieces.flatMap (fun p => [.say ⟨.append, p⟩, .look d]) ++
    (.say ⟨.endFile, ender⟩ :: after.map (fun w => .say ⟨.warning, w⟩)))
  | .missing attr d warn => [.say ⟨.datapth, d⟩, .say ⟨.attribs, attr⟩, .say ⟨.warning, warn⟩]

/-- The end of the restore, src/server/restore.c:42. -/
def endMsg : Msg := ⟨.gen, bytes "restoreend"⟩

/-- The answer to it, src/client/restore.c:808-809. -/
def okMsg : Msg := ⟨.gen, bytes "restoreend ok"⟩

/-- `actual_restore`, src/server/restore.c:499-531, and `restore_end`, 40-44: the rounds of `restore_stream`,
408-497, each of which sends the directories that are complete and the entry, `restore_ent`, 317-389; one more that
finds the end of the manifest; the directories that remain, 391-406; the end. -/
def serverOps (rounds : List (List Entry)) (dirs : List Entry) : List Op :=
  rounds.flatMap (fun r => .drain :: r.flatMap entryOps) ++ (.drain :: dirs.flatMap entryOps ++ [.say endMsg])

/-- The file that is being sent is broken off: the end marker follows, src/handy.c:134-137 and
163-169, src/handy_extra.c:596-600 and 610-621. The marker then has another size and checksum, which the client does
not look at. -/
def cut : List Op → List Op
  | [] => []
  | .say m :: ops => if m.cmd = .endFile then .say m :: ops else cut ops
  | _ :: ops => cut ops

/-! ### The client -/

/-- What becomes of an entry on the client: whether it is refused (`restore_interrupt`), what the client says
before it reads any data, and what it says when it has the data. -/
structure Reply where
  refuse : Bool := false
  warns : List Str := []
  after : List Str := []
  deriving DecidableEq, Repr

/-- What the client does next with what it reads: it waits for an entry; for the target of a link; it receives data
(`transfer_gzfile_in`); it skips data; it has finished; it has failed. -/
inductive CMode where
  | idle
  | link (path : Str)
  | taking (path : Str) (got : List Str) (after : List Str)
  | skipping (path : Str)
  | over
  | failed
  deriving DecidableEq, Repr

/-- The client: `sb->datapth`, what will become of the entries, what it has to write before it reads again, and what
has become of the entries: nothing, or restored, with these data. -/
structure Cli where
  mode : CMode := .idle
  datapth : Option Str := none
  replies : List Reply := []
  pend : List Msg := []
  log : List (Str × Option (List Str)) := []
  deriving DecidableEq, Repr

/-- Messages for the user. -/
def says (ws : List Str) : List Msg := ws.map (fun w => ⟨.warning, w⟩)

/-- The client has an entry without data: `restore_dir`, `restore_special`, `restore_link` or `restore_interrupt`,
src/client/restore.c:890-905 and 41-47. -/
def dealPlain (c : Cli) (path : Str) (target : List Str) : Cli :=
  match c.replies with
  | [] => { c with mode := .failed }
  | r :: rs => ⟨.idle, none, rs, says r.warns, c.log ++ [(path, if r.refuse then none else some target)]⟩

/-- The client has an entry with data: `restore_interrupt`, src/client/restore.c:49-74, or `restore_switch`,
912-914. -/
def dealData (c : Cli) (path : Str) : Cli :=
  match c.replies with
  | [] => { c with mode := .failed }
  | r :: rs =>
    if r.refuse then
      match c.datapth with
      | none => ⟨.idle, none, rs, says r.warns, c.log ++ [(path, none)]⟩
      | some d => ⟨.skipping path, none, rs, says r.warns ++ [⟨.interrupt, d⟩], c.log⟩
    else ⟨.taking path [] r.after, none, rs, says r.warns, c.log⟩

/-- The client reads a message: `sbuf_fill_from_net`, src/sbuf.c:264-318, with `parse_cmd`, 135-262, then the rest of
the loop of `do_restore_client`, src/client/restore.c:797-915; the data in `transfer_gzfile_inl`,
src/transfer.c:192-299; the loop of `restore_interrupt`, src/client/restore.c:55-74. -/
def cliRead (c : Cli) (m : Msg) : Cli :=
  match c.mode with
  | .idle =>
    if m = endMsg then { c with mode := .over, pend := [okMsg] }
    else if m.cmd = .datapth then { c with datapth := some m.buf }
    else if m.cmd = .attribs then c
    else if m.cmd = .message ∨ m.cmd = .warning then c
    else if m.cmd.isLink then { c with mode := .link m.buf }
    else if m.cmd.isFiledata || m.cmd.isVssdata then dealData c m.buf
    else if m.cmd = .directory ∨ m.cmd = .special then dealPlain c m.buf []
    else { c with mode := .failed }
  | .link path =>
    if m.cmd.isLink then dealPlain c path [m.buf]
    else if m.cmd = .message ∨ m.cmd = .warning then c
    else { c with mode := .failed }
  | .taking path got after =>
    if m.cmd = .append then { c with mode := .taking path (got ++ [m.buf]) after }
    else if m.cmd = .endFile then { c with mode := .idle, pend := says after, log := c.log ++ [(path, some got)] }
    else if m.cmd = .message ∨ m.cmd = .warning then c
    else { c with mode := .failed }
  | .skipping path =>
    if m.buf = [] then c
    else if m.cmd = .append then c
    else if m.cmd = .endFile then { c with mode := .idle, log := c.log ++ [(path, none)] }
    else { c with mode := .failed }
  | .over => { c with mode := .failed }
  | .failed => c

/-! ### Both sides -/

/-- What the server has come to. -/
inductive Verdict where
  | running | done | error
  deriving DecidableEq, Repr

/-- Server, network and client: what the server has yet to do, the two buffers (`out`, `cout`), the two directions of
the network. -/
structure Sys where
  ops : List Op
  out : List Msg := []
  down : List Msg := []
  cli : Cli
  cout : List Msg := []
  up : List Msg := []
  verdict : Verdict := .running
  deriving DecidableEq, Repr

/-- What the server does with a message that comes at the end: `asfd_simple_loop`, src/asfd.c:508-555, with
`restore_end_func`, src/server/restore.c:27-38. -/
def atEnd (s : Sys) (m : Msg) : Sys :=
  if m.cmd = .gen then
    if m.buf = bytes "restoreend ok" ∨ m.buf = bytes "restoreend_ok" then { s with verdict := .done }
    else { s with verdict := .error }
  else if m.cmd = .warning ∨ m.cmd = .message ∨ m.cmd = .interrupt then s
  else { s with verdict := .error }

/-- What it does with one that comes between two entries, src/server/restore.c:440-457. -/
def between (s : Sys) (m : Msg) : Sys :=
  if m.cmd = .message ∨ m.cmd = .warning ∨ m.cmd = .interrupt then s else { s with verdict := .error }

/-- What it does with one that comes while it sends a file: `do_quick_read`, src/handy.c:34-56, and what follows,
129-137. -/
def during (s : Sys) (d : Str) (ops : List Op) (m : Msg) : Sys :=
  match Interrupt.doQuickRead d (some m) with
  | .go => { s with ops := ops }
  | .interrupt => { s with ops := cut ops }
  | .fatal => { s with verdict := .error }

/-- A step of either side, or of the network. -/
inductive Step (room : Room) : Sys → Sys → Prop where
  /-- `asfd_write`, src/asfd.c:482-494: a message is put into the buffer. -/
  | say (s : Sys) (m : Msg) (ops : List Op) : s.verdict = .running → s.ops = .say m :: ops → fits s.out m →
      Step room s { s with ops := ops, out := s.out ++ [m] }
  /-- The server looks while it sends a file, and there is nothing. -/
  | nothing (s : Sys) (d : Str) (ops : List Op) : s.verdict = .running → s.ops = .look d :: ops →
      Step room s { s with ops := ops }
  /-- The server looks while it sends a file, and there is a message. -/
  | look (s : Sys) (d : Str) (ops : List Op) (m : Msg) (ms : List Msg) : s.verdict = .running →
      s.ops = .look d :: ops → s.up = m :: ms → Step room s (during { s with up := ms } d ops m)
  /-- The server looks between two entries, and there is nothing. -/
  | drained (s : Sys) (ops : List Op) : s.verdict = .running → s.ops = .drain :: ops →
      Step room s { s with ops := ops }
  /-- The server looks between two entries, and there is a message. -/
  | drain (s : Sys) (ops : List Op) (m : Msg) (ms : List Msg) : s.verdict = .running → s.ops = .drain :: ops →
      s.up = m :: ms → Step room s (between { s with up := ms } m)
  /-- The server waits for the answer to the end. -/
  | receive (s : Sys) (m : Msg) (ms : List Msg) : s.verdict = .running → s.ops = [] → s.up = m :: ms →
      Step room s (atEnd { s with up := ms } m)
  /-- The server's buffer goes to the network, src/async.c:207-212. -/
  | flush (s : Sys) (m : Msg) (ms : List Msg) : s.verdict = .running → s.out = m :: ms →
      carries room.down s.down m → Step room s { s with out := ms, down := s.down ++ [m] }
  /-- The client reads a message, having written all it had to. -/
  | read (s : Sys) (m : Msg) (ms : List Msg) : s.cli.pend = [] → s.cli.mode ≠ .over → s.cli.mode ≠ .failed →
      s.down = m :: ms → Step room s { s with down := ms, cli := cliRead s.cli m }
  /-- The client writes a message, src/asfd.c:482-494. -/
  | write (s : Sys) (m : Msg) (ms : List Msg) : s.cli.pend = m :: ms → fits s.cout m →
      Step room s { s with cli := { s.cli with pend := ms }, cout := s.cout ++ [m] }
  /-- The client's buffer goes to the network. -/
  | cflush (s : Sys) (m : Msg) (ms : List Msg) : s.cout = m :: ms → carries room.up s.up m →
      Step room s { s with cout := ms, up := s.up ++ [m] }

/-- `n` steps. -/
inductive Steps (room : Room) : Nat → Sys → Sys → Prop where
  | refl (s : Sys) : Steps room 0 s s
  | step {n : Nat} {s t u : Sys} : Steps room n s t → Step room t u → Steps room (n + 1) s u

/-- How it starts. -/
def begin_ (rounds : List (List Entry)) (dirs : List Entry) (replies : List Reply) : Sys :=
  { ops := serverOps rounds dirs, cli := { replies := replies } }

end Verif.RestoreFlow
