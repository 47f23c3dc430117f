import Verif.Model.Exchange
import Verif.Props.Interrupt

/-!
# What the second phase should come to
-/

namespace Verif.Exchange
open Verif Verif.Transfer Verif.Interrupt

/-- A message that fits into an empty buffer: 16000 bytes of data do, and so does any path. -/
def Small (m : Msg) : Prop := m.buf.length + 6 < bufMax - 1

/-- A file the server can ask for: it has data; a delta is only asked for of a plain file, with a data path that
the server made itself. -/
def Ask.Fine (a : Ask) : Prop :=
  (a.cmd.isFiledata = true ∨ a.cmd.isVssdata = true) ∧ (a.old.isSome = true → a.cmd = .file) ∧
  (∀ o, a.old = some o → PathCmp.hasDotComponent o.1 = false) ∧ ∀ m ∈ askMsgs a, Small m

/-- The request as the client has it, with the attributes that the file has by then. -/
def req (j : Ask × Ans) : Req := ⟨j.1.cmd, j.1.path, j.2.attr, j.1.old.map (·.1)⟩

/-- What the client sends about a file, in all. -/
def answer (j : Ask × Ans) : List Msg := j.2.warns ++ dataMsgs (req j) j.2.body

/-- A file that the client can answer for: it has vanished or the like, or it is sent to its end, or, unless it is
sent as a delta, it breaks off. -/
def JobFine (j : Ask × Ans) : Prop :=
  j.1.Fine ∧ (∀ m ∈ j.2.warns, Noise m) ∧
  (∀ b, j.2.body = some b → SentWhole b ∨ (SentPart b ∧ j.1.old = none)) ∧
  ∀ m ∈ answer j, Small m

/-- What the server should have saved in the end: the files that were sent to their end, in the order of the
requests, each with its own kind, path, attributes, contents, end marker, and data path if it is a delta. -/
def expected (jobs : List (Ask × Ans)) : List (Cmd × Str × Option Str × Str × Str × Option Str) :=
  jobs.filterMap (fun j => wanted (req j, j.2.body))

/-- All that the client has to read, and all that the server has to read. -/
def allAsked (jobs : List (Ask × Ans)) : List Msg := jobs.flatMap (fun j => askMsgs j.1) ++ [endMsg]

/-- See `allAsked`. -/
def allAnswered (jobs : List (Ask × Ans)) : List Msg := jobs.flatMap answer ++ [okMsg]

/-- The phase can go no further although it has not come to an end: the server is writing the end of the requests,
for which there is no room, and reads nothing; the client is writing, for which there is no room, and reads
nothing. -/
def Stalled (room : Room) (s : Sys) : Prop :=
  s.verdict = .running ∧ s.mode = .ending ∧ ¬ fits s.out endMsg ∧
  (∃ m ms, s.out = m :: ms ∧ ¬ carries room.down s.down m) ∧
  (∃ m ms, s.cli.pend = m :: ms ∧ ¬ fits s.cout m) ∧
  (∃ m ms, s.cout = m :: ms ∧ ¬ carries room.up s.up m)

/-- No step is possible. -/
def Stuck (room : Room) (s : Sys) : Prop := ∀ t, ¬ Step room s t

end Verif.Exchange
