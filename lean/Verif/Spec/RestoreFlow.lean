import Verif.Model.RestoreFlow
import Verif.Spec.Exchange

/-!
# What the data of a restore should come to
-/

namespace Verif.RestoreFlow
open Verif Verif.Transfer
open Verif.Exchange (bufMax wire load fits carries Room Small)

/-- The path of an entry, and what is restored from it: nothing but the entry itself, the target of a link, the
pieces of the data. There is none if the server cannot find the data. -/
def Entry.shown : Entry → Option (Str × List Str)
  | .plain _ path _ => some (path, [])
  | .link _ path _ target => some (path, [target])
  | .data _ path _ _ pieces _ _ => some (path, pieces)
  | .missing _ _ _ => none

/-- What should become of the entries: each one that the client does not refuse is restored, with all of its data,
in the order in which they were sent. -/
def expected : List Entry → List Reply → List (Str × Option (List Str))
  | [], _ => []
  | e :: es, rs =>
    match e.shown, rs with
    | none, rs => expected es rs
    | some _, [] => []
    | some (path, content), r :: rs => (path, if r.refuse then none else some content) :: expected es rs

/-- What the client says about an entry. -/
def answer (e : Entry) (r : Reply) : List Msg :=
  match e with
  | .data _ _ _ d _ _ _ => says r.warns ++ if r.refuse then [⟨.interrupt, d⟩] else says r.after
  | _ => says r.warns

/-- What the client says about all of them. -/
def answers : List Entry → List Reply → List Msg
  | [], _ => []
  | e :: es, rs =>
    match e.shown, rs with
    | none, rs => answers es rs
    | some _, [] => []
    | some _, r :: rs => answer e r ++ answers es rs

/-- The data path of an entry with data. -/
def Entry.dpth : Entry → Option Str
  | .data _ _ _ d _ _ _ => some d
  | _ => none

/-- The messages among what the server does. -/
def sayMsgs (ops : List Op) : List Msg :=
  ops.filterMap (fun o => match o with
    | .say m => some m
    | _ => none)

/-- An entry that is in order: the kind of it is what it should be; data path and end marker are not empty; each
message fits into an empty buffer. -/
def Entry.Fine (e : Entry) : Prop :=
  (match e with
    | .plain cmd _ _ => cmd = .directory ∨ cmd = .special
    | .link cmd _ _ _ => cmd.isLink = true
    | .data cmd _ _ d _ ender _ => (cmd.isFiledata = true ∨ cmd.isVssdata = true) ∧ d ≠ [] ∧ ender ≠ []
    | .missing _ _ _ => True) ∧
  ∀ m ∈ sayMsgs (entryOps e), Small m

/-- A restore that is in order: the entries are, no two of them have the same data path, there is something that
becomes of each, and what the client says fits into an empty buffer. -/
structure Fine (rounds : List (List Entry)) (dirs : List Entry) (replies : List Reply) : Prop where
  entries : ∀ e ∈ rounds.flatten ++ dirs, e.Fine
  dpths : ((rounds.flatten ++ dirs).filterMap Entry.dpth).Nodup
  count : replies.length = ((rounds.flatten ++ dirs).filterMap Entry.shown).length
  small : ∀ m ∈ answers (rounds.flatten ++ dirs) replies, Small m

/-- All that the client has to read, and all that the server has to read. -/
def allSaid (rounds : List (List Entry)) (dirs : List Entry) : List Msg := sayMsgs (serverOps rounds dirs)

/-- See `allSaid`. -/
def allAnswered (rounds : List (List Entry)) (dirs : List Entry) (replies : List Reply) : List Msg :=
  answers (rounds.flatten ++ dirs) replies ++ [okMsg]

/-- The restore can go no further although it has not come to an end: the server is writing, for which there is no
room, and reads nothing; the client is writing, for which there is no room, and reads nothing. -/
def Stalled (room : Room) (s : Sys) : Prop :=
  s.verdict = .running ∧ (∃ m ops, s.ops = .say m :: ops ∧ ¬ fits s.out m) ∧
  (∃ m ms, s.out = m :: ms ∧ ¬ carries room.down s.down m) ∧
  (∃ m ms, s.cli.pend = m :: ms ∧ ¬ fits s.cout m) ∧
  (∃ m ms, s.cout = m :: ms ∧ ¬ carries room.up s.up m)

/-- No step is possible. -/
def Stuck (room : Room) (s : Sys) : Prop := ∀ t, ¬ Step room s t

end Verif.RestoreFlow
