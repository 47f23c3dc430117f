import Verif.Model.RunAction

/-!
# What requests may do
-/

namespace Verif.RunAction
open Verif Seed

/-- What a client is allowed to have done, by its settings. A file put in place by the administrator allows one
restore. -/
def Allowed (c : Conf) (restoreFile : Bool) : Effect → Prop
  | .listed .. => c.canList = true
  | .diffed .. => c.canDiff = true
  | .restored .. => c.canRestore = true ∨ restoreFile = true
  | .verified .. => c.canVerify = true
  | .deleted .. => c.canDelete = true
  | .backedUp .. => c.superClient = false
  | _ => True

/-- A text after an optional colon. -/
def afterColon : Option Str → Str
  | none => []
  | some t => 58 :: t

/-- No colon in a text. -/
def NoColon (s : Str) : Prop := (58 : Byte) ∉ s

/-- What must be done in answer to a request is what it says. -/
def AskedBy (buf : Str) : Effect → Prop
  | .listed backup regex browse => ∃ b, backup = some b ∧ NoColon b ∧
      (buf = bytes "list " ++ b ++ afterColon regex ∧ browse = none ∨
       regex = none ∧ ∃ d, buf = bytes "listb " ++ b ++ afterColon d ∧ browse = d.map stripTrailing)
  | .diffed b1 b2 => ∃ b, b1 = some b ∧ NoColon b ∧ buf = bytes "diff " ++ b ++ afterColon b2
  | .restored b regex list => NoColon b ∧ ∃ r, (regex = r ∨ regex = none ∧ r = some []) ∧
      buf = bytes "restore " ++ (if list then bytes "restore_list " else []) ++ b ++ afterColon r
  | .verified b regex list => NoColon b ∧ ∃ r, (regex = r ∨ regex = none ∧ r = some []) ∧
      buf = bytes "verify " ++ (if list then bytes "restore_list " else []) ++ b ++ afterColon r
  | .deleted b => buf = bytes "Delete " ++ b
  | .backedUp _ => bytes "backup" <+: buf ∧ ¬ bytes "backupphase1timedcheck" <+: buf
  | .recovered => bytes "backup" <+: buf ∨ bytes "Delete " <+: buf
  | _ => True

/-- Nothing but the note that there was a request, and the answer. -/
def Harmless : Effect → Prop
  | .wroteCreated | .loggedCommand | .said _ | .saidError _ => True
  | _ => False

/-- Changes to the backups of the client. -/
def Changes : Effect → Prop
  | .recovered | .deleted _ | .backedUp _ | .ranTimer => True
  | _ => False

/-- The requests the server knows. -/
def known : List Str := [bytes "list ", bytes "listb ", bytes "diff ", bytes "restore ", bytes "verify ",
  bytes "backup", bytes "Delete "]

end Verif.RunAction
