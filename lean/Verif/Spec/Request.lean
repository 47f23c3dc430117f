import Verif.Model.Request
import Verif.Spec.RunAction
import Verif.Model.Diff
import Verif.Model.Retention

/-!
# What a user asks for
-/

namespace Verif.Request
open Verif RunAction

/-- What is done to backups, apart from answers and notes. -/
def isMain : Effect → Bool
  | .listed .. | .diffed .. | .restored .. | .verified .. | .deleted _ | .backedUp _ => true
  | _ => false

/-- Everything works on the server. -/
structure Works (e : Env) : Prop where
  mkpath : e.mkpath = true
  sent : e.sent = true
  received : e.received = true
  lock : e.lock = .got
  rubble : ∃ r, e.rubble = .ok r

/-- The server lets the client do this. -/
def permitted (c : Conf) (e : Env) : Want → Bool
  | .restore => c.canRestore || e.restoreFile
  | .verify => c.canVerify
  | .list => c.canList
  | .diff => c.canDiff
  | .delete => c.canDelete

/-- The options make sense: something to be deleted is named, and not both a directory and an expression are given. -/
def Sensible (a : Args) : Prop :=
  (a.want = .delete → a.backup ≠ none) ∧ (a.want = .list → a.browse = none ∨ a.regex = none)

/-- The backup is not given by a text that is hard to tell from the rest of the request. -/
def Plain (a : Args) : Prop :=
  (a.want ≠ .delete → NoColon (a.backup.getD [])) ∧
  (a.restoreList = false → ¬ bytes "restore_list " <+: a.backup.getD [])

/-- The number of bytes of all that was given. -/
def size (a : Args) : Nat :=
  (a.backup.getD []).length + (a.backup2.getD []).length + (a.regex.getD []).length + (a.browse.getD []).length

/-- It is not too long. -/
def Short (a : Args) : Prop := size a ≤ if a.want = .delete then 120 else 480

/-- An expression that is empty is none. -/
def given : Option Str → Option Str
  | some [] => none
  | r => r

/-- What must be done. For restoring and comparing, a backup that is not named is `0`. -/
def asked (a : Args) : Effect :=
  match a.want with
  | .restore => .restored (a.backup.getD (bytes "0")) (given a.regex) a.restoreList
  | .verify => .verified (a.backup.getD (bytes "0")) (given a.regex) a.restoreList
  | .list => match a.browse with
    | some d => .listed (some (a.backup.getD [])) none (some (Seed.stripTrailing d))
    | none => .listed (some (a.backup.getD [])) (some (a.regex.getD [])) none
  | .diff => .diffed (some (a.backup.getD (bytes "0"))) (some (a.backup2.getD (bytes "n")))
  | .delete => .deleted (a.backup.getD [])

/-- The backups that are restored or verified, of those the client has, and with which expression. -/
def chosen (l : List Restore.Bak) : Effect → Option (Bool × List Restore.Bak × Option Str)
  | .restored b r _ => some (true, Restore.select (some b) l, r)
  | .verified b r _ => some (false, Restore.select (some b) l, r)
  | _ => none

/-- What is listed. -/
def seen (l : List Bu) : Effect → Option Listing
  | .listed b r d => some (listServer b r d l)
  | _ => none

/-- What is compared. -/
def compared (l : List Restore.Bak) : Effect → Option (Diff.Chosen Restore.Bak)
  | .diffed b1 b2 => some (Diff.chooseBackups (·.bno) l b1 b2)
  | _ => none

/-- The answer to a request to delete. -/
def removedBy (l : List Retention.Named) : Effect → Option Retention.Answer
  | .deleted b => some (Retention.deleteServer b (Restore.requestNumber b) l)
  | _ => none

end Verif.Request
