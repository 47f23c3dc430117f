import Verif.Model.Notify

/-!
# Which scripts should be run, and what they should be told
-/

namespace Verif.Notify
open Verif Verif.RunAction

/-- The command lines of the scripts that were run, in order. -/
def scripts : List Ev → List (List Str)
  | [] => []
  | .script cmd :: l => cmd :: scripts l
  | .did _ :: l => scripts l

/-- A backup was begun. -/
def Began (l : List Ev) : Prop := ∃ resume, Ev.did (.backedUp resume) ∈ l

/-- The settings ask to be told of a successful backup like this one. -/
def Wanted (s : Settings) (w : World) : Prop :=
  (s.warningsOnly = false ∧ s.changesOnly = false) ∨ (s.warningsOnly = true ∧ 0 < w.warnings) ∨
    (s.changesOnly = true ∧ 0 < w.changed)

instance (s : Settings) (w : World) : Decidable (Wanted s w) := by unfold Wanted; infer_instance

/-- Failures are not to be told of while there are other servers to try. -/
def Hushed (s : Settings) (w : World) : Prop := s.failoversSetting = true ∧ w.failoversLeft = true

/-- What a server script is called with before anything else: its name, when it is run, the action, the client,
and two flags. -/
def told (s : Settings) (script kind action : Str) (failed notMet : Bool) : List Str :=
  [script, kind, action, s.cname, if failed then bytes "1" else bytes "0", if notMet then bytes "1" else bytes "0"]

end Verif.Notify
