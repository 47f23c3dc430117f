import Verif.Model.Sessions

/-!
# What sessions at the same time are to keep to
-/

namespace Verif.Sessions
open Verif

/-- The session is at work on the backups. -/
def Writes (s : State) (p : Nat) : Prop := ∃ todo, s.stage p = .writing todo

/-- The session is at work on reading this backup. -/
def Reads (s : State) (p b : Nat) : Prop :=
  (∃ list, s.kind p = .restore b list)
  ∧ (s.stage p = .locked ∨ s.stage p = .counted ∨ ∃ n got used, s.stage p = .reading n got used)

/-- How many steps a session is to take at most. -/
def stepsOf (size : Nat → Nat) : Kind → Nat
  | .restore b _ => size b + 6
  | .write cs => cs.length + 2

/-- How many steps of its own a session takes. -/
def ownSteps (p : Nat) (es : List Event) : Nat := (es.filter (· = .step p)).length

/-- No session removes this backup. -/
def NeverRemoved (kind : Nat → Kind) (b : Nat) : Prop :=
  ∀ p cs, kind p = .write cs → Change.remove b ∉ cs

/-- No other session is a restore. -/
def OnlyRestore (kind : Nat → Kind) (p : Nat) : Prop :=
  ∀ q b list, kind q = .restore b list → q = p

/-- No other session writes. -/
def OnlyWriter (kind : Nat → Kind) (p : Nat) : Prop :=
  ∀ q cs, kind q = .write cs → q = p

end Verif.Sessions
