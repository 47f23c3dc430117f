import Verif.Model.Links

/-!
# What can happen to a client's directory, and what has to hold
-/

namespace Verif
open Verif.Links

/-- A complete backup is stored in directory `n`. -/
def CompleteIn (s : State) (n : Nat) : Prop := ∃ d, s.dirs n = some d ∧ d.stage = .complete

/-- `n` is in the list of backups: it is complete and no link says that it is in progress. -/
def InList (s : State) (n : Nat) : Prop :=
  (∃ d, s.dirs n = some d) ∧ s.working ≠ some n ∧ s.finishing ≠ some n

/-- The complete backup `n` is on disc: in its place, or it is the one `current` names and phase 4 has
just moved it out of its place and has its replacement ready in `currentdup`. -/
def Stored (s : State) (n : Nat) : Prop :=
  CompleteIn s n ∨ (s.current = some n ∧ s.dirs n = none ∧ ∃ d, s.dup = some d ∧ d.stage = .complete)

/-- `current` names the newest of the complete backups. -/
def CurrentSound (s : State) : Prop :=
  (∃ n, CompleteIn s n) → ∃ c, s.current = some c ∧ CompleteIn s c ∧ ∀ m, CompleteIn s m → m ≤ c

/-- The neighbours of `b` in the list. -/
def IsPrev (s : State) (b : Nat) (p : Option Nat) : Prop :=
  match p with
  | none => ∀ m, InList s m → b ≤ m
  | some p => InList s p ∧ p < b ∧ ∀ m, InList s m → m < b → m ≤ p

def IsNext (s : State) (b : Nat) (p : Option Nat) : Prop :=
  match p with
  | none => ∀ m, InList s m → m ≤ b
  | some p => InList s p ∧ b < p ∧ ∀ m, InList s m → b < m → p ≤ m

/-- What the server can be doing to the directories of a client. Each time, the leftovers have been
looked at before, so a new backup is begun only when there are none, and so on. -/
inductive Job (s : State) : List Op → Prop where
  | new (n : Nat) (h : Bool) (h1 : s.finishing = none) (h2 : s.working = none) (h3 : s.currenttmp = none)
      -- the number is greater than all before, see C56
      (hn : ∀ m d, s.dirs m = some d → m < n) : Job s (newBackup s n h)
  | resume (n : Nat) (h : Bool) (h1 : s.finishing = none) (h2 : s.working = some n)
      (h3 : ∃ d, s.dirs n = some d ∧ d.stage ≠ .created) : Job s (resumeBackup s n h)
  | delete (b : Nat) (p q : Option Nat) (h1 : s.finishing = none)
      -- an interrupted backup may be waiting to be resumed; then `currenttmp` has not been looked at
      (h2 : s.working = none → s.currenttmp = none)
      (h3 : ∀ n, s.working = some n → ∃ d, s.dirs n = some d)
      (hb : InList s b) (hp : IsPrev s b p) (hq : IsNext s b q) : Job s (deleteBackup b p q)
  | recover (h del : Bool) : Job s (recover s h del)

/-- The two cases of a deletion that cannot be recovered from: the backup that `current` points to has
been moved away and `current` is not yet changed, and it was the only backup, or an interrupted backup is
waiting to be resumed. -/
def BadCut (s s' : State) (ops : List Op) : Prop :=
  ∃ b p, ops = deleteBackup b p none ∧ (p = none ∨ s.working ≠ none) ∧
    s'.current = some b ∧ s'.dirs b = none

/-- All states that jobs can leave behind when each of them may be cut off anywhere, but for
`BadCut`. -/
inductive Reach : State → Prop where
  | start : Reach {}
  | job {s s' ops} (h : Reach s) (hj : Job s ops) (hc : Cut ops s s') (hx : ¬ BadCut s s' ops) : Reach s'

/-- All states that jobs can leave behind when each of them may be cut off anywhere. -/
inductive ReachAny : State → Prop where
  | start : ReachAny {}
  | job {s s' ops} (h : ReachAny s) (hj : Job s ops) (hc : Cut ops s s') : ReachAny s'

end Verif
