import Verif.Model.Rubble

/-!
# When an interrupted backup is resumed
-/

namespace Verif
open Verif.Rubble

/-- The scan had completed: its result is in place, or has been used up. -/
def ScanCompleted (l : Leftover) : Prop :=
  l.phase1tmp = false ∧ (l.phase1data = true ∨ l.changed = true ∨ l.unchanged = true)

/-- The include/exclude settings are those the interrupted backup was begun with; an old client did not
tell them. -/
def SameSettings (l : Leftover) (s : Settings) : Prop := l.incexc = none ∨ l.incexc = some s.incexc

/-- There is an attempt left: this one is the `n + 1`th, and at most `maxResumeAttempts` are allowed, if
there is a limit. -/
def AttemptsLeft (l : Leftover) (s : Settings) : Prop :=
  s.maxResumeAttempts ≤ 0 ∨ (l.resumed.getD 0 + 1 : Int) ≤ s.maxResumeAttempts

/-- The settings are cut off at a multiple of 4096 bytes. -/
def SettingsCutOff (l : Leftover) (s : Settings) : Prop :=
  ∃ old k, l.incexc = some old ∧ 4096 * k < old.length ∧ s.incexc = old.take (4096 * k)

end Verif
