import Verif.Model.TimedOps

/-!
# When a timed backup may go on
-/

namespace Verif
open TimedOps

/-- The server is at the part of a backup for which it needs the client. -/
def WithClient (d : Doing) : Prop := d = .scanning ∨ d = .backup

/-- The timer allows a backup: what the script says, or, without a script, the time is in one of the time bands,
and the last backup, if there is one, was made longer ago than the interval. `C35` is about time bands and
intervals. -/
def Allowed (c : TimedOps.Conf) (m : Moment) (st : Store) : Prop :=
  if c.useScript then m.script = 0
  else ∃ interval bands, c.args = interval :: bands ∧ (∃ tb ∈ bands, Timer.inTimeband m.day m.hour tb = true) ∧
    (st.hasCurrent = false ∨
      ∃ n : Nat, Timer.getInterval interval = .seconds n ∧ ∀ t, st.last = some t → t + n < m.now)

/-- There is a file `backup`, and no script that is to see to it. -/
def Asked (c : TimedOps.Conf) (st : Store) : Prop := c.useScript = false ∧ st.manual = true

/-- Status lines can be made, and writing them does not fail (it may have to be put off). -/
def WiresOk (evs : List Ev) : Prop := ∀ d m w, Ev.entry d m w ∈ evs → w.append ≠ .error ∧ w.line ≠ []

/-- The times at which the server comes to an entry. -/
def times : List Ev → List Int
  | [] => []
  | .touch :: es => times es
  | .entry _ m _ :: es => m.now :: times es

/-- The status lines that there would be if one was written for every entry. -/
def statusLines : List Ev → List Str
  | [] => []
  | .touch :: es => statusLines es
  | .entry _ _ w :: es => w.line :: statusLines es

/-- The clock is not set back. -/
def Forward (evs : List Ev) : Prop := (0 :: times evs).Pairwise (· ≤ ·)

end Verif
