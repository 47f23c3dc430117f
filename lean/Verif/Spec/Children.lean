import Verif.Model.Children

/-!
# Limits on what runs at the same time
-/

namespace Verif.Children

/-- The number of running child processes that were accepted on an address. -/
def served (s : St) (a : Str) : Nat := (s.procs.filter (fun p => p.listen = a)).length

/-- The number of backups that run. -/
def backups (s : St) : Nat := (s.procs.filter (fun p => p.doing = .backup)).length

/-- `SIGHUP` is not among the events. -/
def NoReload (es : List Event) : Prop := ∀ c, Event.reload c ∉ es

/-- All children have made up their minds, and the server knows of all the backups that run. -/
def Settled (s : St) : Prop :=
  ∀ p ∈ s.procs, p.doing ≠ .deciding ∧
    (p.doing = .backup → ∃ f ∈ s.fds, f.pid = some p.pid ∧ f.working = true)

/-- Clients connect only when everything is settled. -/
def Quiet (s : St) : List Event → Prop
  | [] => True
  | e :: es => ((∃ a pid, e = .connect a pid) → Settled s) ∧ ∀ s', step s e = some s' → Quiet s' es

end Verif.Children
