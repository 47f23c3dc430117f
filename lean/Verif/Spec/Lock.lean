import Verif.Model.Lock

/-!
# What a lock is for
-/

namespace Verif.Lock

/-- The process may do what the lock protects. -/
def Proceeds (s : Sys) (p : Nat) : Prop := ∃ i, s.pc p = .holding i ∨ s.pc p = .daemon i

/-- No process begins to release the lock while another is between opening the lock file and locking it. -/
def Timely (acts : List Act) : Prop :=
  ∀ pre p post, acts = pre ++ .unlink p :: post → ∀ q i, (run start pre).pc q ≠ .opened i

/-- No process that holds the lock carries on as another. -/
def NoDaemon (acts : List Act) : Prop := ∀ p c, Act.daemonise p c ∉ acts

end Verif.Lock
