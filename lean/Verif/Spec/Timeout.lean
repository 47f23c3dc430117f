import Verif.Model.Timeout

/-!
# What giving up on a silent connection means
-/

namespace Verif.Timeout

/-- During this call something could be received, or something could be sent, on the connection:
it was wanted, and the operating system said that it was ready for it. -/
def Active (c : Call) (s : Sit) : Prop :=
  c.sel = .ok ∧
  ((c.doread = true ∧ s.attemptReads = true ∧ s.msg = false ∧ s.rbw = false ∧ s.readable = true)
    ∨ (s.queued = true ∧ s.wbr = false ∧ s.writable = true))

instance (c : Call) (s : Sit) : Decidable (Active c s) := by unfold Active; infer_instance

/-- Connection number `i` is active during the call. -/
def ActiveAt (i : Nat) (x : Call × List Sit) : Prop := ∃ s, x.2[i]? = some s ∧ Active x.1 s

/-- Connection number `i` waits during the call: for something to receive, or to send something. -/
def WaitsAt (i : Nat) (x : Call × List Sit) : Prop :=
  ∃ s, x.2[i]? = some s ∧
    ((x.1.doread = true ∧ s.attemptReads = true ∧ s.msg = false ∧ s.rbw = false)
      ∨ (s.queued = true ∧ s.wbr = false))

/-- The clock does not go backwards: not before `t`, and not from one call to the next. -/
def Forward (t : Int) : List (Call × List Sit) → Prop
  | [] => True
  | x :: rest => t ≤ x.1.now ∧ Forward x.1.now rest

/-- The clock does not go backwards and goes forward by `T` seconds at most from one call to the
next. -/
def Steady (T t : Int) : List (Call × List Sit) → Prop
  | [] => True
  | x :: rest => t ≤ x.1.now ∧ x.1.now ≤ t + T ∧ Steady T x.1.now rest

instance decSteady (T : Int) : (t : Int) → (l : List (Call × List Sit)) → Decidable (Steady T t l)
  | _, [] => isTrue trivial
  | t, x :: rest =>
    have := decSteady T x.1.now rest
    inferInstanceAs (Decidable (t ≤ x.1.now ∧ x.1.now ≤ t + T ∧ Steady T x.1.now rest))

instance decForward : (t : Int) → (l : List (Call × List Sit)) → Decidable (Forward t l)
  | _, [] => isTrue trivial
  | t, x :: rest =>
    have := decForward x.1.now rest
    inferInstanceAs (Decidable (t ≤ x.1.now ∧ Forward x.1.now rest))

end Verif.Timeout
