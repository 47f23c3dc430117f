import Verif.Model.RateLimit

/-!
# What limiting the rate means
-/

namespace Verif.RateLimit

/-- A clock that does not go backwards: `t` is a time before all the attempts. -/
def Clock (t : Int) : List Try → Prop
  | [] => True
  | x :: rest => t ≤ x.now ∧ x.now ≤ x.clock ∧ Clock x.clock rest

instance decClock : (t : Int) → (l : List Try) → Decidable (Clock t l)
  | _, [] => isTrue trivial
  | t, x :: rest =>
    have := decClock x.clock rest
    inferInstanceAs (Decidable (t ≤ x.now ∧ x.now ≤ x.clock ∧ Clock x.clock rest))

/-- How much a list of attempts sends in all, when begun on a new connection. -/
def total (limit : Int) (ts : List Try) : Nat := (run limit {} ts).sent

end Verif.RateLimit
