import Verif.Model.Stamps

/-!
# Specification: the time of a backup (C128)
-/

namespace Verif.Stamps

/-- What POSIX says of `mktime` with `tm_isdst` less than 0: it gives a moment at which clocks show that, if there is one;
which one, if there are several, it does not say. -/
def IsMktime (z : Zone) (mktime : Int → Int) : Prop := ∀ t, mktime (t + z t) + z (mktime (t + z t)) = t + z t

/-- A zone in which clocks are put back by an hour at a moment, as they are in autumn. -/
def autumn : Zone := fun t => if t < 1000000 then 7200 else 3600

end Verif.Stamps
