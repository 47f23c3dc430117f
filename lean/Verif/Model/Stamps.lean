import Verif.Model.Basic

/-!
# Model: the time of a backup, as it is written and as it is read again

`timestamp_get_new` and `timestamp_to_long` of `src/server/timestamp.c`, and `check_interval` of `src/server/timer.c`.
Simplified: a date and a time of day are modelled by the seconds that they are after 1970-01-01 00:00:00 of the same
calendar, which they determine and are determined by; so the text between them is not modelled.
-/

namespace Verif.Stamps

/-- What the server knows of its time zone: how far its clocks are ahead, in seconds, at each moment. Used by
`localtime`, `src/server/timestamp.c:47`. -/
abbrev Zone := Int → Int

/-- A timestamp, `src/times.h:4-10`: the date and time that clocks show, and `%z`, if the system has it. -/
structure Stamp where
  shown : Int
  zone : Option Int
  deriving DecidableEq, Repr

/-- `timestamp_get_new` at a moment, `src/server/timestamp.c:41-69`, with the usual format. -/
def write (hasZ : Bool) (z : Zone) (t : Int) : Stamp := { shown := t + z t, zone := if hasZ then some (z t) else none }

/-- `timestamp_to_long`, `src/server/timestamp.c:71-83`. `mktime` looks only at the date and the time of day; what
`strptime` gets from `%z` it replaces. -/
def toLong (mktime : Int → Int) (s : Stamp) : Int := mktime s.shown

/-- The end of `check_interval`, `src/server/timer.c:167-181`: whether it is time for a backup. -/
def due (mktime : Int → Int) (s : Stamp) (seconds now : Int) : Bool := toLong mktime s + seconds < now

end Verif.Stamps
