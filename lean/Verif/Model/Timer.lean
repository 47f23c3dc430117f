import Verif.Model.BackupNumber
import Verif.Model.Auth

/-!
# When a timed backup runs: `src/server/timer.c`

Allocation does not fail.
-/

namespace Verif.Timer
open Verif.BackupNumber

/-- `strstr(hay, needle) != NULL`. -/
def strstr : Str → Str → Bool
  | [], n => n.isEmpty
  | c :: cs, n => n.isPrefixOf (c :: cs) || strstr cs n

/-- `strtolower`, `src/server/timer.c:65-70`. -/
def strtolower (s : Str) : Str := s.map Auth.toLower

/-- One time band, `src/server/timer.c:90-107`. -/
def inTimeband (day hour tb : Str) : Bool :=
  decide (strtolower tb = bytes "always") ||
    (strstr (strtolower tb) (strtolower day) && strstr (strtolower tb) (strtolower hour))

/-- `check_timebands`, `src/server/timer.c:72-116`. -/
def checkTimebands (day hour : Str) : List Str → Bool
  | [] => false
  | tb :: tbs => inTimeband day hour tb || checkTimebands day hour tbs

/-- White space for `scanf`. -/
def isSpace (c : Byte) : Bool := c = 32 || (9 ≤ c.toNat && c.toNat ≤ 13)

/-- `sscanf(str, "%d%c", &s, &unit)`: the number, not limited to what fits in an `int`, and the unit. -/
def scan (str : Str) : Option (Int × Byte) :=
  let s := str.dropWhile isSpace
  let neg := s.head? = some 45
  let s := if s.head? = some 45 || s.head? = some 43 then s.drop 1 else s
  let digits := s.takeWhile isDigit
  if digits.isEmpty then none
  else match s.dropWhile isDigit with
    | [] => none
    | u :: _ => some (if neg then -(decValue 0 digits : Int) else (decValue 0 digits : Int), u)

/-- What the interval comes to. -/
inductive Interval where
  /-- the number does not fit into an `int`: what `sscanf` stores is undefined -/
  | undefined
  | bad
  | seconds (n : Int)
  deriving DecidableEq, Repr

/-- The units, `src/server/timer.c:127-141`. -/
def unitSeconds (u : Byte) : Option Int :=
  if u = 115 then some 1
  else if u = 109 then some 60
  else if u = 104 then some (60 * 60)
  else if u = 100 then some (60 * 60 * 24)
  else if u = 119 then some (60 * 60 * 24 * 7)
  else if u = 110 then some (60 * 60 * 24 * 30)
  else none

/-- `get_interval_in_seconds`, `src/server/timer.c:118-145`, with `long` of 64 bits. -/
def getInterval (str : Str) : Interval :=
  match scan str with
  | none => .bad
  | some (n, u) =>
    if n < -2 ^ 31 ∨ 2 ^ 31 ≤ n then .undefined
    else match unitSeconds u with
      | none => .bad
      | some k => .seconds (n * k)

/-- What the timer looks at. -/
structure Input where
  /-- the file `backup` in the storage directory of the client is there -/
  manual : Bool
  /-- `timer_arg` -/
  args : List Str
  day : Str
  hour : Str
  now : Int
  /-- `current` is a directory -/
  hasCurrent : Bool
  /-- the time in its `timestamp`, `none` if the file cannot be read -/
  last : Option Int

/-- The result. -/
inductive Answer where
  | undefined
  | error
  | run
  | wait
  deriving DecidableEq, Repr

/-- `check_interval`, `src/server/timer.c:147-182`. -/
def checkInterval (interval : Str) (last : Option Int) (now : Int) : Answer :=
  match getInterval interval with
  | .undefined => .undefined
  | .bad => .error
  | .seconds n =>
    if n < 0 then .error
    else match last with
      | none => .run
      | some t => if t + n < now then .run else .wait

/-- `run_timer_internal`, `src/server/timer.c:187-250`. -/
def runTimer (i : Input) : Answer :=
  if i.manual then .run
  else match i.args with
    | [] => .wait
    | interval :: bands =>
      if !checkTimebands i.day i.hour bands then .wait
      else if !i.hasCurrent then .run
      else checkInterval interval i.last i.now

end Verif.Timer
