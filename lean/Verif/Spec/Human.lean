import Verif.Model.Human

/-!
# Specification: how sizes and durations are printed (C123)
-/

namespace Verif.Human
open BackupNumber

/-- A text is cut at each colon. -/
def fields : Str → List Str
  | [] => [[]]
  | c :: s =>
    if c = 58 then [] :: fields s
    else match fields s with
      | [] => [[c]]
      | f :: fs => (c :: f) :: fs

/-- Minutes and seconds, maybe with hours, and with days before them, in seconds. -/
def clock : List Nat → Option Nat
  | [m, s] => some (60 * m + s)
  | [h, m, s] => some (3600 * h + 60 * m + s)
  | [d, h, m, s] => some (86400 * d + 3600 * h + 60 * m + s)
  | _ => none

/-- How a duration that is printed is read. -/
def readClock (s : Str) : Option Nat := clock ((fields s).map (decValue 0))

/-- What the units are. -/
def unitSize : List (Str × Nat) :=
  [(bytes "KB", 2 ^ 10), (bytes "MB", 2 ^ 20), (bytes "GB", 2 ^ 30), (bytes "TB", 2 ^ 40), (bytes "PB", 2 ^ 50),
   (bytes "EB", 2 ^ 60)]

end Verif.Human
