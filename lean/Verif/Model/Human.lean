import Verif.Model.BackupNumber

/-!
# Model: how sizes and durations are printed

`time_taken`, `src/times.c`, and `bytes_to_human`, `src/cntr.c`.
-/

namespace Verif.Human
open BackupNumber

/-- `%02d`, for numbers that are not negative. -/
def pad2 (n : Nat) : Str := List.replicate (2 - (decimal n).length) 48 ++ decimal n

/-- `snprintf` to a buffer of 8 bytes. -/
def buf8 (s : Str) : Str := s.take 7

/-- `time_taken`, `src/times.c:28-56`. Simplified: for durations that are not negative, and whose days fit in an `int`. -/
def timeTaken (d : Nat) : Str :=
  let seconds := d % 60
  let minutes := (d / 60) % 60
  let hours := (d / 60 / 60) % 24
  let days := d / 60 / 60 / 24
  let ds := if days ≠ 0 then buf8 (pad2 days ++ bytes ":") else []
  let hs := if days ≠ 0 then buf8 (pad2 hours ++ bytes ":") else if hours ≠ 0 then buf8 (pad2 hours ++ bytes ":") else []
  (ds ++ (hs ++ (buf8 (pad2 minutes ++ bytes ":") ++ buf8 (pad2 seconds)))).take 31

/-- `(float)counter`, `src/cntr.c:209`: 24 bits are kept, to the nearest, and to the even one if there are two. All these
are whole numbers. -/
def flt (n : Nat) : Nat :=
  if n < 2 ^ 24 then n
  else
    let e := n.log2 - 23
    let q := n / 2 ^ e
    let r := n % 2 ^ e
    let up := if 2 * r > 2 ^ e ∨ (2 * r = 2 ^ e ∧ q % 2 = 1) then 1 else 0
    (q + up) * 2 ^ e

/-- `bytes_to_human`, `src/cntr.c:206-231`: nothing, or how often it is divided by 1024, which is exact, and the unit that
is printed. Simplified: without the two digits after the point that are printed of the quotient. -/
def human (n : Nat) : Option (Nat × Str) :=
  if flt n < 1024 then none
  else if flt n < 1024 ^ 2 then some (1, bytes "KB")
  else if flt n < 1024 ^ 3 then some (2, bytes "MB")
  else if flt n < 1024 ^ 4 then some (3, bytes "GB")
  else if flt n < 1024 ^ 5 then some (4, bytes "TB")
  else if flt n < 1024 ^ 6 then some (5, bytes "EB")
  else some (6, bytes "PB")

end Verif.Human
