import Verif.Model.StatsFile

/-!
# What the file of statistics is to have
-/

namespace Verif.StatsFile
open Verif

/-- A text over another: its first `n` bytes, and then what was there. -/
def over (text old : Str) (n : Nat) : Str := text.take n ++ old.drop n

end Verif.StatsFile
