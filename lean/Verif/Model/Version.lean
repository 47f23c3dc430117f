import Verif.Model.Cntr

/-!
# Version numbers: `version_to_long`, `src/handy.c:478-500`
-/

namespace Verif.Version

/-- `strtok` called again and again with the separator `.`: the words between dots, without empty ones. `cur`
is the word so far. -/
def dotTokens (cur : Str) : Str → List Str
  | [] => if cur = [] then [] else [cur]
  | x :: xs =>
    if x = dot then
      if cur = [] then dotTokens [] xs else cur :: dotTokens [] xs
    else dotTokens (cur ++ [x]) xs

/-- `version_to_long`, `src/handy.c:478-500`; `none` is the null pointer. Allocation does not fail. Numbers
that do not fit into a `long` are not cut. -/
def versionToLong : Option Str → Int
  | none => 0
  | some [] => 0
  | some (c :: cs) =>
    match dotTokens [] (c :: cs) with
    | t1 :: t2 :: t3 :: _ => Cntr.atoi t3 + Cntr.atoi t2 * 100 + Cntr.atoi t1 * 100 * 100
    | _ => -1

end Verif.Version
