import Verif.Model.Timer

/-!
# Lines of a configuration file: `src/conffile.c`

Allocation does not fail. `isspace` is that of the C locale.
-/

namespace Verif.ConfLine
open Verif.BackupNumber Verif.Timer

/-- What `remove_quotes` does to the value, `src/conffile.c:26-75`. -/
inductive Quotes where
  /-- the end of the copy is read over -/
  | undefined
  /-- there is no quote at the beginning: 0 is returned -/
  | none
  /-- 1 is returned -/
  | removed (v : Str)
  deriving DecidableEq, Repr

/-- The loop of `remove_quotes`, `src/conffile.c:42-70`; `dp` is what has been written, backwards, and
`esc` says that the last character was a backslash. What follows the closing quote is ignored. A backslash
at the end of the line takes the loop past the end. -/
def quoteLoop (quote : Byte) : (esc : Bool) → (dp sp : Str) → Quotes
  | true, _, [] => .undefined
  | true, dp, d :: sp => quoteLoop quote false (d :: dp) sp
  | false, dp, [] => .removed dp.reverse
  | false, dp, c :: sp =>
    if c = quote then .removed dp.reverse
    else if c = 92 then quoteLoop quote true dp sp
    else quoteLoop quote false (c :: dp) sp

/-- `remove_quotes`, `src/conffile.c:26-75`. -/
def removeQuotes (quote : Byte) (v : Str) : Quotes :=
  match v with
  | [] => .none
  | c :: sp => if c ≠ quote then .none else quoteLoop quote false [] sp

/-- What `conf_get_pair` comes to. -/
inductive Pair where
  /-- memory before or behind the line is looked at -/
  | undefined
  | error
  /-- an empty line or a comment -/
  | blank
  | pair (f v : Str) (reset : Bool)
  deriving DecidableEq, Repr

/-- White space or a colon. -/
def isSpaceColon (c : Byte) : Bool := isSpace c || c = 58

/-- Removing white space at the end, `src/conffile.c:107`. -/
def stripEnd (s : Str) : Str := (s.reverse.dropWhile isSpace).reverse

/-- The field, `src/conffile.c:95-102`: the loop goes back from the equals sign. If everything is removed
it goes on before the line (what is between are the spaces that were skipped). -/
def fieldOf (f : Str) : Option (Str × Bool) :=
  if f.all isSpaceColon then none
  else some ((f.reverse.dropWhile isSpaceColon).reverse, (f.reverse.takeWhile isSpaceColon).contains 58)

/-- The value after `src/conffile.c:112-124`. -/
def unquote (v : Str) : Quotes :=
  match removeQuotes 39 v with
  | .none => match removeQuotes 34 v with
    | .none => .removed v
    | q => q
  | q => q

/-- `conf_get_pair`, `src/conffile.c:78-124`. -/
def getPair (buf : Str) : Pair :=
  match buf.dropWhile isSpace with
  | [] => .blank
  | c :: cs =>
    if c = 35 then .blank
    else if !(c :: cs).contains 61 then .error
    else match fieldOf ((c :: cs).takeWhile (· ≠ 61)) with
      | none => .undefined
      | some (f, r) =>
        match unquote (stripEnd ((((c :: cs).dropWhile (· ≠ 61)).drop 1).dropWhile isSpace)) with
        | .removed v => if v = [] then .error else .pair f v r
        | _ => .undefined

/-- `strtoul(v, NULL, 10)` for a value that does not start with a sign (with a sign it does not matter,
since an error is returned). -/
def number (v : Str) : Nat := strtoul (v.dropWhile isSpace)

/-- `get_file_size`, `src/conffile.c:132-151`, in `uint64_t`; `none` for an error. -/
def getFileSize (v : Str) : Option Nat :=
  match v.dropWhile (fun c => isSpace c || isDigit c) with
  | [] => some (number v)
  | c :: _ =>
    if Auth.toLower c = 107 then some (number v * 1024 % 2 ^ 64)
    else if Auth.toLower c = 109 then some (number v * (1024 * 1024) % 2 ^ 64)
    else if Auth.toLower c = 103 then some (number v * (1024 * 1024 * 1024) % 2 ^ 64)
    else if c = 98 then some (number v)
    else none

end Verif.ConfLine
