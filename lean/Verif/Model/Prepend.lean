import Verif.Model.Basic

/-!
# Joining strings: `src/prepend.c`

Allocation does not fail. A null pointer is `none`.
-/

namespace Verif.Prepend

/-- `prepend_len`, `src/prepend.c:7-28`, on what has been counted. -/
def prependLen (prep sep fname : Str) : Str := prep ++ sep ++ fname

/-- `prepend_n`, `src/prepend.c:30-36`, with `len` the length of `fname`: no separator before an empty
name. -/
def prependN (prep : Option Str) (fname sep : Str) : Str :=
  prependLen (prep.getD []) (if fname.isEmpty then [] else sep) fname

/-- `prepend`, `src/prepend.c:38-41`. -/
def prepend (prep : Option Str) (fname : Str) : Str := prependN prep fname []

/-- `prepend_slash`, `src/prepend.c:43-54`, with `len` the length of `fname`. -/
def prependSlash (prep : Option Str) (fname : Str) : Str :=
  match prep with
  | none => fname
  | some [] => fname
  | some p =>
    match fname with
    | c :: cs => if c = slash then prependN (some p) cs [slash] else prependN (some p) (c :: cs) [slash]
    | [] => prependN (some p) [] [slash]

/-- `prepend_s`, `src/prepend.c:56-59`. -/
def prependS (prep : Option Str) (fname : Str) : Str := prependSlash prep fname

/-- `astrcat`, `src/prepend.c:61-76`: the new value of the buffer. -/
def astrcat (buf append : Option Str) : Str := buf.getD [] ++ append.getD []

end Verif.Prepend
