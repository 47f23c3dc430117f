import Verif.Model.Relay

/-!
# Specification: the monitor client (C121)
-/

namespace Verif.Relay
open Iobuf

/-- Text is cut at the ends of lines: the lines that are complete, without the newlines, and the rest. -/
def cut : Str → List Str × Str
  | [] => ([], [])
  | c :: s =>
    if c = 10 then ([] :: (cut s).1, (cut s).2)
    else match (cut s).1 with
      | [] => ([], c :: (cut s).2)
      | l :: ls => ((c :: l) :: ls, (cut s).2)

/-- Space, tab, newline, vertical tab, form feed, carriage return. -/
def white (c : Byte) : Bool := c ∈ [(32 : Byte), 9, 10, 11, 12, 13]

/-- Without the white space at the end. -/
def trim (s : Str) : Str := (s.reverse.dropWhile white).reverse

/-- What the user asks: the complete lines, without white space at the end, but not those that are then empty. -/
def asked (t : Str) : List Str := ((cut t).1.map trim).filter (· ≠ [])

/-- How requests look on their way: `c`, the length as four hexadecimal digits, and the text. -/
def wire (ls : List Str) : Str := (ls.map fun l => bytes "c" ++ hex04 l.length ++ l).flatten

/-- All that was typed. -/
def allTyped : List Ev → Str
  | [] => []
  | .keys r :: es => r ++ allTyped es
  | _ :: es => allTyped es

/-- All that the server answered. A message that is longer than the buffer is an error. -/
def answers : List Ev → List Str
  | [] => []
  | .server m :: es => if m.length < 32027 then m :: answers es else answers es
  | _ :: es => answers es

/-- Nothing comes in, and nothing ends. -/
def Quiet : Ev → Prop
  | .server _ | .keys _ | .inputEnds | .serverEnds => False
  | _ => True

end Verif.Relay
