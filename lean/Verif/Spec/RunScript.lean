import Verif.Model.RunScript

/-!
# Specification for C110: what a script prints, and how it ends
-/

namespace Verif.RunScript
open Verif.Iobuf

/-- What is written to a pipe until everybody has let go of it. -/
def written (err : Bool) : List Ev → Str
  | [] => []
  | .writes e b :: evs => if e = err then b ++ written err evs else written err evs
  | .closes e :: evs => if e = err then [] else written err evs
  | .ended _ :: evs => written err evs
  | .turn _ :: evs => written err evs

/-- The pieces that burp has read from a pipe. -/
def piecesOf (err : Bool) (s : State) : List Str := (s.pieces.filter (·.1 == err)).map (·.2)

/-- The same, joined. -/
def text (err : Bool) (s : State) : Str := (piecesOf err s).flatten

/-- A byte before the first of some lines. -/
def onto (b : Byte) : List Str → List Str
  | [] => [[b]]
  | l :: ls => (b :: l) :: ls

/-- The lines of a text, each with its newline; the last may be without. -/
def lines : Str → List Str
  | [] => []
  | b :: s =>
    if b = newline then [b] :: lines s else onto b (lines s)

/-- Whole lines of at most 255 bytes. -/
def WholeLines (b : Str) : Prop := ∀ l ∈ lines b, l.length ≤ 255 ∧ l.getLast? = some newline

/-- `select` says of every pipe that burp has open that it can be read: true when nobody holds the other end. -/
def Honest (s : State) : Sel → Prop
  | .ready o e => (s.out.isOpen = true → o = true) ∧ (s.err.isOpen = true → e = true)
  | .interrupted => True
  | .failed => False

/-- `n` turns, all with such answers. -/
def HonestTurns : State → List Sel → Prop
  | _, [] => True
  | s, sel :: l => Honest s sel ∧ HonestTurns (step s (.turn sel)) l

/-- The status that the kernel gives for `exit(c)`. -/
def exitStatus (c : Nat) : Nat := c % 256 * 256

/-- The status that the kernel gives for a signal, with a core dump or without. -/
def signalStatus (sig : Nat) (core : Bool) : Nat := sig + if core then 128 else 0

end Verif.RunScript
