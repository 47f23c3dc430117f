import Verif.Model.Yajl

/-!
# Specification: JSON values
-/

namespace Verif.Yajl
open Verif.JsonInput

mutual
/-- A JSON value. The monitor client takes no notice of a value of another kind: `null`, a truth value or a
fraction. -/
inductive J where
  | int (v : Int)
  | str (s : Str)
  | other
  | arr (vs : Js)
  | obj (ms : Ms)

/-- The values in an array. -/
inductive Js where
  | nil
  | cons (v : J) (vs : Js)

/-- The members of an object. -/
inductive Ms where
  | nil
  | cons (k : Str) (v : J) (ms : Ms)
end

mutual
/-- A value, piece by piece: this is how the server writes it, and how the client gets it. -/
def J.toks : J → List Tok
  | .int v => [.int v]
  | .str s => [.str s]
  | .other => []
  | .arr vs => .startArr :: (vs.toks ++ [.endArr])
  | .obj ms => .startMap :: (ms.toks ++ [.endMap])

/-- The values of an array. -/
def Js.toks : Js → List Tok
  | .nil => []
  | .cons v vs => v.toks ++ vs.toks

/-- The members of an object. -/
def Ms.toks : Ms → List Tok
  | .nil => []
  | .cons k v ms => .key k :: (v.toks ++ ms.toks)
end

mutual
/-- How deep arrays and objects are nested. -/
def J.depth : J → Nat
  | .int _ => 0
  | .str _ => 0
  | .other => 0
  | .arr vs => vs.depth + 1
  | .obj ms => ms.depth + 1

/-- The deepest value of an array. -/
def Js.depth : Js → Nat
  | .nil => 0
  | .cons v vs => max v.depth vs.depth

/-- The deepest value of an object. -/
def Ms.depth : Ms → Nat
  | .nil => 0
  | .cons _ v ms => max v.depth ms.depth
end

mutual
/-- A value that burp's server can write, and its client can read: there are only objects, arrays, strings and
whole numbers, and the numbers have 64 bits. The least of them cannot be read. -/
def J.Plain : J → Prop
  | .int v => -9223372036854775807 ≤ v ∧ v ≤ 9223372036854775807
  | .str _ => True
  | .other => False
  | .arr vs => vs.Plain
  | .obj ms => ms.Plain

/-- The values of an array. -/
def Js.Plain : Js → Prop
  | .nil => True
  | .cons v vs => v.Plain ∧ vs.Plain

/-- The values of an object. -/
def Ms.Plain : Ms → Prop
  | .nil => True
  | .cons _ v ms => v.Plain ∧ ms.Plain
end

/-- So many digits one after the other. -/
def digitRun (n : Nat) (t : Str) : Prop := ∃ a d b, t = a ++ d ++ b ∧ d.length = n ∧ ∀ c ∈ d, isNum c = true

/-- The lines of a text, and what comes after the last of them. -/
def cut : Str → List Str × Str
  | [] => ([], [])
  | c :: t =>
    if c = newline then ([] :: (cut t).1, (cut t).2)
    else match (cut t).1 with
      | [] => ([], c :: (cut t).2)
      | l :: ls => ((c :: l) :: ls, (cut t).2)

/-- No line is too long: no more than 32030 bytes come before the end of a line. -/
def Short (t : Str) : Prop := ∀ a l b, t = a ++ l ++ b → newline ∉ l → l.length + 1 < 32032

/-- Reads, after `done` has been read: each of them gets something, and no more than there is room for beside a line
that has not ended yet. -/
def Arrive (done : Str) : List Str → Prop
  | [] => True
  | r :: rs => r ≠ [] ∧ (cut done).2.length + r.length ≤ 32032 ∧ Arrive (done ++ r) rs

/-- What is to become of answers, one after the other: what each of them is worth (1: all is well, 2: there are
warnings), and what the client knows in the end. -/
def tell (now : UInt64) (s : St) : List J → Option (List Int × St)
  | [] => some ([], s)
  | v :: vs => match feed now s v.toks with
    | .ok s' => (tell now s' vs).map (fun p => ((if s'.warnings = [] then 1 else 2) :: p.1, p.2))
    | _ => none

/-- The number that digits stand for, behind what has been read of them. -/
def digitsValue (r : Int) (ds : Str) : Int := ds.foldl (fun r c => r * 10 + ((c.toNat : Int) - 48)) r

end Verif.Yajl
