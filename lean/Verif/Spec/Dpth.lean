import Verif.Model.Dpth

/-!
# What storage paths are, and the order they are handed out in
-/

namespace Verif.Dpth
open Verif.Iobuf

/-- The components are 16 bit numbers. -/
def Dpth.Ok (d : Dpth) : Prop := d.a < 65536 ∧ d.b < 65536 ∧ d.c < 65536

/-- The number whose twelve hexadecimal digits are those of the path. -/
def Dpth.rank (d : Dpth) : Nat := d.a * 2 ^ 32 + d.b * 2 ^ 16 + d.c

/-- The allocator after `n` paths have been handed out. -/
def after (maxSub : Int) (d : Dpth) : Nat → Dpth
  | 0 => d
  | n + 1 => after maxSub (dpthIncr maxSub d).1 n

/-- The names found in the data directory: four hexadecimal digits, the same with `.gz`, or the
directory `t` of files that are stored as a tree. -/
def Name (s : Str) : Prop :=
  (∃ n, n < 65536 ∧ (s = hex04 n ∨ s = hex04 n ++ bytes ".gz")) ∨ s = bytes "t"

/-- A file with this storage path, compressed or not, is in the data directory. -/
def Stored (ls : Str → List Str) (e : Dpth) : Prop :=
  e.Ok ∧ hex04 e.a ∈ ls [] ∧ hex04 e.b ∈ ls (hex04 e.a) ∧
  ∃ gz : Bool, hex04 e.c ++ (if gz then bytes ".gz" else []) ∈ ls (hex04 e.a ++ [slash] ++ hex04 e.b)

/-- The data paths that a manifest has: those that the allocator makes, and those of files that are
stored as a tree. -/
def Recorded (s : Str) : Prop := (∃ e g, Dpth.Ok e ∧ s = dpthMk e g) ∨ s.head? = some 116

instance (d : Dpth) : Decidable d.Ok := by unfold Dpth.Ok; infer_instance

end Verif.Dpth
