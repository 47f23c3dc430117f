import Verif.Model.Ipacl

/-!
# Lists of networks, as a configuration writes them
-/

namespace Verif
open Verif.Ipacl Verif.BackupNumber

/-- The parts of a text between the bytes that `p` singles out. -/
def splitWhen (p : Byte → Bool) : Str → List Str
  | [] => [[]]
  | c :: cs =>
    if p c then [] :: splitWhen p cs
    else match splitWhen p cs with
      | [] => [[c]]
      | h :: t => (c :: h) :: t

/-- The words of a line: what is between spaces, commas and semicolons. -/
def aclWords (s : Str) : List Str :=
  (splitWhen (fun c => c = 32 || c = 44 || c = 59) s).filter (fun w => !w.isEmpty)

/-- No white space. -/
def NoBlank (w : Str) : Prop := ∀ c ∈ w, c ≠ 32 ∧ ¬ (9 ≤ c.toNat ∧ c.toNat ≤ 13)

instance (w : Str) : Decidable (NoBlank w) := by unfold NoBlank; infer_instance

/-- The number of bits of an address. -/
def Ipacl.Addr.width : Addr → Nat
  | .v4 _ => 32
  | .v6 _ => 128

/-- The address that a text stands for. IPv4 is tried first. -/
def IsAddress (pton : Pton) (t : Str) (a : Addr) : Prop :=
  match a with
  | .v4 a => pton.v4 t = some a
  | .v6 a => pton.v4 t = none ∧ pton.v6 t = some a

instance (pton : Pton) (t : Str) (a : Addr) : Decidable (IsAddress pton t a) := by
  unfold IsAddress; cases a <;> infer_instance

/-- `w` is an address, for the network of only that address, or an address, `/` and the number of bits
that count. -/
def IsNetwork (pton : Pton) (w : Str) (a : Addr) (n : Nat) : Prop :=
  NoBlank w ∧ n ≤ a.width ∧
    ((slash ∉ w ∧ n = a.width ∧ IsAddress pton w a) ∨ ∃ t, w = t ++ slash :: decimal n ∧ IsAddress pton t a)

/-- `w` should be a network, but there is no such address, or the address does not have that many bits. -/
def BadNetwork (pton : Pton) (w : Str) : Prop :=
  NoBlank w ∧
    ((slash ∉ w ∧ ∀ a, ¬ IsAddress pton w a) ∨
      ∃ t n, w = t ++ slash :: decimal n ∧ ∀ a, IsAddress pton t a → a.width < n)

/-- `x` is of the same family as `a`, and agrees with it in the first `n` bits. -/
def InNetwork (a : Addr) (n : Nat) (x : Addr) : Prop :=
  match a, x with
  | .v4 a, .v4 x => ∀ i < n, x.getMsbD i = a.getMsbD i
  | .v6 a, .v6 x => ∀ i < n, x.getMsbD i = a.getMsbD i
  | _, _ => False

end Verif
