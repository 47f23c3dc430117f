import Verif.Model.CaClient

/-!
# What getting a certificate should come to
-/

namespace Verif.CaClient
open Verif Verif.ConfLine

/-- The paths are different ones. -/
def Distinct (n : Paths) : Prop :=
  [n.key, n.csr, n.cert, n.ca, n.conf, n.tmp n.cert, n.tmp n.ca, n.tmp n.conf].Nodup

instance (n : Paths) : Decidable (Distinct n) := by unfold Distinct; infer_instance

/-- What an operation may change. -/
def Op.touches : Op → List Str
  | .put p _ => [p]
  | .del p => [p]
  | .mv a b => [a, b]

/-- The program that makes the key and the request writes nothing else, and after it succeeded there is a key. -/
def Fair (n : Paths) (w : World) : Prop :=
  (∀ o ∈ w.generated, ∀ p ∈ o.touches, p = n.key ∨ p = n.csr) ∧
  (w.generatedOk = true → ∀ fs, (runAll fs w.generated n.key).isSome = true)

/-- A name that can stand in a line of the configuration file as it is. -/
def CleanName (s : Str) : Prop :=
  s.length ≤ 4000 ∧ newline ∉ s ∧
    ∃ a m b, s = a :: m ∧ s.getLast? = some b ∧ Timer.isSpace a = false ∧ Timer.isSpace b = false ∧ a ≠ 39 ∧ a ≠ 34

/-- The settings in a configuration file, as they are read. -/
def settings (content : Str) : List Pair := (gets [] content).map getPair

/-- A setting with the name of the server put in. -/
def withName (name : Str) : Pair → Pair
  | .pair f v r => if f = bytes "ssl_peer_cn" then .pair f name false else .pair f v r
  | p => p

end Verif.CaClient
