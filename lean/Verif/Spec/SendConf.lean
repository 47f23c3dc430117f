import Verif.Model.SendConf
import Verif.Spec.Confs

/-!
# Settings that can be sent to the other side
-/

namespace Verif.Confs
open Verif.Strlist Verif.ConfLine Verif.BackupNumber Verif.Timer

/-- A text that can stand in a configuration file without quotes: one line, no white space at its ends, and no quote
at its beginning. -/
def PlainText (v : Str) : Prop :=
  newline ∉ v ∧ ∃ a m b, v = a :: m ∧ v.getLast? = some b ∧ isSpace a = false ∧ isSpace b = false ∧ a ≠ 39 ∧ a ≠ 34

/-- The values can stand in a configuration file without quotes. -/
def Sendable (flag : Flags → Bool) (c : Confs) : Prop :=
  ∀ o : Opt, flag o.info.flags = true →
    (∀ s, c o = .str (some s) → PlainText s) ∧ (∀ l, c o = .lst l → ∀ e ∈ l, PlainText e.path) ∧
    (∀ n, c o = .size n → n < 2 ^ 64)

/-- The texts are in order. -/
def InOrder (l : List Str) : Prop := l.Pairwise (fun a b => ¬ PathCmp.pathcmp b a < 0)

end Verif.Confs
