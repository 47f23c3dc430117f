import Verif.Model.Seed
import Verif.Spec.Merge

/-!
# Moving a tree to another place
-/

namespace Verif
open Verif.Sbuf

/-- `p` is the path of what is at `y` in the directory `src` (of the directory itself when `y` is empty). -/
def InTree (src p y : Str) : Prop :=
  (p = src ∧ y = []) ∨ (src ≠ [slash] ∧ p = src ++ slash :: y ∧ y ≠ []) ∨
    (src = [slash] ∧ p = slash :: y ∧ y ≠ [] ∧ y.head? ≠ some slash)

/-- `q` is where `p` is when the directory `src` is now called `dst`: the names after `src` are the same
after `dst`. -/
def Relocated (src dst p q : Str) : Prop :=
  ∃ r, components p = components src ++ r ∧ components q = components dst ++ r

/-- An entry before and after seeding: it has another path, and the path of the data agrees with where the
data are now. -/
structure Moved (src dst : Str) (e e' : Sbuf) : Prop where
  path : ∃ p p', e.path = some p ∧ e'.path = some p' ∧ p.cmd = p'.cmd ∧ Relocated src dst p.buf p'.buf
  attr : e'.attr = e.attr
  endfile : e'.endfile = e.endfile
  data : e'.datapth = e.datapth ∧ (∀ d, e.datapth = some d → d.head? ≠ some 116) ∨
    ∃ d d', e.datapth = some d ∧ e'.datapth = some d' ∧
      Relocated (bytes "t/" ++ src) (bytes "t/" ++ dst) d d'

/-- The path of the data of an entry: by number, or at the client's path in the tree of files. -/
def GoodData (e : Sbuf) : Prop :=
  ∀ d, e.datapth = some d → d.head? ≠ some 116 ∨ ∃ p, e.path = some p ∧ d = Seed.treeDatapth p.buf

end Verif
