import Verif.Model.Deletions
import Verif.Spec.Merge

/-!
# Which entries a manifest is to keep when data could not be put together
-/

namespace Verif.Deletions
open Verif

variable {E : Type} [DecidableEq E]

/-- Discs that there may be when the server has been started any number of times, from a manifest `m0` with nothing
noted, and killed at any point or ended by an error. `may` are the entries that fail in at least one of these runs. -/
inductive Reach (k : Kinds E) (may : E → Prop) (m0 : List E) : Disc E → Prop where
  | new (d : Disc E) (hm : d.man = some m0) (hd : d.dels = none) : Reach k may m0 d
  | killed (d d' : Disc E) (o : Luck E) (h : Reach k may m0 d) (ho : ∀ e, o.data e = .failed → may e)
      (hk : d' ∈ (run k o d).1) : Reach k may m0 d'

/-- The manifest that counts: the temporary one if there is no other. -/
def Disc.manifest (d : Disc E) : Option (List E) :=
  match d.man, d.tmp with
  | some m, _ => some m
  | none, some (.whole m) => some m
  | none, _ => none

end Verif.Deletions
