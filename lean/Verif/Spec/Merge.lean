import Verif.Spec.Manifest
import Verif.Spec.Path
import Verif.Model.PathCmp

/-!
# The order of manifest entries, for merges
-/

namespace Verif
open Verif.PathCmp

/-- The order that manifests are kept in: by path, and for one path by kind of record. -/
def EntryLt (a b : Cmd × Option Str) : Prop :=
  pathcmpP a.2 b.2 < 0 ∨ (a.2 = b.2 ∧ group a.1 < group b.1)

/-- The same place in that order. -/
def SameKey (a b : Cmd × Option Str) : Prop := a.2 = b.2 ∧ group a.1 = group b.1

/-- In strictly increasing order. -/
def SortedBy {E : Type} (key : E → Cmd × Option Str) (l : List E) : Prop :=
  l.Pairwise (fun a b => EntryLt (key a) (key b))

/-- In order, with repetitions allowed. -/
def WeaklySortedBy {E : Type} (key : E → Cmd × Option Str) (l : List E) : Prop :=
  l.Pairwise (fun a b => EntryLt (key a) (key b) ∨ SameKey (key a) (key b))

/-- No path has both metadata and a VSS footer (they occur on different operating systems); see
`C05_entry_order_violated` for why this matters. -/
def NoClash {E : Type} (key : E → Cmd × Option Str) (l : List E) : Prop :=
  ∀ a ∈ l, ∀ b ∈ l, ¬ Clash (key a) (key b)

instance (a b : Cmd × Option Str) : Decidable (EntryLt a b) := by unfold EntryLt; infer_instance
instance (a b : Cmd × Option Str) : Decidable (SameKey a b) := by unfold SameKey; infer_instance
instance (a b : Cmd × Option Str) : Decidable (Clash a b) := by unfold Clash; infer_instance
instance {E : Type} (key : E → Cmd × Option Str) (l : List E) : Decidable (NoClash key l) := by
  unfold NoClash; infer_instance
instance {E : Type} (key : E → Cmd × Option Str) (l : List E) : Decidable (SortedBy key l) := by
  unfold SortedBy; infer_instance

/-- In the list of deletions, before an entry all smaller ones have already been mentioned. -/
def Closed {E : Type} (key : E → Cmd × Option Str) (ds : List E) : Prop :=
  ∀ p d q, ds = p ++ d :: q → ∀ x ∈ ds, EntryLt (key x) (key d) → ∃ y ∈ p, SameKey (key y) (key x)

end Verif
