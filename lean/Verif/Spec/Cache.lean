import Verif.Spec.Path
import Verif.Spec.Scan
import Verif.Model.Cache
import Verif.Model.PathCmp

/-!
# What is to be shown of a directory of a backup
-/

namespace Verif.Cache

/-- How the paths of a backup are written: from `/`, or, on Windows, from the name of a drive. -/
def WrittenAs (drives : Bool) (names : List Str) (path : Str) : Prop :=
  (∀ c ∈ names, GoodName c) ∧
    if drives then names ≠ [] ∧ slash :: path = renderPath names else path = renderPath names

/-- A manifest as backups write it: of the records that are shown, every path is the names on the way to
the file, and they are in burp's order, none twice. -/
def InOrder (drives : Bool) (es : List Entry) : Prop :=
  (∀ e ∈ es, isShown e = true → ∃ names, WrittenAs drives names e.path) ∧
  (es.filter isShown).Pairwise fun a b => PathCmp.pathcmp a.path b.path < 0

/-- The file of a record lies under the directory `d`, by way of what is called `n` in it. -/
def Through (d : List Str) (n : Str) (e : Entry) : Prop :=
  isShown e = true ∧ ∃ more, components e.path = d ++ n :: more

/-- The record is that of what is called `n` in the directory `d`. -/
def Is (d : List Str) (n : Str) (e : Entry) : Prop :=
  isShown e = true ∧ components e.path = d ++ [n]

/-- Something of what is backed up lies in the directory. -/
def Holds (es : List Entry) (d : List Str) : Prop :=
  d = [] ∨ ∃ e ∈ es, isShown e = true ∧ d <+: components e.path

end Verif.Cache
