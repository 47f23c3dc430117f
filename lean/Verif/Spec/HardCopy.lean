import Verif.Model.HardCopy

/-!
# Specification: the copy of the current backup (C129)
-/

namespace Verif.HardCopy

/-- All files with their paths. -/
def files {α : Type} : Forest α → List (List Str × α)
  | .nil => []
  | .file n x rest => ([n], x) :: files rest
  | .dir n kids rest => (files kids).map (fun p => (n :: p.1, p.2)) ++ files rest

/-- The paths of all directories. -/
def dirs {α : Type} : Forest α → List (List Str)
  | .nil => []
  | .file _ _ rest => dirs rest
  | .dir n kids rest => [n] :: (dirs kids).map (n :: ·) ++ dirs rest

/-- Nothing goes wrong with a file that is not reported: it is found, it can be read, and it gets to the disk. -/
def Sound (f : File) : Prop := f.found = true ∧ f.failsAt = none ∧ f.flushedAt = none

end Verif.HardCopy
