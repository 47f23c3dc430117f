import Verif.Model.RestoreTo
import Verif.Spec.Confine

/-!
# What the option `-d` names
-/

namespace Verif.RestoreTo
open Verif Verif.Confine

/-- The text that is given, with the current directory before it unless it starts with a slash. -/
def fullText (cwd : List Name) (pre : Str) : Str :=
  if pre.head? = some slash then pre else toPath cwd ++ slash :: pre

/-- The place it names: what the system finds there, after all links. -/
def Names (fs : FS) (cwd : List Name) (pre : Str) (d : List Name) : Prop :=
  realpath fs (parts (fullText cwd pre)) = .ok d

end Verif.RestoreTo
