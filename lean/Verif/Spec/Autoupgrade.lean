import Verif.Spec.Transfer
import Verif.Model.Autoupgrade

/-!
# What an upgrade is to be
-/

namespace Verif.Autoupgrade
open Verif Verif.Transfer

/-- The name of a system: not empty, no separators, short enough for the message. -/
structure OsName (os : Str) : Prop where
  ne : os ≠ []
  plain : ∀ b ∈ os, b ≠ slash ∧ b ≠ 92 ∧ b ≠ 58
  short : os.length ≤ 243

/-- What the server has for a system and a version: the script for the version, or that for all of them, and
the package. -/
structure Offer (fs : Str → Option Node) (dir os version : Str) (script package : List Str) : Prop where
  script : fs (dir ++ [slash] ++ os ++ [slash] ++ version ++ bytes "/script") = some (.reg script) ∨
    fs (dir ++ [slash] ++ os ++ [slash] ++ version ++ bytes "/script") = none ∧
      fs (dir ++ [slash] ++ os ++ bytes "/script") = some (.reg script)
  package : fs (dir ++ [slash] ++ os ++ [slash] ++ version ++ bytes "/package") = some (.reg package)

/-- A file that belongs to what the server offers for some system. -/
def Offered (dir version : Str) (p : Str) : Prop :=
  ∃ os, os ≠ [] ∧ slash ∉ os ∧ os ≠ bytes ".." ∧
    (p = dir ++ [slash] ++ os ++ bytes "/script" ∨ p = dir ++ [slash] ++ os ++ [slash] ++ version ++ bytes "/script" ∨
      p = dir ++ [slash] ++ os ++ [slash] ++ version ++ bytes "/package")

/-- Messages for the user, and then the answer. -/
def Answer (m : Msg) (ms rest : List Msg) : Prop :=
  ∃ noise, (∀ x ∈ noise, Noise x) ∧ ms = noise ++ m :: rest

end Verif.Autoupgrade
