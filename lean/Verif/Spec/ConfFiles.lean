import Verif.Model.ConfFiles

/-!
# What files of the configuration stand for
-/

namespace Verif.ConfFiles

/-- A file of these lines: each has a newline at its end, but for the last one, which need not have one. -/
def Text (ls : List Str) (b : Str) : Prop :=
  (∀ l ∈ ls, newline ∉ l) ∧
  (b = ls.flatMap (fun l => l ++ [newline]) ∨
    ∃ init last, ls = init ++ [last] ∧ last ≠ [] ∧ b = init.flatMap (fun l => l ++ [newline]) ++ last)

/-- Where the files are that a line in the file `path` names: beside that file, unless the name starts at the
root. -/
inductive Named (path : Str) : Str → Str → Prop
  | absolute (rest : Str) : Named path (slash :: rest) (slash :: rest)
  | relative (dir base name : Str) : path = dir ++ slash :: base → slash ∉ base → dir ≠ [] → name ≠ [] →
      name.head? ≠ some slash → Named path name (dir ++ slash :: name)

/-- The lines of files, one after the other. `R` says which lines a file stands for. -/
inductive FilesLines (R : Str → List Str → Prop) : List Str → List Str → Prop
  | nil : FilesLines R [] []
  | cons {p : Str} {ps out outs : List Str} : R p out → FilesLines R ps outs → FilesLines R (p :: ps) (out ++ outs)

/-- The lines that lines of the file `path` stand for. -/
inductive LinesLines (d : Disk) (R : Str → List Str → Prop) (path : Str) : List Str → List Str → Prop
  | nil : LinesLines d R path [] []
  /-- a line that does not include anything -/
  | plain {l : Str} {ls out : List Str} : ¬ bytes ". " <+: l → LinesLines d R path ls out →
      LinesLines d R path (l :: ls) (l :: out)
  /-- a line that includes at least one file -/
  | includes {name p : Str} {ls out outs : List Str} : Named path name p → d.glob p ≠ [] →
      FilesLines R (d.glob p) outs → LinesLines d R path ls out →
      LinesLines d R path ((bytes ". " ++ name) :: ls) (outs ++ out)

/-- The lines that a file stands for, with those of the files that it includes. Not more than `n` files are open at
the same time. -/
def FileLines (d : Disk) : Nat → Str → List Str → Prop
  | 0, _, _ => False
  | n + 1, path, out => ∃ b ls, d.file path = some b ∧ Text ls b ∧ LinesLines d (FileLines d n) path ls out

/-- Text files, the lines of which are shorter than 4095 bytes. A file that includes another one by a relative name
has a path with a directory that is not the root. -/
def Tidy (d : Disk) : Prop :=
  ∀ p b, d.file p = some b → 0 ∉ b ∧ ∃ ls, Text ls b ∧ ∀ l ∈ ls, l.length < 4095 ∧
    ∀ name, l = bytes ". " ++ name → name ≠ [] → name.head? ≠ some slash →
      ∃ dir base, p = dir ++ slash :: base ∧ slash ∉ base ∧ dir ≠ []

end Verif.ConfFiles
