import Verif.Model.DataPath

/-!
# What the paths of a client's files are, and when two of them can both be files
-/

namespace Verif.DataPath
open Verif.Confine

/-- A name in a directory of the client. -/
def GoodName (n : Name) : Prop := n ≠ [] ∧ slash ∉ n ∧ 0 ∉ n ∧ n ≠ [dot] ∧ n ≠ [dot, dot]

/-- The path of a file and the names that it is made of: `/a/b`, or `C:/a/b`. -/
inductive ClientPath : Str → List Name → Prop
  | unix {names : List Name} (hne : names ≠ []) (hg : ∀ n ∈ names, GoodName n) :
      ClientPath (names.flatMap (fun n => slash :: n)) names
  | windows {drive : Name} {names : List Name} (hd : drive.length = 2) (hne : names ≠ [])
      (hg : ∀ n ∈ drive :: names, GoodName n) :
      ClientPath (drive ++ names.flatMap (fun n => slash :: n)) (drive :: names)

/-- Neither of two places is the other, nor in the other. -/
def Apart (p q : List Name) : Prop := ¬ p <+: q ∧ ¬ q <+: p

/-- The entry is that of a file, encrypted or not, and its data is the content of the file. -/
def IsFile (f : New) : Prop := (f.cmd = .file ∨ f.cmd = .encFile ∨ f.cmd = .efsFile) ∧ f.isDir = false

/-- The entries can come from one client: they have paths, and no file is at the same place as another or in
another. -/
def OneClient (fs : List New) : Prop :=
  (∀ f ∈ fs, ∃ names, ClientPath f.path names) ∧
  fs.Pairwise (fun f g => IsFile f → IsFile g → ∀ p q, ClientPath f.path p → ClientPath g.path q → Apart p q)

end Verif.DataPath
