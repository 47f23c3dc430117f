import Verif.Model.Bedup

/-!
# What deduplication must not change
-/

namespace Verif.Bedup

/-- What is seen at a path. -/
def Fs.view (s : Fs) (p : Str) : Option Str := (s.at_ p).map s.content

/-- What can be opened can be read to its end. -/
def Readable (env : Env) (s : Fs) : Prop :=
  ∀ p n c, env.reads p = some n → s.view p = some c → c.length ≤ n

/-- Every path that was there at first is there, on the same device and with the same content: it leads to the
same file as before, or to another that was there. -/
def Unharmed (s₀ s : Fs) : Prop :=
  s.content = s₀.content ∧
  ∀ p i, s₀.at_ p = some i → ∃ j, s.at_ p = some j ∧ j.1 = i.1 ∧ s₀.content j = s₀.content i ∧ ∃ q, s₀.at_ q = some j

/-- There are no paths that were not there at first, but for temporary ones of paths in the list. -/
def OnlyTemporary (ext : Str) (paths : List Str) (s₀ s : Fs) : Prop :=
  ∀ p, s₀.at_ p = none → s.at_ p ≠ none → ∃ q ∈ paths, s₀.at_ q ≠ none ∧ p = q ++ ext

/-- There are no paths that were not there at first. -/
def NothingNew (s₀ s : Fs) : Prop := ∀ p, s₀.at_ p = none → s.at_ p = none

/-- No file has got more names than allowed, unless it had them before. -/
def WithinLinks (max : Nat) (s₀ s : Fs) : Prop := ∀ i, s.nlink i ≤ s₀.nlink i ∨ s.nlink i ≤ max

/-- Every path leads where it did, or has been removed while there is another path, on the same device, with what
was there. -/
def OnlyDuplicatesRemoved (s₀ s : Fs) : Prop :=
  s.content = s₀.content ∧
  ∀ p, s.at_ p = s₀.at_ p ∨ s.at_ p = none ∧ ∃ i q j, s₀.at_ p = some i ∧ q ≠ p ∧ s.at_ q = some j ∧ j.1 = i.1 ∧
    s₀.content j = s₀.content i

end Verif.Bedup
