import Verif.Model.Restore
import Verif.Spec.Path

/-!
# What a restore has to do
-/

namespace Verif
open Verif.Restore

/-- `p` is the directory `d` or in it. (`d` may be written with a separator at the end, as `/` is.) -/
def Within (d p : Str) : Prop := Under d p ∨ (d.getLast? = some slash ∧ ∃ y, y ≠ [] ∧ p = d ++ y)

/-- The entries of a manifest are in order of their paths. -/
def PathOrdered (l : List Ent) : Prop := l.Pairwise (fun a b => PathCmp.pathcmp a.path b.path ≤ 0)

/-- The entry for a directory itself, whose attributes must not be touched by what happens inside. -/
def IsDirectory (e : Ent) : Prop := e.isDir = true ∧ e.cmd.isMetadata = false

/-- What only Windows can use: VSS data, and a directory that is stored as a file with contents. -/
def WindowsOnly (e : Ent) : Prop :=
  e.cmd ∈ [.vss, .encVss, .vssT, .encVssT] ∨ (e.isDir = true ∧ e.cmd ∈ [.file, .encFile, .efsFile])

/-- What the user asked for: when restoring to something other than Windows, or without VSS data, not what
only Windows can use; on the restore list if there is one; if directories were given on the server, and any of
them is to be included, beginning with one of these; and matching the regular expression. (That to begin with
a directory is not to be in it is the subject of `C33_server_partial` and `C33_server_violated`.) -/
def AskedFor (q : Request) (e : Ent) : Prop :=
  (q.isRestore = true → q.vss = false → ¬ WindowsOnly e) ∧
  (∀ l bad, q.list = some (l, bad) → e.path ∈ l) ∧
  (∀ dirs, q.srestore = some dirs → dirs ≠ [] → ∃ d ∈ dirs, d.flag ≠ 0 ∧ d.path <+: e.path) ∧
  (∀ r, q.regex = some r → r e.path = true)

theorem onlyWindows_iff (q : Request) (e : Ent) :
    onlyWindows q e = false ↔ (q.isRestore = true → q.vss = false → ¬ WindowsOnly e) := by
  have key : (e.cmd.isVssdata || (e.isDir && e.cmd.isFiledata && !e.cmd.isMetadata)) = true ↔ WindowsOnly e := by
    unfold WindowsOnly
    cases e.cmd <;> cases e.isDir <;> decide
  unfold onlyWindows
  rw [← key]
  cases q.isRestore <;> cases q.vss <;>
    cases (e.cmd.isVssdata || (e.isDir && e.cmd.isFiledata && !e.cmd.isMetadata)) <;> simp

theorem otherTests_iff (q : Request) (e : Ent) : otherTests q e = true ↔
    (∀ dirs, q.srestore = some dirs → dirs ≠ [] → ∃ d ∈ dirs, d.flag ≠ 0 ∧ d.path <+: e.path) ∧
    (∀ r, q.regex = some r → r e.path = true) := by
  unfold otherTests
  rw [Bool.and_eq_true]
  refine and_congr ?_ ?_
  · cases q.srestore with
    | none => simp
    | some l =>
      simp only [Option.some.injEq, forall_eq']
      unfold srestoreCheck srestoreMatches
      cases l with
      | nil => simp
      | cons d ds =>
        simp only [List.isEmpty_cons, Bool.false_eq_true, if_false, List.any_eq_true, ne_eq, reduceCtorEq,
          not_false_eq_true, forall_const]
        refine exists_congr fun s => and_congr Iff.rfl ?_
        by_cases hf : s.flag = 0 <;> simp [hf]
  · cases q.regex <;> simp

theorem askedFor_iff (q : Request) (e : Ent) : AskedFor q e ↔
    onlyWindows q e = false ∧ (∀ l bad, q.list = some (l, bad) → e.path ∈ l) ∧ otherTests q e = true := by
  rw [onlyWindows_iff, otherTests_iff]; rfl

instance (q : Request) (e : Ent) : Decidable (AskedFor q e) :=
  match hq : q.list with
  | none => decidable_of_iff (onlyWindows q e = false ∧ otherTests q e = true)
      (by rw [askedFor_iff]; simp [hq])
  | some (l, bad) => decidable_of_iff (onlyWindows q e = false ∧ e.path ∈ l ∧ otherTests q e = true)
      (by rw [askedFor_iff]; rw [hq]; simp)

/-- What was asked for, of a manifest. -/
def chosen (q : Request) (m : List Ent) : List Ent := m.filter (fun e => decide (AskedFor q e))

/-- The restore list is in order, each path once, and can be read. -/
def GoodRequest (q : Request) : Prop :=
  ∀ l bad, q.list = some (l, bad) → bad = false ∧ l.Pairwise (fun a b => PathCmp.pathcmp a b < 0)

end Verif
