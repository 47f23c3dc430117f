import Verif.Spec.HardCopy

/-!
# Lemmas about the copy of a backup
-/

namespace Verif.HardCopy

theorem duplicateFile_spec {f : File} {x : Copy} (h : duplicateFile f = some x) :
    (f.failsAt = none → f.flushedAt = none → x.data = f.data) ∧ x.data <+: f.data ∧ ∀ d, x ≠ .linked d := by
  obtain ⟨data, links, found, linkable, failsAt, writable, flushedAt⟩ := f
  unfold duplicateFile at h
  cases writable with
  | false => cases h
  | true =>
    cases failsAt with
    | none =>
      cases flushedAt with
      | none => cases h; exact ⟨fun _ _ => rfl, List.prefix_rfl, fun d e => by cases e⟩
      | some k => cases h; exact ⟨fun _ e => by (cases e), List.take_prefix _ _, fun d e => by cases e⟩
    | some n =>
      cases flushedAt with
      | none => cases h; exact ⟨fun e => by (cases e), List.take_prefix _ _, fun d e => by cases e⟩
      | some k =>
        cases h
        exact ⟨fun e => by (cases e), (List.take_prefix _ _).trans (List.take_prefix _ _), fun d e => by cases e⟩

theorem doLink_spec {max : Nat} {f : File} {x : Copy} (h : doLink max f = some x) :
    (f.failsAt = none → f.flushedAt = none → x.data = f.data) ∧ x.data <+: f.data
    ∧ (∀ d, x = .linked d → f.links + 1 ≤ max) := by
  unfold doLink at h
  split at h
  · obtain ⟨h1, h2, h3⟩ := duplicateFile_spec h
    exact ⟨h1, h2, fun d e => absurd e (h3 d)⟩
  · split at h
    · cases h
    · cases h
      exact ⟨fun _ _ => rfl, List.prefix_rfl, fun _ _ => by omega⟩

end Verif.HardCopy
