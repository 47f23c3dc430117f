import Verif.Lemmas.FilesEqual

/-!
# C126: two files are found to be the same exactly if they are
-/

namespace Verif
open FilesEqual

/-- **C126, in part.** Two files that can be read to their ends are found to be the same exactly if they have the same
bytes, however long they are. -/
theorem C126_equal_partial (a b : Str) : filesEqual (some { data := a }) (some { data := b }) = true ↔ a = b :=
  chunks_iff _ a b

/-- **C126.** A file that can be opened is never the same as one that cannot, so that a file that is missing is
written. -/
theorem C126_missing (f : File) : filesEqual none (some f) = false ∧ filesEqual (some f) none = false := ⟨rfl, rfl⟩

/-- **C126.** Of two files with the same bytes, if one can be read only in part, they are not found to be the same. -/
theorem C126_error (a : Str) (n : Nat) :
    filesEqual (some { data := a, failsAt := some n }) (some { data := a }) = true ↔ a.length ≤ n := by
  show chunks _ (a.take n) a = true ↔ _
  rw [chunks_iff]
  constructor
  · intro h
    have := congrArg List.length h
    rw [List.length_take] at this
    omega
  · intro h; exact List.take_of_length_le h

/-- C126 fails if there is an error in reading: a file whose rest cannot be read is found to be the same as one that ends
there, because the error is taken for the end of the file. -/
theorem C126_error_violated (a b : Str) (hb : b ≠ []) : a ++ b ≠ a
    ∧ filesEqual (some { data := a ++ b, failsAt := some a.length }) (some { data := a }) = true := by
  constructor
  · intro h
    exact hb (List.append_cancel_left (h.trans (List.append_nil a).symm))
  · show chunks _ ((a ++ b).take a.length) a = true
    rw [chunks_iff, List.take_left]

/-- C126 fails if neither file can be opened: they are found to be the same. -/
theorem C126_unopened_violated : filesEqual none none = true := rfl

/-- Two configurations, which are different in the last byte. -/
example : filesEqual (some { data := bytes "ssl_peer_cn = a\n" }) (some { data := bytes "ssl_peer_cn = b\n" }) = false
    ∧ filesEqual (some { data := bytes "ssl_peer_cn = a\n" }) (some { data := bytes "ssl_peer_cn = a\n" }) = true := by
  constructor
  · rw [← Bool.not_eq_true, C126_equal_partial]; decide +kernel
  · rw [C126_equal_partial]

end Verif
