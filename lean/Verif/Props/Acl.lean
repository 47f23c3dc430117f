import Verif.Lemmas.Acl

/-!
# C130: an access control list that is not saved says no more than the mode
-/

namespace Verif
open Acl

/-- **C130, in part.** If a file is found to have no access control list, everybody may do with it exactly what the mode
says. If the list could be read. -/
theorem C130_mode_partial (es : List Acl.Entry) (dflt : Option AclList) (isDir : Bool) (u g o : Nat)
    (hu : permOf es .userObj = some u) (hg : permOf es .groupObj = some g) (ho : permOf es .other = some o)
    (h : hasAcl (some { entries := es }) dflt isDir = false) (owner group uid : Nat) (gids : List Nat) (want : Nat) :
    allows es owner group uid gids want = modeAllows u g o owner group uid gids want := by
  unfold hasAcl at h
  rw [Bool.or_eq_false_iff] at h
  have h1 : (!isTrivial es) = false := h.1
  exact allows_trivial (by simpa using h1) hu hg ho owner group uid gids want

/-- **C130, in part.** If a directory is found to have none, it has none for the files that are made in it either. If that
list could be read. -/
theorem C130_default_partial (access : Option AclList) (es : List Acl.Entry)
    (h : hasAcl access (some { entries := es }) true = false) : es = [] := by
  unfold hasAcl at h
  rw [Bool.or_eq_false_iff] at h
  have h1 : defaultContains es = false := h.2
  unfold defaultContains at h1
  simpa using h1

/-- **C130.** A list with an entry for a user or a group by name, or with a mask, is found, be it of a file or a
directory. -/
theorem C130_named (es : List Acl.Entry) (dflt : Option AclList) (isDir : Bool) (e : Acl.Entry) (he : e ∈ es)
    (ht : (∃ i, e.tag = .user i) ∨ (∃ i, e.tag = .group i) ∨ e.tag = .mask) :
    hasAcl (some { entries := es }) dflt isDir = true := by
  unfold hasAcl
  rw [Bool.or_eq_true]
  left
  show (!isTrivial es) = true
  cases hi : isTrivial es with
  | false => rfl
  | true =>
    rcases (isTrivial_iff es).mp hi e he with h | h | h <;> rw [h] at ht <;> simp at ht

/-- **C130.** A list that says what the mode says, and no more, is not saved. -/
theorem C130_plain (es : List Acl.Entry) (dflt : Option AclList)
    (h : ∀ e ∈ es, e.tag = .userObj ∨ e.tag = .groupObj ∨ e.tag = .other) :
    hasAcl (some { entries := es }) dflt false = false := by
  have h1 : isTrivial es = true := (isTrivial_iff es).mpr h
  have h2 : (AclList.given { entries := es }) = es := rfl
  simp [hasAcl, h1, h2]

/-- The list of a file that one user may read, whom the mode does not let. -/
def friendly : List Acl.Entry :=
  [⟨.userObj, 6⟩, ⟨.user 1001, 4⟩, ⟨.groupObj, 0⟩, ⟨.mask, 4⟩, ⟨.other, 0⟩]

/-- C130 fails if the list cannot be read: the file is found to have none, and no more is said about it. -/
theorem C130_error_violated : hasAcl none none false = false
    ∧ allows friendly 1000 1000 1001 [1001] 4 = true ∧ modeAllows 6 0 0 1000 1000 1001 [1001] 4 = false := by
  refine ⟨rfl, ?_, ?_⟩ <;> decide +kernel

/-- C130 fails if one of its entries cannot be read: that is taken for the end of the list. -/
theorem C130_entry_violated : hasAcl (some { entries := friendly, failsAt := some 1 }) none false = false
    ∧ hasAcl (some { entries := friendly }) none false = true := by decide +kernel

/-- A list without names: the conditions of the theorems above are met. -/
example : hasAcl (some { entries := [⟨.userObj, 6⟩, ⟨.groupObj, 4⟩, ⟨.other, 0⟩] }) (some { entries := [] }) true = false
    ∧ permOf [⟨.userObj, 6⟩, ⟨.groupObj, 4⟩, ⟨.other, 0⟩] .groupObj = some 4
    ∧ allows [⟨.userObj, 6⟩, ⟨.groupObj, 4⟩, ⟨.other, 0⟩] 1 2 3 [2] 4 = true := by decide +kernel

end Verif
