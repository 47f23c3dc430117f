import Verif.Spec.Acl

/-!
# Lemmas about access control lists
-/

namespace Verif.Acl

theorem isTrivial_iff : ∀ es : List Entry,
    isTrivial es = true ↔ ∀ e ∈ es, e.tag = .userObj ∨ e.tag = .groupObj ∨ e.tag = .other
  | [] => by simp [isTrivial]
  | e :: es => by
    unfold isTrivial
    by_cases h : e.tag ≠ .userObj ∧ e.tag ≠ .groupObj ∧ e.tag ≠ .other
    · rw [if_pos h]
      constructor
      · intro h2; cases h2
      · intro h2
        rcases h2 e List.mem_cons_self with h3 | h3 | h3
        · exact absurd h3 h.1
        · exact absurd h3 h.2.1
        · exact absurd h3 h.2.2
    · rw [if_neg h, isTrivial_iff es]
      have he : e.tag = .userObj ∨ e.tag = .groupObj ∨ e.tag = .other := by
        by_cases h1 : e.tag = .userObj
        · exact .inl h1
        · by_cases h2 : e.tag = .groupObj
          · exact .inr (.inl h2)
          · by_cases h3 : e.tag = .other
            · exact .inr (.inr h3)
            · exact absurd ⟨h1, h2, h3⟩ h
      simp [he]

theorem permOf_none {es : List Entry} {t : Tag} (h : ∀ e ∈ es, e.tag ≠ t) : permOf es t = none := by
  unfold permOf
  rw [List.find?_eq_none.mpr (fun e he => by simp [h e he])]
  rfl

theorem trivial_not {es : List Entry} (h : isTrivial es = true) {t : Tag} (h1 : t ≠ .userObj) (h2 : t ≠ .groupObj)
    (h3 : t ≠ .other) : ∀ e ∈ es, e.tag ≠ t := by
  intro e he ht
  rcases (isTrivial_iff es).mp h e he with h' | h' | h'
  · exact h1 (ht ▸ h')
  · exact h2 (ht ▸ h')
  · exact h3 (ht ▸ h')

theorem groupPerms_trivial {es : List Entry} (h : isTrivial es = true) (group : Nat) (gids : List Nat) :
    groupPerms es group gids = if group ∈ gids then (permOf es .groupObj).toList else [] := by
  unfold groupPerms
  rw [List.filterMap_eq_nil_iff.mpr, List.append_nil]
  intro e he
  rcases (isTrivial_iff es).mp h e he with h' | h' | h' <;> rw [h']

theorem allows_trivial {es : List Entry} (h : isTrivial es = true) {u g o : Nat} (hu : permOf es .userObj = some u)
    (hg : permOf es .groupObj = some g) (ho : permOf es .other = some o) (owner group uid : Nat) (gids : List Nat)
    (want : Nat) : allows es owner group uid gids want = modeAllows u g o owner group uid gids want := by
  have hm : ∀ p, masked es p = p := by
    intro p
    unfold masked
    rw [permOf_none (trivial_not h (by simp) (by simp) (by simp))]
  unfold allows modeAllows
  rw [permOf_none (t := .user uid) (trivial_not h (by simp) (by simp) (by simp)), groupPerms_trivial h, hu, hg, ho]
  by_cases h1 : uid = owner
  · rw [if_pos h1, if_pos h1]; rfl
  · rw [if_neg h1, if_neg h1]
    by_cases h2 : group ∈ gids
    · simp [h2, hm]
    · simp [h2]

end Verif.Acl
