import Verif.Model.Switch

/-!
# C39: acting for another client
-/

namespace Verif
open Verif.Switch

/-- Every permission in the first is in the second. -/
def Perms.Le (a b : Perms) : Prop :=
  (a.forceBackup = true → b.forceBackup = true) ∧ (a.delete = true → b.delete = true) ∧
  (a.diff = true → b.diff = true) ∧ (a.list = true → b.list = true) ∧
  (a.monitor = true → b.monitor = true) ∧ (a.restore = true → b.restore = true) ∧
  (a.verify = true → b.verify = true)

instance (a b : Perms) : Decidable (Perms.Le a b) := by unfold Perms.Le; infer_instance

/-- A configuration is loaded under its own name. -/
def LoadsOwn (load : Str → Option Conf) : Prop := ∀ n s, load n = some s → s.cname = n

/-- C39: one request. It is granted exactly if the other client exists and lists this one. -/
theorem C39_granted_iff (load : Str → Option Conf) (c : Conf) (orig : Str) (hne : c.cname ≠ orig) :
    (switchTo load c orig).isSome ↔
      ∃ s, load orig = some s ∧ (c.cname ∈ s.superClients ∨ c.cname ∈ s.restoreClients) := by
  unfold switchTo
  rw [if_neg hne]
  cases h : load orig with
  | none => simp
  | some s =>
    simp only [Option.some.injEq, exists_eq_left']
    unfold restoreClientAllowed
    by_cases h1 : c.cname ∈ s.superClients
    · have : (s.superClients.any fun r => decide (r = c.cname)) = true := by simp [h1]
      simp [this, h1]
    · have e1 : (s.superClients.any fun r => decide (r = c.cname)) = false := by
        simp only [List.any_eq_false, decide_eq_true_eq]
        intro x hx e
        exact h1 (e ▸ hx)
      by_cases h2 : c.cname ∈ s.restoreClients
      · have : (s.restoreClients.any fun r => decide (r = c.cname)) = true := by simp [h2]
        simp [e1, this, h2]
      · have e2 : (s.restoreClients.any fun r => decide (r = c.cname)) = false := by
          simp only [List.any_eq_false, decide_eq_true_eq]
          intro x hx e
          exact h2 (e ▸ hx)
        simp [e1, e2, h1, h2]

theorem switchTo_perms (load : Str → Option Conf) (c c' : Conf) (orig : Str) (hne : c.cname ≠ orig)
    (h : switchTo load c orig = some c') :
    ∃ s, load orig = some s ∧ c'.cname = s.cname ∧ Perms.Le c'.perms c.perms ∧
      c'.perms.forceBackup = false ∧
      (c.cname ∈ s.superClients ∧ c'.perms = { c.perms with forceBackup := false } ∨
       c.cname ∈ s.restoreClients ∧ c'.perms = newPerms false c.perms s.perms ∧ Perms.Le c'.perms s.perms) := by
  unfold switchTo at h
  rw [if_neg hne] at h
  split at h
  · cases h
  · rename_i s hs
    refine ⟨s, hs, ?_⟩
    split at h
    · rename_i ha
      cases h
      unfold restoreClientAllowed at ha
      split at ha
      · cases ha
      · split at ha
        · rename_i h1
          simp at h1
          refine ⟨rfl, ?_, rfl, Or.inr ⟨h1, rfl, ?_⟩⟩
          · simp only [newPerms, Perms.Le]
            simp
            grind
          · simp only [newPerms, Perms.Le]
            simp
        · cases ha
    · rename_i ha
      cases h
      unfold restoreClientAllowed at ha
      split at ha
      · rename_i h1
        simp at h1
        refine ⟨rfl, ?_, rfl, Or.inl ⟨h1, rfl⟩⟩
        simp only [newPerms, Perms.Le]
        simp
      · split at ha <;> cases ha
    · cases h

/-- C39: after one request that is granted, for a super client the permissions are its own; for a restore
client, those that both have. No request gives the permission to force backups. -/
theorem C39_permissions (load : Str → Option Conf) (c c' : Conf) (orig : Str) (hne : c.cname ≠ orig)
    (h : switchTo load c orig = some c') :
    ∃ s, load orig = some s ∧ c'.perms.forceBackup = false ∧
      (c.cname ∈ s.superClients ∧ c'.perms = { c.perms with forceBackup := false } ∨
       c.cname ∈ s.restoreClients ∧ c'.perms =
        { forceBackup := false, delete := c.perms.delete && s.perms.delete,
          diff := c.perms.diff && s.perms.diff, list := c.perms.list && s.perms.list,
          monitor := c.perms.monitor && s.perms.monitor, restore := c.perms.restore && s.perms.restore,
          verify := c.perms.verify && s.perms.verify }) := by
  obtain ⟨s, h1, _, _, h3, h4⟩ := switchTo_perms load c c' orig hne h
  refine ⟨s, h1, h3, ?_⟩
  rcases h4 with h4 | ⟨h4, h5, _⟩
  · exact Or.inl h4
  · refine Or.inr ⟨h4, ?_⟩
    rw [h5]
    unfold newPerms
    simp only [Bool.false_eq_true, if_false]
    cases c.perms.delete <;> cases c.perms.diff <;> cases c.perms.list <;> cases c.perms.monitor <;>
      cases c.perms.restore <;> cases c.perms.verify <;> rfl

theorem Perms.Le.refl (a : Perms) : Perms.Le a a := by simp [Perms.Le]

theorem Perms.Le.trans {a b c : Perms} (h1 : Perms.Le a b) (h2 : Perms.Le b c) : Perms.Le a c := by
  unfold Perms.Le at *
  exact ⟨h2.1 ∘ h1.1, h2.2.1 ∘ h1.2.1, h2.2.2.1 ∘ h1.2.2.1, h2.2.2.2.1 ∘ h1.2.2.2.1,
    h2.2.2.2.2.1 ∘ h1.2.2.2.2.1, h2.2.2.2.2.2.1 ∘ h1.2.2.2.2.2.1, h2.2.2.2.2.2.2 ∘ h1.2.2.2.2.2.2⟩

/-- C39: after any sequence of requests on one connection, a client has no permission that it did not have
when it connected, and can force a backup only if it still acts for itself. -/
theorem C39_no_escalation (load : Str → Option Conf) (hl : LoadsOwn load) (c c' : Conf) (os : List Str)
    (h : switches load c os = some c') :
    Perms.Le c'.perms c.perms ∧ (c'.perms.forceBackup = true → c' = c ∧ ∀ o ∈ os, o = c.cname) := by
  induction os generalizing c with
  | nil =>
    simp only [switches, Option.some.injEq] at h
    subst h
    exact ⟨Perms.Le.refl _, fun _ => ⟨rfl, by simp⟩⟩
  | cons o os ih =>
    rw [switches] at h
    split at h
    · cases h
    · rename_i c1 h1
      obtain ⟨h2, h3⟩ := ih c1 h
      by_cases hne : c.cname = o
      · have : c1 = c := by
          unfold switchTo at h1
          rw [if_pos hne] at h1
          exact (Option.some.inj h1).symm
        subst this
        refine ⟨h2, fun hf => ⟨(h3 hf).1, ?_⟩⟩
        intro x hx
        rcases List.mem_cons.1 hx with rfl | hx
        · exact hne.symm
        · exact (h3 hf).2 x hx
      · obtain ⟨s, _, _, h4, h5, _⟩ := switchTo_perms load c c1 o hne h1
        refine ⟨h2.trans h4, fun hf => ?_⟩
        have := h2.1 hf
        rw [h5] at this
        cases this

/-- C39, as far as it goes for sequences: each client that is acted for lists the one acted for just
before. -/
theorem C39_listed_partial (load : Str → Option Conf) (hl : LoadsOwn load) (c c' : Conf) (os : List Str)
    (h : switches load c os = some c') :
    c' = c ∨ ∃ p s, load c'.cname = some s ∧ (p ∈ s.superClients ∨ p ∈ s.restoreClients) ∧
      (p = c.cname ∨ p ∈ os) := by
  induction os generalizing c with
  | nil =>
    simp only [switches, Option.some.injEq] at h
    exact Or.inl h.symm
  | cons o os ih =>
    rw [switches] at h
    split at h
    · cases h
    · rename_i c1 h1
      have ih := ih c1 h
      by_cases hne : c.cname = o
      · have : c1 = c := by
          unfold switchTo at h1
          rw [if_pos hne] at h1
          exact (Option.some.inj h1).symm
        subst this
        rcases ih with e | ⟨p, s, h2, h3, h4⟩
        · exact Or.inl e
        · exact Or.inr ⟨p, s, h2, h3, by rcases h4 with h4 | h4 <;> simp [h4]⟩
      · obtain ⟨s, hs, e, _, _, h6⟩ := switchTo_perms load c c1 o hne h1
        have hn := hl o s hs
        rcases ih with e2 | ⟨p, s', h2, h3, h4⟩
        · refine Or.inr ⟨c.cname, s, ?_, ?_, Or.inl rfl⟩
          · rw [e2, e, hn]; exact hs
          · rcases h6 with h6 | h6
            · exact Or.inl h6.1
            · exact Or.inr h6.1
        · refine Or.inr ⟨p, s', h2, h3, Or.inr ?_⟩
          rcases h4 with h4 | h4
          · rw [h4, e, hn]; simp
          · simp [h4]

/-- Three clients: `b` lists `a`, `c` lists `b`. -/
def exLoad (n : Str) : Option Conf :=
  let all : Perms := ⟨true, true, true, true, true, true, true⟩
  if n = bytes "a" then some ⟨bytes "a", all, [], []⟩
  else if n = bytes "b" then some ⟨bytes "b", { all with delete := false }, [], [bytes "a"]⟩
  else if n = bytes "c" then some ⟨bytes "c", all, [], [bytes "b"]⟩
  else none

/-- C39 fails for sequences: the check uses the name that is being acted under, and a client may ask
repeatedly. Here `c` does not list `a`; a request of `a` to act for `c` is refused, but `a` first becomes `b`
and then `c`, and may then restore the files of `c`. -/
theorem C39_chain_violated :
    (exLoad (bytes "a")).bind (fun a => switchTo exLoad a (bytes "c")) = none ∧
    ((exLoad (bytes "a")).bind (fun a => switches exLoad a [bytes "b", bytes "c"])).map
      (fun c => (c.cname, c.perms.restore)) = some (bytes "c", true) := by decide +kernel

/-- The hypotheses are met. -/
example : LoadsOwn exLoad ∧ (∃ a, exLoad (bytes "a") = some a ∧ a.perms.forceBackup = true ∧
    a.cname ≠ bytes "b" ∧ ∃ b, switchTo exLoad a (bytes "b") = some b ∧ b.perms.forceBackup = false ∧
      b.perms.delete = false ∧ b.perms.restore = true) := by
  refine ⟨?_, ⟨_, rfl, by decide, by decide, _, rfl, by decide, by decide, by decide⟩⟩
  intro n s h
  unfold exLoad at h
  simp only at h
  split at h
  · rename_i e; cases h; exact e.symm
  · split at h
    · rename_i e; cases h; exact e.symm
    · split at h
      · rename_i e; cases h; exact e.symm
      · cases h

end Verif
