import Verif.Spec.RunAction

/-!
# C55, C54: what requests do
-/

namespace Verif
open Verif Seed RunAction

namespace RunAction

theorem begins_iff (s t : Str) : begins s t = true ↔ t <+: s := List.isPrefixOf_iff_prefix

theorem cutColon_spec (s : Str) : s = (cutColon s).1 ++ afterColon (cutColon s).2 ∧ NoColon (cutColon s).1 := by
  constructor
  · unfold cutColon
    cases h : s.dropWhile (· ≠ 58) with
    | nil =>
      have := List.takeWhile_append_dropWhile (p := (· ≠ (58 : Byte))) (l := s)
      rw [h] at this
      simpa [afterColon] using this.symm
    | cons c t =>
      have h1 := List.takeWhile_append_dropWhile (p := (· ≠ (58 : Byte))) (l := s)
      have h2 := List.head?_dropWhile_not (fun c : Byte => decide (c ≠ 58)) s
      rw [h] at h1 h2
      simp only [List.head?_cons] at h2
      have hc : c = 58 := by simpa using h2
      rw [hc] at h1
      simpa [afterColon] using h1.symm
  · intro hm
    have := List.all_takeWhile (p := (· ≠ (58 : Byte))) (l := s)
    rw [List.all_eq_true] at this
    have := this 58 hm
    simp at this

theorem cutColon_append (p t : Str) (hp : NoColon p) :
    cutColon (p ++ t) = (p ++ (cutColon t).1, (cutColon t).2) := by
  have hall : ∀ c ∈ p, (fun c : Byte => decide (c ≠ 58)) c = true := by
    intro c hc
    simp only [ne_eq, decide_eq_true_eq]
    rintro rfl; exact hp hc
  unfold cutColon
  rw [List.takeWhile_append_of_pos hall, List.dropWhile_append_of_pos hall]

/-! ### Permissions -/

theorem runList_allowed (c : Conf) (e : Env) (buf : Str) : ∀ x ∈ (runList c e buf).1, Allowed c e.restoreFile x := by
  intro x hx
  unfold runList at hx
  split at hx
  · simp at hx; subst hx; trivial
  · split at hx
    · cases hx
    · simp only [List.mem_cons, List.not_mem_nil, or_false] at hx
      rcases hx with rfl | rfl
      · trivial
      · simp_all [Allowed]

theorem runDiff_allowed (c : Conf) (e : Env) (buf : Str) : ∀ x ∈ (runDiff c e buf).1, Allowed c e.restoreFile x := by
  intro x hx
  unfold runDiff at hx
  split at hx
  · simp at hx; subst hx; trivial
  · split at hx
    · cases hx
    · simp only [List.mem_cons, List.not_mem_nil, or_false] at hx
      rcases hx with rfl | rfl
      · trivial
      · simp_all [Allowed]

/-- What comes of a request to restore or verify. -/
theorem runRestore_cases (c : Conf) (e : Env) (buf : Str) (x : Effect) (hx : x ∈ (runRestore c e buf).1) :
    (∃ m, x = .said m) ∨ (x = .usedRestoreFile ∧ e.restoreFile = true) ∨ x = .receivedList ∨
    (∃ b r l, parseRestore buf = some (true, l, b, r) ∧ x = .restored b r l ∧
      (e.restoreFile = true ∨ c.canRestore = true)) ∨
    (∃ b r l, parseRestore buf = some (false, l, b, r) ∧ x = .verified b r l ∧ c.canVerify = true) := by
  unfold runRestore at hx
  cases hp : parseRestore buf with
  | none => rw [hp] at hx; cases hx
  | some q =>
    obtain ⟨isR, l, b, r⟩ := q
    rw [hp] at hx
    simp only [] at hx
    cases isR with
    | true =>
      simp only [Bool.true_and, Bool.not_true, Bool.false_and, Bool.false_eq_true, if_false, if_true] at hx
      split at hx
      · simp at hx; exact Or.inl ⟨_, hx⟩
      · rename_i hok
        have hok' : e.restoreFile = true ∨ c.canRestore = true := by
          cases h1 : e.restoreFile <;> cases h2 : c.canRestore <;> simp_all
        have hpre : ∀ y, y ∈ (if e.restoreFile = true then [Effect.usedRestoreFile] else []) →
            y = .usedRestoreFile ∧ e.restoreFile = true := by
          intro y hy
          split at hy
          · rename_i h; simp at hy; exact ⟨hy, h⟩
          · cases hy
        split at hx
        · exact Or.inr (Or.inl (hpre x hx))
        · split at hx
          · split at hx
            · rcases List.mem_append.1 hx with hx | hx
              · exact Or.inr (Or.inl (hpre x hx))
              · simp at hx; exact Or.inl ⟨_, hx⟩
            · rcases List.mem_append.1 hx with hx | hx
              · exact Or.inr (Or.inl (hpre x hx))
              · simp only [List.mem_cons, List.not_mem_nil, or_false] at hx
                rcases hx with rfl | rfl | rfl
                · exact Or.inl ⟨_, rfl⟩
                · exact Or.inr (Or.inr (Or.inl rfl))
                · exact Or.inr (Or.inr (Or.inr (Or.inl ⟨b, r, l, rfl, rfl, hok'⟩)))
          · rcases List.mem_append.1 hx with hx | hx
            · exact Or.inr (Or.inl (hpre x hx))
            · simp only [List.mem_cons, List.not_mem_nil, or_false] at hx
              rcases hx with rfl | rfl
              · exact Or.inl ⟨_, rfl⟩
              · exact Or.inr (Or.inr (Or.inr (Or.inl ⟨b, r, l, rfl, rfl, hok'⟩)))
    | false =>
      simp only [Bool.false_and, Bool.not_false, Bool.true_and, Bool.false_eq_true, if_false] at hx
      split at hx
      · simp at hx; exact Or.inl ⟨_, hx⟩
      · rename_i hok
        have hok' : c.canVerify = true := by cases h2 : c.canVerify <;> simp_all
        split at hx
        · cases hx
        · split at hx
          · split at hx
            · simp at hx; exact Or.inl ⟨_, hx⟩
            · simp only [List.nil_append, List.mem_cons, List.not_mem_nil, or_false] at hx
              rcases hx with rfl | rfl | rfl
              · exact Or.inl ⟨_, rfl⟩
              · exact Or.inr (Or.inr (Or.inl rfl))
              · exact Or.inr (Or.inr (Or.inr (Or.inr ⟨b, r, l, rfl, rfl, hok'⟩)))
          · simp only [List.nil_append, List.mem_cons, List.not_mem_nil, or_false] at hx
            rcases hx with rfl | rfl
            · exact Or.inl ⟨_, rfl⟩
            · exact Or.inr (Or.inr (Or.inr (Or.inr ⟨b, r, l, rfl, rfl, hok'⟩)))

/-- What comes of a request to back up. -/
theorem runBackup_cases (c : Conf) (e : Env) (resume : Bool) (buf : Str) (x : Effect)
    (hx : x ∈ (runBackup c e resume buf).1) :
    (∃ m, x = .said m) ∨ (∃ m, x = .saidError m) ∨ (x = .ranTimer ∧ c.superClient = false) ∨
    (x = .backedUp resume ∧ c.superClient = false ∧ begins buf (bytes "backupphase1timedcheck") = false ∧
      (begins buf (bytes "backupphase1timed") = true ∧ e.timer = some true ∨
       begins buf (bytes "backupphase1timed") = false ∧ c.canForceBackup = true)) := by
  have hpre : begins buf (bytes "backupphase1timedcheck") = true → begins buf (bytes "backupphase1timed") = true := by
    rw [begins_iff, begins_iff]
    intro h
    exact List.IsPrefix.trans ⟨bytes "check", by decide⟩ h
  unfold runBackup at hx
  simp only [] at hx
  cases hs : c.superClient with
  | true => rw [hs] at hx; simp at hx; exact Or.inl ⟨_, hx⟩
  | false =>
    rw [hs] at hx
    simp only [Bool.false_eq_true, if_false] at hx
    have hgo : ∀ y, y ∈ (if !e.seedOk then
        (([.saidError (bytes "When seeding, there must be no previous backups for this client\n")], -1) : Done)
        else if !e.sent then ([], -1)
        else ([.said (if resume then bytes "resume" else bytes "ok"), .backedUp resume], 0)).1 →
        (∃ m, y = .saidError m) ∨ (∃ m, y = .said m) ∨ y = .backedUp resume := by
      intro y hy
      split at hy
      · simp at hy; exact Or.inl ⟨_, hy⟩
      · split at hy
        · cases hy
        · simp only [List.mem_cons, List.not_mem_nil, or_false] at hy
          rcases hy with rfl | rfl
          · exact Or.inr (Or.inl ⟨_, rfl⟩)
          · exact Or.inr (Or.inr rfl)
    cases ht : begins buf (bytes "backupphase1timed") with
    | true =>
      rw [ht] at hx
      simp only [if_true] at hx
      cases htm : e.timer with
      | none => rw [htm] at hx; simp at hx; exact Or.inr (Or.inr (Or.inl ⟨hx, rfl⟩))
      | some b =>
        rw [htm] at hx
        cases b with
        | false =>
          simp only [List.mem_cons, List.not_mem_nil, or_false] at hx
          rcases hx with rfl | rfl
          · exact Or.inr (Or.inr (Or.inl ⟨rfl, rfl⟩))
          · exact Or.inl ⟨_, rfl⟩
        | true =>
          simp only [] at hx
          cases hc : begins buf (bytes "backupphase1timedcheck") with
          | true =>
            rw [hc] at hx
            simp only [if_true, List.mem_cons, List.not_mem_nil, or_false] at hx
            rcases hx with rfl | rfl
            · exact Or.inr (Or.inr (Or.inl ⟨rfl, rfl⟩))
            · exact Or.inl ⟨_, rfl⟩
          | false =>
            rw [hc] at hx
            simp only [Bool.false_eq_true, if_false] at hx
            rcases List.mem_cons.1 hx with rfl | hx
            · exact Or.inr (Or.inr (Or.inl ⟨rfl, rfl⟩))
            · rcases hgo x hx with ⟨m, rfl⟩ | ⟨m, rfl⟩ | rfl
              · exact Or.inr (Or.inl ⟨_, rfl⟩)
              · exact Or.inl ⟨_, rfl⟩
              · exact Or.inr (Or.inr (Or.inr ⟨rfl, rfl, rfl, Or.inl ⟨rfl, rfl⟩⟩))
    | false =>
      rw [ht] at hx
      simp only [Bool.false_eq_true, if_false] at hx
      cases hf : c.canForceBackup with
      | false => rw [hf] at hx; simp at hx; exact Or.inl ⟨_, hx⟩
      | true =>
        rw [hf] at hx
        simp only [Bool.not_true, Bool.false_eq_true, if_false] at hx
        have hc : begins buf (bytes "backupphase1timedcheck") = false := by
          cases h : begins buf (bytes "backupphase1timedcheck") with
          | false => rfl
          | true => rw [hpre h] at ht; cases ht
        rcases hgo x hx with ⟨m, rfl⟩ | ⟨m, rfl⟩ | rfl
        · exact Or.inr (Or.inl ⟨_, rfl⟩)
        · exact Or.inl ⟨_, rfl⟩
        · exact Or.inr (Or.inr (Or.inr ⟨rfl, rfl, hc, Or.inr ⟨rfl, rfl⟩⟩))

/-- Where an effect can come from. -/
inductive Origin (c : Conf) (e : Env) (buf : Str) (x : Effect) : Prop where
  | noise : Harmless x → Origin c e buf x
  | list : begins buf (bytes "list ") = true ∨ begins buf (bytes "listb ") = true → x ∈ (runList c e buf).1 → Origin c e buf x
  | diff : begins buf (bytes "diff ") = true → x ∈ (runDiff c e buf).1 → Origin c e buf x
  | restore : begins buf (bytes "restore ") = true ∨ begins buf (bytes "verify ") = true →
      x ∈ (runRestore c e buf).1 ∨ x = .removedList → Origin c e buf x
  | lock : begins buf (bytes "backup") = true ∨ begins buf (bytes "Delete ") = true → e.lock = .got →
      x = .locked ∨ x = .recovered → Origin c e buf x
  | delete : begins buf (bytes "Delete ") = true → e.lock = .got → (∃ r, e.rubble = .ok r) →
      x ∈ (runDelete c buf).1 → Origin c e buf x
  | backup (r : Bool) : begins buf (bytes "backup") = true → begins buf (bytes "Delete ") = false → e.lock = .got →
      e.rubble = .ok r → (c.maxParallel = 0 ∨ e.working < c.maxParallel) → x ∈ (runBackup c e r buf).1 → Origin c e buf x

theorem dispatch_origin (c : Conf) (e : Env) (buf : Str) (x : Effect) (hx : x ∈ (dispatch c e buf).1) :
    Origin c e buf x := by
  unfold dispatch at hx
  split at hx
  · rename_i h
    rw [Bool.or_eq_true] at h
    exact .list h hx
  · split at hx
    · rename_i h; exact .diff h hx
    · split at hx
      · simp at hx; subst hx; exact .noise trivial
      · split at hx
        · rename_i h
          rw [Bool.or_eq_true] at h
          simp only [List.mem_append, List.mem_singleton] at hx
          exact .restore h hx
        · split at hx
          · simp at hx; subst hx; exact .noise trivial
          · rename_i hk
            have hk' : begins buf (bytes "backup") = true ∨ begins buf (bytes "Delete ") = true := by
              cases h1 : begins buf (bytes "backup") <;> cases h2 : begins buf (bytes "Delete ") <;> simp_all
            split at hx
            · simp at hx; subst hx; exact .noise trivial
            · simp at hx; subst hx; exact .noise trivial
            · rename_i hl
              split at hx
              · simp only [List.mem_cons, List.not_mem_nil, or_false] at hx
                exact .lock hk' hl hx
              · simp only [List.mem_cons, List.not_mem_nil, or_false] at hx
                exact .lock hk' hl hx
              · rename_i r hr
                split at hx
                · rename_i hd
                  simp only [List.mem_cons] at hx
                  rcases hx with hx | hx | hx
                  · exact .lock hk' hl (Or.inl hx)
                  · exact .lock hk' hl (Or.inr hx)
                  · exact .delete hd hl ⟨r, hr⟩ hx
                · rename_i hd
                  have hd' : begins buf (bytes "Delete ") = false := by simpa using hd
                  split at hx
                  · simp only [List.mem_cons, List.not_mem_nil, or_false] at hx
                    rcases hx with hx | hx | hx
                    · exact .lock hk' hl (Or.inl hx)
                    · exact .lock hk' hl (Or.inr hx)
                    · subst hx; exact .noise trivial
                  · rename_i hmax
                    simp only [List.mem_cons] at hx
                    rcases hx with hx | hx | hx
                    · exact .lock hk' hl (Or.inl hx)
                    · exact .lock hk' hl (Or.inr hx)
                    · refine .backup r ?_ hd' hl hr ?_ hx
                      · rcases hk' with h | h
                        · exact h
                        · rw [hd'] at h; cases h
                      · omega

theorem runAction_origin (c : Conf) (e : Env) (gen : Bool) (buf : Str) (x : Effect)
    (hx : x ∈ (runAction c e gen buf).1) : Harmless x ∨ e.mkpath = true ∧ gen = true ∧ Origin c e buf x := by
  unfold runAction at hx
  split at hx
  · simp at hx; subst hx; exact Or.inl trivial
  · rename_i hm
    split at hx
    · simp only [List.mem_cons, List.not_mem_nil, or_false] at hx
      rcases hx with rfl | rfl <;> exact Or.inl trivial
    · rename_i hg
      simp only [List.mem_cons] at hx
      rcases hx with rfl | rfl | hx
      · exact Or.inl trivial
      · exact Or.inl trivial
      · exact Or.inr ⟨by simpa using hm, by simpa using hg, dispatch_origin c e buf x hx⟩

theorem parseRestore_spec (buf : Str) (isR l : Bool) (b : Str) (r : Option Str)
    (h : parseRestore buf = some (isR, l, b, r)) :
    NoColon b ∧ ∃ r', (r = r' ∨ r = none ∧ r' = some []) ∧
      buf = (if isR then bytes "restore " else bytes "verify ") ++ (if l then bytes "restore_list " else []) ++ b ++
        afterColon r' := by
  have key : ∀ (t : Str) (w : Str), buf = w ++ t →
      (buf.dropWhile (· ≠ space)).drop 1 = t →
      parseRestore buf = some (isR, l, b, r) →
      (parseRestore buf = some (isR, begins t (bytes "restore_list "),
        (cutColon (if begins t (bytes "restore_list ") then t.drop 13 else t)).1,
        noEmpty (cutColon (if begins t (bytes "restore_list ") then t.drop 13 else t)).2)) →
      NoColon b ∧ ∃ r', (r = r' ∨ r = none ∧ r' = some []) ∧
        buf = w ++ (if l then bytes "restore_list " else []) ++ b ++ afterColon r' := by
    intro t w hb _ h1 h2
    rw [h1] at h2
    simp only [Option.some.injEq, Prod.mk.injEq, true_and] at h2
    obtain ⟨hl, hbk, hr⟩ := h2
    have hsp := cutColon_spec (if begins t (bytes "restore_list ") then t.drop 13 else t)
    rw [← hbk] at hsp
    refine ⟨hsp.2, (cutColon (if begins t (bytes "restore_list ") then t.drop 13 else t)).2, ?_, ?_⟩
    · rw [hr]
      generalize (cutColon (if begins t (bytes "restore_list ") then t.drop 13 else t)).2 = z
      match z with
      | none => exact Or.inl rfl
      | some [] => exact Or.inr ⟨rfl, rfl⟩
      | some (_ :: _) => exact Or.inl rfl
    · rw [hb, List.append_assoc, List.append_assoc, ← hsp.1]
      congr 1
      rw [hl]
      cases hg : begins t (bytes "restore_list ") with
      | false => rfl
      | true =>
        simp only [if_true]
        obtain ⟨u, hu⟩ := (begins_iff _ _).1 hg
        rw [← hu]
        rfl
  cases h1 : begins buf (bytes "restore ") with
  | true =>
    obtain ⟨t, ht⟩ := (begins_iff _ _).1 h1
    have hd : (buf.dropWhile (· ≠ space)).drop 1 = t := by rw [← ht]; rfl
    have hp : parseRestore buf = some (true, begins t (bytes "restore_list "),
        (cutColon (if begins t (bytes "restore_list ") then t.drop 13 else t)).1,
        noEmpty (cutColon (if begins t (bytes "restore_list ") then t.drop 13 else t)).2) := by
      unfold parseRestore
      rw [h1, if_pos rfl]
      simp only [hd]
    have hR : isR = true := by
      rw [h] at hp
      simp only [Option.some.injEq, Prod.mk.injEq] at hp
      exact hp.1
    rw [hR] at h key ⊢
    simpa using key t _ ht.symm hd h hp
  | false =>
    cases h2 : begins buf (bytes "verify ") with
    | false =>
      unfold parseRestore at h
      rw [h1, h2] at h
      simp at h
    | true =>
      obtain ⟨t, ht⟩ := (begins_iff _ _).1 h2
      have hd : (buf.dropWhile (· ≠ space)).drop 1 = t := by rw [← ht]; rfl
      have hp : parseRestore buf = some (false, begins t (bytes "restore_list "),
          (cutColon (if begins t (bytes "restore_list ") then t.drop 13 else t)).1,
          noEmpty (cutColon (if begins t (bytes "restore_list ") then t.drop 13 else t)).2) := by
        unfold parseRestore
        rw [h1, h2]
        simp only [hd, Bool.false_eq_true, if_false, if_true]
      have hR : isR = false := by
        rw [h] at hp
        simp only [Option.some.injEq, Prod.mk.injEq] at hp
        exact hp.1
      rw [hR] at h key ⊢
      simpa using key t _ ht.symm hd h hp

/-- The arguments after a command. -/
theorem cut_after (buf w : Str) (hw : NoColon w) (h : begins buf w = true) :
    ∃ b, (cutColon buf).1.drop w.length = b ∧ NoColon b ∧ buf = w ++ b ++ afterColon (cutColon buf).2 := by
  obtain ⟨t, ht⟩ := (begins_iff _ _).1 h
  refine ⟨(cutColon t).1, ?_, (cutColon_spec t).2, ?_⟩
  · rw [← ht, cutColon_append w t hw, List.drop_left']
    rfl
  · rw [← ht, cutColon_append w t hw, List.append_assoc]
    simp only []
    rw [← (cutColon_spec t).1]

end RunAction

/-- **C55**: whatever the request, the client is only listed to, shown differences, restored from, verified, or
has a backup deleted if its settings allow this. A restore is also allowed if the administrator has put a file
in place for that, and a client cannot be backed up by another. -/
theorem C55_permission (c : Conf) (e : Env) (gen : Bool) (buf : Str) :
    ∀ x ∈ (runAction c e gen buf).1, Allowed c e.restoreFile x := by
  intro x hx
  rcases runAction_origin c e gen buf x hx with h | ⟨_, _, h⟩
  · cases x <;> first | trivial | cases h
  cases h with
  | noise h => cases x <;> first | trivial | cases h
  | list _ h => exact runList_allowed c e buf x h
  | diff _ h => exact runDiff_allowed c e buf x h
  | restore _ h =>
    rcases h with h | rfl
    · rcases runRestore_cases c e buf x h with ⟨m, rfl⟩ | ⟨rfl, _⟩ | rfl | ⟨b, r, l, _, rfl, ho⟩ | ⟨b, r, l, _, rfl, ho⟩
      · trivial
      · trivial
      · trivial
      · exact ho.symm
      · exact ho
    · trivial
  | lock _ _ h => rcases h with rfl | rfl <;> trivial
  | delete _ _ _ h =>
    unfold runDelete at h
    split at h
    · simp at h; subst h; trivial
    · rename_i hc
      simp at h; subst h
      simpa [Allowed] using hc
  | backup r _ _ _ _ _ h =>
    rcases runBackup_cases c e r buf x h with ⟨m, rfl⟩ | ⟨m, rfl⟩ | ⟨rfl, _⟩ | ⟨rfl, hs, _⟩
    · trivial
    · trivial
    · trivial
    · exact hs

/-- **C55**: what is done is what the request says, with the backup, the regular expression and the directory
it names. -/
theorem C55_as_asked (c : Conf) (e : Env) (gen : Bool) (buf : Str) :
    ∀ x ∈ (runAction c e gen buf).1, AskedBy buf x := by
  intro x hx
  rcases runAction_origin c e gen buf x hx with h | ⟨_, _, h⟩
  · cases x <;> first | trivial | cases h
  cases h with
  | noise h => cases x <;> first | trivial | cases h
  | list hb h =>
    unfold runList at h
    split at h
    · simp at h; subst h; trivial
    · split at h
      · cases h
      · simp only [List.mem_cons, List.not_mem_nil, or_false] at h
        rcases h with rfl | rfl
        · trivial
        · unfold listArgs
          cases h1 : begins buf (bytes "list ") with
          | true =>
            simp only [if_true]
            obtain ⟨b, e1, e2, e3⟩ := cut_after buf (bytes "list ") (by unfold NoColon; decide) h1
            exact ⟨b, congrArg some e1, e2, Or.inl ⟨e3, rfl⟩⟩
          | false =>
            have h2 : begins buf (bytes "listb ") = true := by
              rcases hb with hb | hb
              · rw [h1] at hb; cases hb
              · exact hb
            simp only [h2, Bool.false_eq_true, if_false, if_true]
            obtain ⟨b, e1, e2, e3⟩ := cut_after buf (bytes "listb ") (by unfold NoColon; decide) h2
            exact ⟨b, congrArg some e1, e2, Or.inr ⟨rfl, _, e3, rfl⟩⟩
  | diff hb h =>
    unfold runDiff at h
    split at h
    · simp at h; subst h; trivial
    · split at h
      · cases h
      · simp only [List.mem_cons, List.not_mem_nil, or_false] at h
        rcases h with rfl | rfl
        · trivial
        · unfold diffArgs
          simp only [hb, if_true]
          obtain ⟨b, e1, e2, e3⟩ := cut_after buf (bytes "diff ") (by unfold NoColon; decide) hb
          exact ⟨b, congrArg some e1, e2, e3⟩
  | restore _ h =>
    rcases h with h | rfl
    · rcases runRestore_cases c e buf x h with ⟨m, rfl⟩ | ⟨rfl, _⟩ | rfl | ⟨b, r, l, hp, rfl, _⟩ | ⟨b, r, l, hp, rfl, _⟩
      · trivial
      · trivial
      · trivial
      · exact parseRestore_spec buf true l b r hp
      · exact parseRestore_spec buf false l b r hp
    · trivial
  | lock hb _ h =>
    rw [begins_iff, begins_iff] at hb
    rcases h with rfl | rfl
    · trivial
    · exact hb
  | delete hb _ _ h =>
    unfold runDelete at h
    split at h
    · simp at h; subst h; trivial
    · simp at h; subst h
      obtain ⟨t, ht⟩ := (begins_iff _ _).1 hb
      show buf = bytes "Delete " ++ buf.drop 7
      rw [← ht]; rfl
  | backup r hb _ _ _ _ h =>
    rcases runBackup_cases c e r buf x h with ⟨m, rfl⟩ | ⟨m, rfl⟩ | ⟨rfl, _⟩ | ⟨rfl, _, hc, _⟩
    · trivial
    · trivial
    · trivial
    · refine ⟨(begins_iff _ _).1 hb, ?_⟩
      intro h
      rw [← begins_iff, hc] at h
      cases h

/-- **C55**: a request the server does not know, one of the wrong kind, and an old-style deletion change nothing:
there is only a note that there was a request, and an answer. -/
theorem C55_unknown (c : Conf) (e : Env) (gen : Bool) (buf : Str)
    (h : gen = false ∨ (∀ k ∈ known, ¬ k <+: buf)) : ∀ x ∈ (runAction c e gen buf).1, Harmless x := by
  intro x hx
  rcases runAction_origin c e gen buf x hx with hh | ⟨_, hg, ho⟩
  · exact hh
  rcases h with h | h
  · rw [hg] at h; cases h
  have hk : ∀ k ∈ known, begins buf k ≠ true := fun k hk hb => h k hk ((begins_iff _ _).1 hb)
  cases ho with
  | noise h => exact h
  | list hb => exact absurd hb (by rintro (hb | hb) <;> exact hk _ (by simp [known]) hb)
  | diff hb => exact absurd hb (hk _ (by simp [known]))
  | restore hb => exact absurd hb (by rintro (hb | hb) <;> exact hk _ (by simp [known]) hb)
  | lock hb => exact absurd hb (by rintro (hb | hb) <;> exact hk _ (by simp [known]) hb)
  | delete hb => exact absurd hb (hk _ (by simp [known]))
  | backup r hb => exact absurd hb (hk _ (by simp [known]))

/-- **C55**: an old-style request to delete is one of those. -/
theorem C55_old_delete (c : Conf) (e : Env) (t : Str) :
    (∀ k ∈ known, ¬ k <+: bytes "delete " ++ t) ∧
    ∀ x ∈ (runAction c e true (bytes "delete " ++ t)).1, Harmless x := by
  have h : ∀ k ∈ known, ¬ k <+: bytes "delete " ++ t := by
    intro k hk hp
    have h1 : k.take 7 = (bytes "delete ").take k.length := by
      obtain ⟨u, hu⟩ := hp
      have h2 : (k ++ u).take (min 7 k.length) = (bytes "delete " ++ t).take (min 7 k.length) := by rw [hu]
      simp only [known, List.mem_cons, List.not_mem_nil, or_false] at hk
      rcases hk with rfl | rfl | rfl | rfl | rfl | rfl | rfl <;> exact h2
    revert h1
    simp only [known, List.mem_cons, List.not_mem_nil, or_false] at hk
    rcases hk with rfl | rfl | rfl | rfl | rfl | rfl | rfl <;> decide
  exact ⟨h, C55_unknown c e true _ (Or.inr h)⟩

/-- **C55**: what is allowed is done: a client that may list gets its list. -/
theorem C55_list_done (c : Conf) (e : Env) (b : Str) (r : Option Str) (hb : NoColon b) (hm : e.mkpath = true)
    (hs : e.sent = true) (hc : c.canList = true) :
    Effect.listed (some b) r none ∈ (runAction c e true (bytes "list " ++ b ++ afterColon r)).1 := by
  have hbeg : begins (bytes "list " ++ b ++ afterColon r) (bytes "list ") = true :=
    (begins_iff _ _).2 ⟨b ++ afterColon r, by simp⟩
  have hcut : cutColon (bytes "list " ++ b ++ afterColon r) = (bytes "list " ++ b, r) := by
    rw [cutColon_append _ _ (by
      intro h
      rcases List.mem_append.1 h with h | h
      · revert h; decide
      · exact hb h)]
    cases r <;> simp [afterColon, cutColon]
  simp only [runAction, hm, Bool.not_true, Bool.false_eq_true, if_false, dispatch, hbeg, Bool.true_or, if_true, runList,
    hc, hs, listArgs, hcut, List.mem_cons]
  right; right; right; left
  rfl

/-- **C54**: a process that did not get the lock neither recovers, nor deletes, nor makes a backup. -/
theorem C54_locked_out (c : Conf) (e : Env) (gen : Bool) (buf : Str) (hl : e.lock ≠ .got) :
    ∀ x ∈ (runAction c e gen buf).1, ¬ Changes x := by
  intro x hx hc
  rcases runAction_origin c e gen buf x hx with h | ⟨_, _, h⟩
  · cases x <;> first | exact False.elim hc | exact False.elim h
  cases h with
  | noise h => cases x <;> first | exact False.elim hc | exact False.elim h
  | list _ h =>
    unfold runList at h
    split at h
    · simp at h; subst h; cases hc
    · split at h
      · cases h
      · simp only [List.mem_cons, List.not_mem_nil, or_false] at h
        rcases h with rfl | rfl <;> cases hc
  | diff _ h =>
    unfold runDiff at h
    split at h
    · simp at h; subst h; cases hc
    · split at h
      · cases h
      · simp only [List.mem_cons, List.not_mem_nil, or_false] at h
        rcases h with rfl | rfl <;> cases hc
  | restore _ h =>
    rcases h with h | rfl
    · rcases runRestore_cases c e buf x h with ⟨m, rfl⟩ | ⟨rfl, _⟩ | rfl | ⟨b, r, l, _, rfl, _⟩ | ⟨b, r, l, _, rfl, _⟩ <;>
        cases hc
    · cases hc
  | lock _ hg _ => exact hl hg
  | delete _ hg => exact hl hg
  | backup _ _ _ hg => exact hl hg

/-- **C54**: the lock is taken before anything is changed. -/
theorem C54_lock_first (c : Conf) (e : Env) (gen : Bool) (buf : Str) (pre post : List Effect) (x : Effect)
    (h : (runAction c e gen buf).1 = pre ++ x :: post) (hc : Changes x) : Effect.locked ∈ pre := by
  have hl : e.lock = .got := by
    cases hl : e.lock with
    | got => rfl
    | notGot => exact absurd hc (C54_locked_out c e gen buf (by rw [hl]; decide) x (by rw [h]; simp))
    | error => exact absurd hc (C54_locked_out c e gen buf (by rw [hl]; decide) x (by rw [h]; simp))
  have hx : x ∈ (runAction c e gen buf).1 := by rw [h]; simp
  -- the request is a backup or a deletion
  have hb : e.mkpath = true ∧ gen = true ∧ (begins buf (bytes "backup") = true ∨ begins buf (bytes "Delete ") = true) := by
    rcases runAction_origin c e gen buf x hx with h | ⟨hm, hg, h⟩
    · cases x <;> first | exact False.elim hc | exact False.elim h
    refine ⟨hm, hg, ?_⟩
    cases h with
    | noise h => cases x <;> first | exact False.elim hc | exact False.elim h
    | list _ h =>
      unfold runList at h
      split at h
      · simp at h; subst h; cases hc
      · split at h
        · cases h
        · simp only [List.mem_cons, List.not_mem_nil, or_false] at h
          rcases h with rfl | rfl <;> cases hc
    | diff _ h =>
      unfold runDiff at h
      split at h
      · simp at h; subst h; cases hc
      · split at h
        · cases h
        · simp only [List.mem_cons, List.not_mem_nil, or_false] at h
          rcases h with rfl | rfl <;> cases hc
    | restore _ h =>
      rcases h with h | rfl
      · rcases runRestore_cases c e buf x h with ⟨m, rfl⟩ | ⟨rfl, _⟩ | rfl | ⟨b, r, l, _, rfl, _⟩ | ⟨b, r, l, _, rfl, _⟩ <;>
          cases hc
      · cases hc
    | lock hb _ _ => exact hb
    | delete hb => exact Or.inr hb
    | backup _ hb => exact Or.inl hb
  obtain ⟨hm, hg, hb⟩ := hb
  -- so its effects begin with the lock
  have hstart : ∃ rest, (dispatch c e buf).1 = .locked :: rest := by
    have hno : ∀ w : Str, w.head? ≠ some 98 → w.head? ≠ some 68 → w ≠ [] → begins buf w = false := by
      intro w h1 h2 h3
      cases hw : begins buf w with
      | false => rfl
      | true =>
        exfalso
        obtain ⟨t, ht⟩ := (begins_iff _ _).1 hw
        cases w with
        | nil => exact h3 rfl
        | cons c w =>
          simp only [List.head?_cons, ne_eq, Option.some.injEq] at h1 h2
          rcases hb with hb | hb
          · obtain ⟨u, hu⟩ := (begins_iff _ _).1 hb
            rw [← hu] at ht
            exact h1 (List.cons.inj ht).1
          · obtain ⟨u, hu⟩ := (begins_iff _ _).1 hb
            rw [← hu] at ht
            exact h2 (List.cons.inj ht).1
    unfold dispatch
    rw [hno (bytes "list ") (by decide) (by decide) (by decide), hno (bytes "listb ") (by decide) (by decide) (by decide),
      hno (bytes "diff ") (by decide) (by decide) (by decide), hno (bytes "delete ") (by decide) (by decide) (by decide),
      hno (bytes "restore ") (by decide) (by decide) (by decide), hno (bytes "verify ") (by decide) (by decide) (by decide)]
    simp only [Bool.or_self, Bool.false_eq_true, if_false, hl]
    rw [if_neg (by rcases hb with hb | hb <;> simp [hb])]
    split
    · exact ⟨_, rfl⟩
    · exact ⟨_, rfl⟩
    · split
      · exact ⟨_, rfl⟩
      · split
        · exact ⟨_, rfl⟩
        · exact ⟨_, rfl⟩
  obtain ⟨rest, hrest⟩ := hstart
  rw [runAction, if_neg (by simp [hm]), if_neg (by simp [hg])] at h
  simp only [hrest] at h
  rcases pre with _ | ⟨p1, _ | ⟨p2, _ | ⟨p3, pre⟩⟩⟩
  · have := (List.cons.inj h).1; rw [← this] at hc; cases hc
  · have := (List.cons.inj (List.cons.inj h).2).1; rw [← this] at hc; cases hc
  · have := (List.cons.inj (List.cons.inj (List.cons.inj h).2).2).1; rw [← this] at hc; cases hc
  · have := (List.cons.inj (List.cons.inj (List.cons.inj h).2).2).1
    rw [← this]; simp

/-- A client with all permissions but to delete. -/
def RunAction.demoConf : Conf := ⟨true, true, true, true, false, true, false, 0⟩

def RunAction.demoEnv : Env := ⟨true, false, true, true, .got, .ok false, 0, some true, true⟩

example : runAction demoConf demoEnv true (bytes "restore restore_list 3:^/etc") =
    ([.wroteCreated, .loggedCommand, .said (bytes "ok restore_list"), .receivedList,
      .restored (bytes "3") (some (bytes "^/etc")) true, .removedList], 0) := by decide +kernel

example : runAction demoConf demoEnv true (bytes "listb 3:/etc//") =
    ([.wroteCreated, .loggedCommand, .said (bytes "ok"), .listed (some (bytes "3")) none (some (bytes "/etc"))], 0) := by
  decide +kernel

example : runAction demoConf demoEnv true (bytes "backupphase1") =
    ([.wroteCreated, .loggedCommand, .locked, .recovered, .said (bytes "ok"), .backedUp false], 0) := by decide +kernel

/-- **C55**: a request to delete that is going to be refused still has the recovery done, which may complete or
remove an interrupted backup. -/
theorem C55_refused_delete_recovers_violated :
    demoConf.canDelete = false ∧
    runAction demoConf demoEnv true (bytes "Delete 3") =
      ([.wroteCreated, .loggedCommand, .locked, .recovered, .said (bytes "Client delete is not allowed")], -1) := by
  decide +kernel

end Verif
