import Verif.Lemmas.Retention

/-!
# C21, C22, C23: the retention policy
-/

namespace Verif
open Verif.Retention

/-- The history used in the examples: nine backups, number 1, 4 and 7 hardlinked archives. -/
def nine : List Bu := (List.range 9).map (fun i => ⟨i + 1, i % 3 == 0⟩)

example : Listed nine ∧ KeepOk [3, 3] ∧ nine.length = 9 := by decide

/-! ### C21 -/

/-- C21: whatever the history, the keep values and the failures of the file system, a run of the
policy never removes the newest backup. -/
theorem C21_newest_never_deleted (keep : List Nat) (hk : KeepOk keep) (l : List Bu) (h : Listed l)
    (o : Nat → Outcome) (fuel : Nat) (r : Result) (hr : deleteBackups keep o fuel l = some r)
    (newest : Bu) (hn : l.getLast? = some newest) :
    newest.bno ∉ r.removed ∧ r.left.getLast? = some newest := by
  have hf := run_facts hk o h hr
  have := hf.facts.newest newest hn
  exact ⟨this, by rw [hf.left]; exact getLast_without hn this⟩

/-- C21: every single deletion, in the order in which they happen, is of a backup that is there and
is deletable at that moment: the oldest, or the one after a hardlinked archive. Nothing else goes. -/
theorem C21_only_deletable (keep : List Nat) (hk : KeepOk keep) (l : List Bu) (h : Listed l)
    (o : Nat → Outcome) (fuel : Nat) (r : Result) (hr : deleteBackups keep o fuel l = some r) :
    LegalSequence l r.removed ∧ ∀ b ∈ l, b.bno ∉ r.removed → b ∈ r.left := by
  have hf := run_facts hk o h hr
  refine ⟨hf.facts.legal, ?_⟩
  intro b hb hg
  rw [hf.left]; exact mem_without.2 ⟨hb, hg⟩

/-- C21: a run of the policy ends, after at most one pass more than there are backups. -/
theorem C21_terminates (keep : List Nat) (hk : KeepOk keep) (l : List Bu) (h : Listed l)
    (o : Nat → Outcome) : ∃ r, deleteBackups keep o (l.length + 1) l = some r :=
  run_terminates hk o h (by omega)

/-- C21: the policy never tries to delete the same backup twice, so it reports an error only if the
file system does. -/
theorem C21_no_spurious_error (keep : List Nat) (hk : KeepOk keep) (l : List Bu) (h : Listed l)
    (o : Nat → Outcome) (ho : ∀ n, o n = .removed) (fuel : Nat) (r : Result)
    (hr : deleteBackups keep o fuel l = some r) :
    r.failed = false ∧ ((plan keep l).map (fun e => e.bu.bno)).Nodup :=
  ⟨run_no_failure ho hr, plan_nodup_bno hk h⟩

/-- A run that really deletes: of nine backups with keep 3, 3 the ones numbered 2, 5, 3 and 6 are
removed in two passes. -/
example : (deleteBackups [3, 3] (fun _ => .removed) 10 nine).map (·.removed) = some [2, 5, 3, 6] := by
  decide +kernel

/-! ### C22 -/

/-- C22: backups whose number is among the last `k1` numbers survive. -/
theorem C22_recent_kept_partial (keep : List Nat) (hk : KeepOk keep) (k1 : Nat) (hk1 : keep.head? = some k1)
    (l : List Bu) (h : Listed l) (o : Nat → Outcome) (fuel : Nat) (r : Result)
    (hr : deleteBackups keep o fuel l = some r) (newest : Bu) (hn : l.getLast? = some newest)
    (b : Bu) (hb : b ∈ l) (hage : newest.bno - b.bno < k1) : b ∈ r.left := by
  have hf := run_facts hk o h hr
  rw [hf.left]
  exact mem_without.2 ⟨hb, hf.facts.recent newest k1 hn hk1 b hb (by unfold age; omega)⟩

theorem consecutive_age {l : List Bu} {start : Nat} :
    ∀ {older recent : List Bu}, l = older ++ recent →
    recent.map Bu.bno = (List.range recent.length).map (fun i => start + i) →
    ∀ newest, l.getLast? = some newest → ∀ b ∈ recent, newest.bno - b.bno < recent.length := by
  intro older recent hl hc newest hn b hb
  have hne : recent ≠ [] := List.ne_nil_of_mem hb
  have hlast : recent.getLast? = some newest := by
    rw [hl, List.getLast?_append] at hn
    cases hr : recent.getLast? with
    | none => rw [List.getLast?_eq_none_iff] at hr; exact absurd hr hne
    | some x => rw [hr] at hn; simpa using hn
  have h1 : newest.bno ∈ recent.map Bu.bno := List.mem_map_of_mem (List.mem_of_getLast? hlast)
  have h2 : b.bno ∈ recent.map Bu.bno := List.mem_map_of_mem hb
  rw [hc] at h1 h2
  simp only [List.mem_map, List.mem_range] at h1 h2
  obtain ⟨i, hi, h1⟩ := h1
  obtain ⟨j, hj, h2⟩ := h2
  omega

/-- C22: if there are no gaps in the numbers of the `k1` most recent backups, these all survive. -/
theorem C22_k1_most_recent_kept_partial (keep : List Nat) (hk : KeepOk keep) (k1 : Nat)
    (hk1 : keep.head? = some k1) (l older recent : List Bu) (h : Listed l)
    (hl : l = older ++ recent) (hlen : recent.length ≤ k1) (start : Nat)
    (hc : recent.map Bu.bno = (List.range recent.length).map (fun i => start + i))
    (o : Nat → Outcome) (fuel : Nat) (r : Result)
    (hr : deleteBackups keep o fuel l = some r) : ∀ b ∈ recent, b ∈ r.left := by
  intro b hb
  cases hn : l.getLast? with
  | none =>
    rw [List.getLast?_eq_none_iff] at hn
    rw [hn] at hl
    have : recent = [] := (List.append_eq_nil_iff.1 hl.symm).2
    rw [this] at hb; simp at hb
  | some newest =>
    have := consecutive_age hl hc newest hn b hb
    exact C22_recent_kept_partial keep hk k1 hk1 l h o fuel r hr newest hn b (by rw [hl]; simp [hb])
      (by omega)

/-- C22 (violated): ages count backup numbers, not backups. After a manual deletion leaves a gap,
the policy deletes one of the `k1` most recent backups: here there are only three backups and the
configuration is to keep three, and the oldest goes all the same. -/
theorem C22_k1_most_recent_kept_violated :
    ∃ (l : List Bu) (r : Result), Listed l ∧ l.length = 3 ∧
      deleteBackups [3] (fun _ => .removed) 4 l = some r ∧ r.left.length < 3 := by
  refine ⟨[⟨1, true⟩, ⟨4, true⟩, ⟨5, true⟩], ⟨[⟨4, true⟩, ⟨5, true⟩], [1], false⟩, ?_⟩
  decide

/-- C22: once a run has ended without failure, no backup older than the product of the keep values
is left at all. -/
theorem C22_old_removed (keep : List Nat) (hk : KeepOk keep) (l : List Bu) (h : Listed l)
    (o : Nat → Outcome) (fuel : Nat) (r : Result) (hr : deleteBackups keep o fuel l = some r)
    (hok : r.failed = false) (newest : Bu) (hn : l.getLast? = some newest) :
    ∀ b ∈ r.left, newest.bno - b.bno < keep.prod := by
  have hf := run_facts hk o h hr
  have hdone := hf.done hok
  have hlast := (C21_newest_never_deleted keep hk l h o fuel r hr newest hn).2
  have hlist : Listed r.left := by rw [hf.left]; exact listed_without h _
  intro b hb
  unfold plan at hdone
  dsimp only at hdone
  rw [List.append_eq_nil_iff] at hdone
  obtain ⟨e, he, hbe⟩ := exists_setup hb
  have := oldest_nil hdone.2 e he
  rw [keepLoop_snd, Nat.one_mul, setup_trbno hlist hlast he, hbe] at this
  unfold age at this
  omega

/-- C22: the keep values that configuration loading lets through are positive, and their product is
at most 52560000 (with one added to the last of several). -/
theorem C22_keep_values_checked (keep keep' : List Int)
    (hint : ∀ k ∈ keep, -2^31 ≤ k ∧ k < 2^31) (h : finaliseKeepArgs keep = some keep') :
    (∀ k ∈ keep, 0 < k) ∧ (∀ k ∈ keep', 0 < k) ∧ (keep.foldl (· * ·) 1) ≤ 52560000 ∧
    keep' = (if keep.length ≥ 2 then keep.dropLast ++ [(keep.getLast?.getD 0) + 1] else keep) := by
  have hmain : ∀ (ks : List Int) (m : Nat), 1 ≤ m → m ≤ 52560000 →
      (∀ k ∈ ks, -2^31 ≤ k ∧ k < 2^31) → keepMult m ks = true →
      (∀ k ∈ ks, 0 < k) ∧ ks.foldl (· * ·) (m : Int) ≤ 52560000 := by
    intro ks
    induction ks with
    | nil =>
      intro m h1 h2 _ _
      refine ⟨fun k hk => absurd hk (by simp), ?_⟩
      show (m : Int) ≤ 52560000
      omega
    | cons k ks ih =>
      intro m h1 h2 hint hm
      simp only [keepMult] at hm
      have hk := hint k (by simp)
      have hk1 : (-2147483648 : Int) ≤ k := Int.le_trans (by decide) hk.1
      have hk2 : k < (2147483648 : Int) := Int.lt_of_lt_of_le hk.2 (by decide)
      split at hm
      · simp at hm
      · rename_i hk0
        split at hm
        · simp at hm
        · rename_i hle
          have hml : (m : Int) ≤ 52560000 := by omega
          have hm1 : (1 : Int) ≤ m := by omega
          have hpos : 0 < k := by
            apply Classical.byContradiction
            intro hneg
            have hk3 : k ≤ -1 := by omega
            have b1 : (m : Int) * k ≤ (m : Int) * (-1) := Int.mul_le_mul_of_nonneg_left hk3 (by omega)
            have b2 : (m : Int) * (-2147483648) ≤ (m : Int) * k :=
              Int.mul_le_mul_of_nonneg_left hk1 (by omega)
            generalize (m : Int) * k = x at *
            omega
          have b1 : (m : Int) * 1 ≤ (m : Int) * k := Int.mul_le_mul_of_nonneg_left (by omega) (by omega)
          have b2 : (m : Int) * k ≤ (m : Int) * 2147483648 :=
            Int.mul_le_mul_of_nonneg_left (by omega) (by omega)
          have hx : (((m : Int) * k % (2^64 : Int)).toNat : Int) = (m : Int) * k := by
            generalize (m : Int) * k = x at *
            omega
          have hx1 : 1 ≤ ((m : Int) * k % (2^64 : Int)).toNat := by omega
          obtain ⟨i1, i2⟩ := ih _ hx1 (by omega) (fun x hx => hint x (by simp [hx])) hm
          refine ⟨?_, ?_⟩
          · intro x hxm
            simp only [List.mem_cons] at hxm
            rcases hxm with rfl | hxm
            · exact hpos
            · exact i1 x hxm
          · rw [List.foldl_cons, ← hx]; exact i2
  unfold finaliseKeepArgs at h
  split at h
  · rename_i hm
    obtain ⟨h1, h2⟩ := hmain keep 1 (by omega) (by omega) hint hm
    have hb : ∀ ks : List Int, ks ≠ [] → bumpLast ks = ks.dropLast ++ [(ks.getLast?.getD 0) + 1] := by
      intro ks
      induction ks with
      | nil => intro h; exact absurd rfl h
      | cons k ks ih =>
        intro _
        cases ks with
        | nil => simp [bumpLast]
        | cons k2 ks =>
          have := ih (by simp)
          simp only [bumpLast, this]
          simp [List.getLast?_cons_cons]
    simp only [Option.some.injEq] at h
    have heq : keep' =
        (if keep.length ≥ 2 then keep.dropLast ++ [(keep.getLast?.getD 0) + 1] else keep) := by
      rw [← h]
      split
      · rename_i hlen
        exact hb keep (by intro hc; rw [hc] at hlen; simp at hlen)
      · rfl
    refine ⟨h1, ?_, by simpa using h2, heq⟩
    intro k hkm
    rw [heq] at hkm
    split at hkm
    · rename_i hlen
      rw [List.mem_append] at hkm
      rcases hkm with hkm | hkm
      · exact h1 k (List.dropLast_subset _ hkm)
      · simp at hkm
        cases hl : keep.getLast? with
        | none =>
          rw [List.getLast?_eq_none_iff] at hl; rw [hl] at hlen; simp at hlen
        | some x =>
          have := h1 x (List.mem_of_getLast? hl)
          rw [hl] at hkm; simp at hkm; omega
    · exact h1 k hkm
  · simp at h

example : finaliseKeepArgs [7, 4, 6] = some [7, 4, 7] ∧ finaliseKeepArgs [0] = none ∧
    finaliseKeepArgs [-7] = none := by decide

/-! ### C23 -/

/-- C23: in every generation interval of the keep values, if there was a backup at the start then
there is one at the end, whatever fails in between. -/
theorem C23_generation_keeps_one (keep : List Nat) (hk : KeepOk keep) (l : List Bu) (h : Listed l)
    (o : Nat → Outcome) (fuel : Nat) (r : Result) (hr : deleteBackups keep o fuel l = some r)
    (newest : Bu) (hn : l.getLast? = some newest) (lo hi : Nat) (hg : Generation keep lo hi)
    (hex : ∃ b ∈ l, lo < age newest b ∧ age newest b ≤ hi) :
    ∃ b ∈ r.left, lo < age newest b ∧ age newest b ≤ hi := by
  have hf := run_facts hk o h hr
  rw [hf.left]
  exact hf.facts.gen newest lo hi hn hg hex

/-- C23: and the thinning is complete: when a run ends without failure, an interval with more than
one backup has no deletable backup strictly inside. -/
theorem C23_thinning_complete (keep : List Nat) (hk : KeepOk keep) (l : List Bu) (h : Listed l)
    (o : Nat → Outcome) (fuel : Nat) (r : Result) (hr : deleteBackups keep o fuel l = some r)
    (hok : r.failed = false) (newest : Bu) (hn : l.getLast? = some newest) (lo hi : Nat)
    (hg : Generation keep lo hi) (a b : Bu) (ha : a ∈ r.left) (hb : b ∈ r.left) (hab : a ≠ b)
    (ha1 : lo < age newest a) (ha2 : age newest a < hi) (hb1 : lo < age newest b)
    (hb2 : age newest b ≤ hi) :
    ∃ e ∈ setupIndices r.left, e.bu = a ∧ e.deletable = false := by
  have hf := run_facts hk o h hr
  have hdone := hf.done hok
  have hlast := (C21_newest_never_deleted keep hk l h o fuel r hr newest hn).2
  have hlist : Listed r.left := by rw [hf.left]; exact listed_without h _
  obtain ⟨ea, hea, rfl⟩ := exists_setup ha
  obtain ⟨eb, heb, rfl⟩ := exists_setup hb
  refine ⟨ea, hea, rfl, ?_⟩
  obtain ⟨pre, k, post, j, h1, h2, h3, h4, rfl, rfl⟩ := hg
  rw [← setup_trbno hlist hlast hea] at ha1 ha2
  rw [← setup_trbno hlist hlast heb] at hb1 hb2
  unfold plan at hdone
  dsimp only at hdone
  rw [List.append_eq_nil_iff] at hdone
  have hempty : thinRange pre.prod ((j + 1) * pre.prod) (setupIndices r.left) = [] := by
    rw [List.eq_nil_iff_forall_not_mem]
    intro e he
    have : e ∈ (keepLoop (setupIndices r.left) 1 keep).1 :=
      (mem_keepLoop (m := 1) (by omega) hk).2
        ⟨pre, k, post, j, h1, h2, h3, h4, by rw [Nat.one_mul]; exact he⟩
    rw [hdone.1] at this
    simp at this
  unfold thinRange at hempty
  dsimp only at hempty
  rw [sub_one_range] at hempty
  split at hempty
  · rename_i hc
    exfalso
    have hne : ea ≠ eb := by intro hc2; rw [hc2] at hab; exact hab rfl
    have hsub : ∀ x ∈ [ea, eb], x ∈ (setupIndices r.left).filter
        (fun e => decide (j * pre.prod < e.trbno) && decide (e.trbno ≤ (j + 1) * pre.prod)) := by
      intro x hx
      rw [List.mem_filter]
      simp only [List.mem_cons, List.not_mem_nil, or_false] at hx
      rcases hx with rfl | rfl
      · exact ⟨hea, by simp; exact ⟨ha1, by omega⟩⟩
      · exact ⟨heb, by simp; exact ⟨hb1, hb2⟩⟩
    have := nodup_subset_length (a := [ea, eb]) (by simp [hne]) hsub
    simp at this
    omega
  · exact thin_nil hempty ea (by simpa using hea) ha1 ha2

example : Generation [7, 4, 7] 14 21 ∧ Generation [7, 4, 7] 28 56 := by
  refine ⟨⟨[7], 4, [7], 2, rfl, by simp, by omega, by omega, rfl, rfl⟩,
    ⟨[7, 4], 7, [], 1, rfl, by simp, by omega, by omega, rfl, rfl⟩⟩

/-! ### Deletion on request -/

/-- C21: a delete request removes at most one backup, and only one that is deletable; it matches by
the text of the time stamp or by the number. -/
theorem C21_delete_request (req : Str) (num : Nat) (l : List Named) (x : Nat)
    (h : deleteServer req num l = .removed x) :
    ∃ n ∈ l, n.bu.bno = x ∧ (n.stamp = req ∨ x = num) ∧ Deletable (l.map Named.bu) n.bu := by
  unfold deleteServer at h
  split at h
  · simp at h
  · have hz : ∀ (z : List (Named × Bool)), deleteServerLoop req num z = .removed x →
        ∃ p ∈ z, p.2 = true ∧ p.1.bu.bno = x ∧ (p.1.stamp = req ∨ x = num) := by
      intro z
      induction z with
      | nil => intro h; simp [deleteServerLoop] at h
      | cons p z ih =>
        obtain ⟨n, d⟩ := p
        intro h
        unfold deleteServerLoop at h
        split at h
        · rename_i hm
          split at h
          · rename_i hd
            simp at h
            subst h
            exact ⟨(n, d), by simp, hd, rfl, hm⟩
          · simp at h
        · obtain ⟨p, hp, rest⟩ := ih h
          exact ⟨p, by simp [hp], rest⟩
    obtain ⟨p, hp, hd, hb, hm⟩ := hz _ h
    have hmem := (List.of_mem_zip (a := p.1) (b := p.2) hp).1
    refine ⟨p.1, hmem, hb, hm, ?_⟩
    -- the flag belongs to that backup
    have hzip : ∀ (tr : Nat) (d : Bool) (m : List Named), p ∈ m.zip
        ((mark tr d (m.map Named.bu)).map Ent.deletable) →
        ∃ e ∈ mark tr d (m.map Named.bu), e.bu = p.1.bu ∧ e.deletable = p.2 := by
      intro tr d m
      induction m generalizing d with
      | nil => intro hp; simp [mark] at hp
      | cons n m ih =>
        intro hp
        simp only [List.map_cons, mark, List.zip_cons_cons, List.mem_cons] at hp
        rcases hp with hp | hp
        · subst hp
          exact ⟨_, by simp only [List.map_cons, mark, List.mem_cons]; exact .inl rfl, rfl, rfl⟩
        · obtain ⟨e, he, r1, r2⟩ := ih _ hp
          exact ⟨e, by simp only [List.map_cons, mark, List.mem_cons]; exact .inr he, r1, r2⟩
    obtain ⟨e, he, e1, e2⟩ := hzip _ _ _ hp
    rw [← e1]
    exact setup_deletable he (by rw [e2]; exact hd)

example : deleteServer (bytes "2") 2 [⟨⟨1, true⟩, bytes "0000001 a"⟩, ⟨⟨2, false⟩, bytes "0000002 b"⟩,
    ⟨⟨3, false⟩, bytes "0000003 c"⟩] = .removed 2 ∧
  deleteServer (bytes "3") 3 [⟨⟨1, true⟩, bytes "0000001 a"⟩, ⟨⟨2, false⟩, bytes "0000002 b"⟩,
    ⟨⟨3, false⟩, bytes "0000003 c"⟩] = .notDeletable := by decide

end Verif
