import Verif.Lemmas.History
import Verif.Lemmas.Retention

/-!
# C24, C25, C26: stored backups, restores, deletions and hardlinked archives
-/

namespace Verif
open Verif.History Verif.Retention

variable {C D S K : Type} [DecidableEq K]

/-! ### C24 -/

/-- C24: in every history, restoring an entry from any stored backup gives exactly the content that
the client's file had when that backup was made, and an entry can be restored if and only if it was
part of the backup. -/
theorem C24_restore_exact (L : Librsync C D S) (hL : L.Sound) (H : List (Dated C D K))
    (h : Reachable L H) (x : Dated C D K) (hx : x ∈ H) (k : K) (c : C) :
    RestoresTo L H x.b.bno k c ↔ x.want k = some c := by
  obtain ⟨hg, _, ho⟩ := reachable_inv hL h
  obtain ⟨o, n, rfl⟩ := List.append_of_mem hx
  have hg' : Good L (x :: n) := hg.suffix
  unfold RestoresTo
  rw [dropWhile_bno ho]
  constructor
  · rintro ⟨y, newer, d, heq, hm, hr⟩
    simp only [List.cons.injEq] at heq
    obtain ⟨rfl, rfl⟩ := heq
    obtain ⟨c', hw, hr'⟩ := hg'.restore hm
    rw [List.map_cons, hr, Got.content.injEq] at hr'
    rw [hr', hw]
  · intro hw
    obtain ⟨d, hd⟩ := hg'.2.1 k (by rw [hw]; simp)
    obtain ⟨c', hw', hr'⟩ := hg'.restore hd
    rw [hw, Option.some.injEq] at hw'
    subst hw'
    exact ⟨x, n, d, rfl, hd, hr'⟩

/-- C24: no entry in the manifest of a stored backup fails to restore. -/
theorem C24_every_entry_restores (L : Librsync C D S) (hL : L.Sound) (H : List (Dated C D K))
    (h : Reachable L H) (older newer : List (Dated C D K)) (x : Dated C D K)
    (hH : H = older ++ x :: newer) (k : K) (d : Str) (hk : (k, d) ∈ x.b.man) :
    ∃ c, x.want k = some c ∧ restoreFile L (x.b :: newer.map Dated.b) d = .content c := by
  obtain ⟨hg, _, _⟩ := reachable_inv hL h
  subst hH
  exact hg.suffix.restore hk

/-- C24: a backup whose parts have arrived is finished; phase 4 does not fail on it. The earlier
backups remain in the list, with their numbers. -/
theorem C24_backup_completes (L : Librsync C D S) (hL : L.Sound) (H : List (Dated C D K))
    (h : Reachable L H) (inc : Incoming C D K) (want : K → Option C)
    (ha : Arrives L H.getLast? inc want) (bno : Nat) (hard : Bool) :
    ∃ l, finish L bno hard inc (H.map Dated.b) = some l ∧
      l.map Backup.bno = H.map (fun x => x.b.bno) ++ [bno] := by
  obtain ⟨hg, _, _⟩ := reachable_inv hL h
  have hcur : ∀ x, H.getLast? = some x → Good L [x] := by
    intro x hx
    obtain ⟨H0, rfl⟩ := List.getLast?_eq_some_iff.1 hx
    exact hg.suffix
  obtain ⟨l, hl⟩ := finish_some hL hcur ha bno hard
  refine ⟨l, hl, ?_⟩
  unfold finish at hl
  simp only [List.getLast?_map] at hl
  rw [startSlot_eq, curHard_eq] at hl
  split at hl
  · cases hl
  · rcases List.eq_nil_or_concat H with rfl | ⟨H0, x, rfl⟩
    · simp only [List.getLast?_nil, Option.map_none, Option.some.injEq] at hl
      rw [← hl]; rfl
    · simp only [List.concat_eq_append, List.getLast?_append, List.getLast?_singleton,
        Option.some_or, Option.map_some, Option.some.injEq, Option.getD_some, List.map_append,
        List.map_cons, List.map_nil, List.dropLast_concat] at hl ⊢
      rw [← hl]
      cases x.b.hard <;> simp [Function.comp_def]

/-! A non-trivial history: contents are integers, a delta is a difference. -/

/-- A toy librsync. -/
def toy : Librsync Int Int Int := ⟨id, fun s b => b - s, fun a d => some (a + d)⟩

example : toy.Sound := by intro a b; simp [toy]; omega

/-- Three backups of one file: new, changed by a delta, unchanged. -/
def inc1 : Incoming Int Int Nat := ⟨[(0, bytes "0000/0000/0000")], fun _ => none, fun _ => some 10, fun _ => none⟩
def inc2 : Incoming Int Int Nat := ⟨[(0, bytes "0000/0000/0000")], fun _ => some 5, fun _ => none, fun _ => none⟩
def inc3 : Incoming Int Int Nat := ⟨[(0, bytes "0000/0000/0000")], fun _ => none, fun _ => none, fun _ => none⟩

theorem toyHistory : ∃ H, Reachable toy H ∧ H.map (fun x => (x.b.bno, x.want 0)) =
    [(1, some 10), (2, some 15), (3, some 15)] ∧
    (H.map (fun x => ((x.b.data (bytes "0000/0000/0000"), x.b.delta (bytes "0000/0000/0000"))))) =
      [(none, some (-5)), (none, none), (some 15, none)] := by
  have r0 : Reachable toy ([] : List (Dated Int Int Nat)) := .empty
  have r1 := Reachable.backup (bno := 1) (hard := false) (inc := inc1)
    (want := fun k => if k = 0 then some 10 else none) r0
    (by refine ⟨by decide, by decide, ?_, ?_⟩
        · intro k hk; simp only [inc1]; simp at hk; simp [hk]
        · intro k d hk
          simp only [inc1, List.mem_cons, Prod.mk.injEq, List.not_mem_nil, or_false] at hk
          exact Or.inr (Or.inl ⟨10, rfl, rfl, by simp [hk.1]⟩))
    (by simp) (by decide) rfl
  have r2 := Reachable.backup (bno := 2) (hard := false) (inc := inc2)
    (want := fun k => if k = 0 then some 15 else none) r1
    (by refine ⟨by decide, by decide, ?_, ?_⟩
        · intro k hk; simp only [inc2]; simp at hk; simp [hk]
        · intro k d hk
          simp only [inc2, List.mem_cons, Prod.mk.injEq, List.not_mem_nil, or_false] at hk
          obtain ⟨rfl, rfl⟩ := hk
          exact Or.inl ⟨_, 10, 5, rfl, by decide, rfl, rfl, Or.inl ⟨15, by decide, rfl⟩⟩)
    (by simp) (by decide) rfl
  have r3 := Reachable.backup (bno := 3) (hard := false) (inc := inc3)
    (want := fun k => if k = 0 then some 15 else none) r2
    (by refine ⟨by decide, by decide, ?_, ?_⟩
        · intro k hk; simp only [inc3]; simp at hk; simp [hk]
        · intro k d hk
          simp only [inc3, List.mem_cons, Prod.mk.injEq, List.not_mem_nil, or_false] at hk
          obtain ⟨rfl, rfl⟩ := hk
          exact Or.inr (Or.inr (Or.inl ⟨_, rfl, by decide, rfl, rfl, rfl⟩)))
    (by simp) (by decide) rfl
  exact ⟨_, r3, by decide, by decide⟩

/-! ### C25 -/

/-- The storage after the backups with the given numbers have been removed. -/
def gone (H : List (Dated C D K)) (ns : List Nat) : List (Dated C D K) :=
  H.filter (fun x => !ns.contains x.b.bno)

/-- C25: after the deletion of a deletable backup, every entry of every other backup restores to
exactly what it did before. -/
theorem C25_deletion_harmless (L : Librsync C D S) (hL : L.Sound) (H : List (Dated C D K))
    (h : Reachable L H) (b : Bu) (hb : b ∈ H.map (fun x => x.b.bu))
    (hd : Deletable (H.map (fun x => x.b.bu)) b) (n : Nat) (hn : n ≠ b.bno) (k : K) (c : C) :
    RestoresTo L (gone H [b.bno]) n k c ↔ RestoresTo L H n k c := by
  have hr : Reachable L (H.filter (fun x => x.b.bno ≠ b.bno)) := .delete h ⟨b, hb, rfl, hd⟩
  have he : gone H [b.bno] = H.filter (fun x => x.b.bno ≠ b.bno) := by
    unfold gone
    congr 1
    funext x
    simp only [List.contains_cons, List.contains_nil, Bool.or_false]
    rw [Bool.eq_iff_iff]
    simp
  rw [he]
  by_cases hx : ∃ x ∈ H, x.b.bno = n
  · obtain ⟨x, hx, rfl⟩ := hx
    have hx' : x ∈ H.filter (fun x => x.b.bno ≠ b.bno) := by simp [hx, hn]
    rw [C24_restore_exact L hL H h x hx, C24_restore_exact L hL _ hr x hx']
  · have hnone : ∀ H' : List (Dated C D K), (∀ x ∈ H', x ∈ H) → ¬ RestoresTo L H' n k c := by
      rintro H' hs ⟨x, newer, d, heq, _⟩
      have h1 : x ∈ H'.dropWhile (fun y => decide (y.b.bno ≠ n)) := by rw [heq]; simp
      have h2 := List.head?_dropWhile_not (fun y : Dated C D K => decide (y.b.bno ≠ n)) H'
      rw [heq] at h2
      simp only [List.head?_cons] at h2
      exact hx ⟨x, hs x ((List.dropWhile_sublist _).subset h1), by simpa using h2⟩
    constructor
    · intro hc; exact absurd hc (hnone _ (fun x hx => (List.mem_filter.1 hx).1))
    · intro hc; exact absurd hc (hnone _ (fun x hx => hx))

/-- C25: the same for any legal sequence of deletions. -/
theorem C25_deletions_harmless (L : Librsync C D S) (hL : L.Sound) :
    ∀ (ns : List Nat) (H : List (Dated C D K)), Reachable L H →
      LegalSequence (H.map (fun x => x.b.bu)) ns →
      Reachable L (gone H ns) ∧
      ∀ n, n ∉ ns → ∀ k c, RestoresTo L (gone H ns) n k c ↔ RestoresTo L H n k c := by
  intro ns
  induction ns with
  | nil =>
    intro H h _
    have : gone H [] = H := by simp [gone]
    rw [this]
    exact ⟨h, fun _ _ _ _ => Iff.rfl⟩
  | cons m ns ih =>
    intro H h hl
    obtain ⟨⟨b, hb, rfl, hd⟩, hl'⟩ := hl
    have hr : Reachable L (H.filter (fun x => x.b.bno ≠ b.bno)) := .delete h ⟨b, hb, rfl, hd⟩
    have he : gone H [b.bno] = H.filter (fun x => x.b.bno ≠ b.bno) := by
      unfold gone
      congr 1
      funext x
      simp only [List.contains_cons, List.contains_nil, Bool.or_false]
      rw [Bool.eq_iff_iff]
      simp
    have hm : (H.filter (fun x => x.b.bno ≠ b.bno)).map (fun x => x.b.bu) =
        (H.map (fun x => x.b.bu)).filter (fun y => y.bno ≠ b.bno) := by
      rw [List.filter_map]; rfl
    have hg : gone H (b.bno :: ns) = gone (gone H [b.bno]) ns := by
      unfold gone
      rw [List.filter_filter]
      congr 1
      funext x
      simp only [List.contains_cons, List.contains_nil, Bool.or_false, Bool.not_or]
      exact Bool.and_comm _ _
    rw [← hm, ← he] at hl'
    rw [← he] at hr
    obtain ⟨h1, h2⟩ := ih _ hr hl'
    rw [hg]
    refine ⟨h1, ?_⟩
    intro n hn k c
    simp only [List.mem_cons, not_or] at hn
    rw [h2 n hn.2, C25_deletion_harmless L hL H h b hb hd n hn.1]

/-- C25: a run of the retention policy, with any keep values and any failures on the way, leaves
every backup that it does not delete restorable with the same contents. -/
theorem C25_policy_harmless (L : Librsync C D S) (hL : L.Sound) (H : List (Dated C D K))
    (h : Reachable L H) (keep : List Nat) (hk : KeepOk keep) (o : Nat → Outcome) (fuel : Nat)
    (r : Result) (hr : deleteBackups keep o fuel (H.map (fun x => x.b.bu)) = some r) :
    Reachable L (gone H r.removed) ∧ (gone H r.removed).map (fun x => x.b.bu) = r.left ∧
    ∀ n, n ∉ r.removed → ∀ k c, RestoresTo L (gone H r.removed) n k c ↔ RestoresTo L H n k c := by
  have hlist : Listed (H.map (fun x => x.b.bu)) := by
    refine ⟨?_, ?_⟩
    · rw [List.pairwise_map]; exact (reachable_inv hL h).2.2
    · intro b hb
      obtain ⟨x, hx, rfl⟩ := List.mem_map.1 hb
      exact reachable_pos h x hx
  have hf := run_facts hk o hlist hr
  obtain ⟨h1, h2⟩ := C25_deletions_harmless L hL r.removed H h hf.facts.legal
  refine ⟨h1, ?_, h2⟩
  rw [hf.left]
  unfold gone without
  rw [List.filter_map]
  rfl

/-! ### C26 -/

/-- C26: with the option set, every backup is a hardlinked archive; without it and with fewer than
two keep values, none is. -/
theorem C26_option (keep : List Int) (bno : Nat) :
    needHard true keep bno = some true ∧
    (keep.length ≤ 1 → needHard false keep bno = some false) := by
  refine ⟨rfl, ?_⟩
  intro h
  match keep, h with
  | [], _ => rfl
  | [_], _ => rfl

/-- C26: with two or more keep values, the archives are the backups numbered 1, k1+1, 2*k1+1, ... -/
theorem C26_schedule (k1 k2 : Int) (ks : List Int) (h1 : 0 < k1) (h2 : k1 < 2 ^ 31) (bno : Nat)
    (hb : 0 < bno) :
    needHard false (k1 :: k2 :: ks) bno = some true ↔ ∃ j : Nat, (bno : Int) = j * k1 + 1 := by
  have hk : (k1 % (2 ^ 64 : Int)) = k1 := Int.emod_eq_of_lt (by omega) (by omega)
  obtain ⟨k, rfl⟩ : ∃ k : Nat, k1 = k := ⟨k1.toNat, by omega⟩
  simp only [needHard, hk, Bool.false_eq_true, if_false, Int.toNat_natCast]
  have hk0 : k ≠ 0 := by omega
  rw [if_neg hk0]
  have hlt : (bno - 1) % k < 2 ^ 32 := by
    have := Nat.mod_lt (bno - 1) (by omega : k > 0)
    omega
  rw [Nat.mod_eq_of_lt hlt]
  simp only [Option.some.injEq, decide_eq_true_eq]
  constructor
  · intro h
    obtain ⟨j, hj⟩ := Nat.dvd_of_mod_eq_zero h
    refine ⟨j, ?_⟩
    have : bno = j * k + 1 := by rw [Nat.mul_comm] at hj; omega
    rw [this]; push_cast; rfl
  · rintro ⟨j, hj⟩
    have : bno = j * k + 1 := by exact_mod_cast hj
    rw [this, Nat.add_sub_cancel, Nat.mul_mod_left]

/-- C26: so among any `k1` consecutive backup numbers there is exactly one archive. -/
theorem C26_one_in_k1 (k1 k2 : Int) (ks : List Int) (h1 : 0 < k1) (h2 : k1 < 2 ^ 31) (start : Nat)
    (hs : 0 < start) :
    ∃ m, (start ≤ m ∧ (m : Int) < start + k1 ∧ needHard false (k1 :: k2 :: ks) m = some true) ∧
      ∀ m', start ≤ m' → (m' : Int) < start + k1 →
        needHard false (k1 :: k2 :: ks) m' = some true → m' = m := by
  obtain ⟨k, rfl⟩ : ∃ k : Nat, k1 = k := ⟨k1.toNat, by omega⟩
  have hk : 0 < k := by omega
  -- the first multiple of k that is at least start - 1
  let j := (start - 1 + (k - 1)) / k
  have hj1 : j * k ≤ start - 1 + (k - 1) := Nat.div_mul_le_self _ _
  have hj2 : start - 1 + (k - 1) < (j + 1) * k := by
    have : start - 1 + (k - 1) < j * k + k := Nat.lt_div_mul_add hk
    rw [Nat.add_mul]; omega
  rw [Nat.add_mul, Nat.one_mul] at hj2
  refine ⟨j * k + 1, ⟨by omega, by omega, ?_⟩, ?_⟩
  · rw [C26_schedule _ _ _ h1 h2 _ (by omega)]
    exact ⟨j, by push_cast; rfl⟩
  · intro m' hm1 hm2 hm3
    rw [C26_schedule _ _ _ h1 h2 _ (by omega)] at hm3
    obtain ⟨i, hi⟩ := hm3
    have hi' : m' = i * k + 1 := by exact_mod_cast hi
    have hij : i = j := by
      apply Nat.le_antisymm
      · apply Nat.le_of_not_lt
        intro hlt
        have : (j + 1) * k ≤ i * k := Nat.mul_le_mul_right k hlt
        rw [Nat.add_mul, Nat.one_mul] at this
        omega
      · apply Nat.le_of_not_lt
        intro hlt
        have : (i + 1) * k ≤ j * k := Nat.mul_le_mul_right k hlt
        rw [Nat.add_mul, Nat.one_mul] at this
        omega
    rw [hi', hij]

example : (List.range 9).map (fun i => needHard false [3, 4] (i + 1)) =
    [some true, some false, some false, some true, some false, some false, some true, some false,
     some false] := by decide

end Verif
