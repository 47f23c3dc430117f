import Verif.Lemmas.BackupNumber

/-!
# C56: backup numbers

`Hist`, `OnDisc`, `IsBackup` and `Foreign` are in `Verif/Spec/BackupNumber.lean`; `Listed` and `age`
are in `Verif/Spec/Retention.lean`.
-/

namespace Verif
open Verif.BackupNumber Verif.Retention

/-- C56: in every history of fewer than ten million backups, a new backup gets a number greater than
all that are kept. What is missing: `C56_ten_million_violated`. -/
theorem C56_number_increases_partial {made : Nat} {bs : List (Nat × DirEnt)} (h : Hist made bs)
    (hm : made < 10 ^ 7) {k : Links} {dir : List DirEnt} (hd : OnDisc k bs dir) :
    ∀ b ∈ bs, b.1 < getNewBno k dir := by
  intro b hb
  obtain ⟨hg, _⟩ := hist_good h hm
  rw [getNewBno_eq hg hd]
  have := le_last hg.1 b hb
  omega

/-- C56: in every such history the list that burp reads from the directory has exactly the backups
that were finished and not deleted, oldest first, each with the number that it was given, whatever
else is in the directory and in whatever order the directory is read. -/
theorem C56_listed_oldest_first_partial {made : Nat} {bs : List (Nat × DirEnt)} (h : Hist made bs)
    (hm : made < 10 ^ 7) {k : Links} {dir : List DirEnt} (hd : OnDisc k bs dir) :
    (buGetList k dir).map (fun x => (x.2.bno, x.1)) = bs ∧
    Listed ((buGetList k dir).map Prod.snd) := by
  obtain ⟨hg, _⟩ := hist_good h hm
  rw [buGetList_eq hg hd]
  refine ⟨?_, ?_, ?_⟩
  · rw [List.map_map]
    exact List.map_id'' (fun _ => rfl) bs
  · rw [List.map_map, List.pairwise_map]
    exact hg.1
  · intro b hb
    rw [List.map_map] at hb
    obtain ⟨x, hx, rfl⟩ := List.mem_map.1 hb
    exact (hg.2 x hx).1

/-- C56: the ages computed for the list are the distances in number from the newest backup, so an older
backup has a greater age and the newest has age 1. -/
theorem C56_ages_partial {made : Nat} {bs : List (Nat × DirEnt)} (h : Hist made bs)
    (hm : made < 10 ^ 7) {k : Links} {dir : List DirEnt} (hd : OnDisc k bs dir)
    {newest : Bu} (hn : ((buGetList k dir).map Prod.snd).getLast? = some newest) :
    (setupIndices ((buGetList k dir).map Prod.snd)).map Ent.trbno =
      ((buGetList k dir).map Prod.snd).map (age newest) ∧
    (setupIndices ((buGetList k dir).map Prod.snd)).Pairwise (fun a b => a.trbno > b.trbno) := by
  have hl := (C56_listed_oldest_first_partial h hm hd).2
  generalize (buGetList k dir).map Prod.snd = l at hl hn
  have hages : ∀ e ∈ setupIndices l, e.trbno = age newest e.bu := fun e he => setup_trbno hl hn he
  have hmap := setup_map_bu l
  have hlast : ∀ b ∈ l, b.bno ≤ newest.bno := by
    obtain ⟨ys, rfl⟩ := List.getLast?_eq_some_iff.1 hn
    intro b hb
    rcases List.mem_append.1 hb with hb | hb
    · have := hl.1
      rw [List.pairwise_append] at this
      exact Nat.le_of_lt (this.2.2 b hb newest (by simp))
    · rw [List.mem_singleton.1 hb]; omega
  refine ⟨?_, ?_⟩
  · conv => rhs; rw [← hmap]
    rw [List.map_map]
    exact List.map_congr_left hages
  · have hp : (setupIndices l).Pairwise (fun a b => a.bu.bno < b.bu.bno) := by
      rw [← List.pairwise_map (f := Ent.bu) (R := fun a b => a.bno < b.bno), hmap]; exact hl.1
    refine hp.imp_of_mem ?_
    intro a b ha hb hlt
    rw [hages a ha, hages b hb]
    unfold age
    have h1 := hlast a.bu (by rw [← hmap]; exact List.mem_map_of_mem ha)
    have h2 := hlast b.bu (by rw [← hmap]; exact List.mem_map_of_mem hb)
    omega

/-- A directory for the examples. -/
def exBackup (n : Nat) : DirEnt := ⟨stamp n (bytes "x"), stamp n (bytes "2020-01-01 00:00:00"), false⟩

theorem exBackup_is (n : Nat) : IsBackup n (exBackup n) := ⟨_, _, rfl, rfl⟩

/-- Backups every day, of which only the latest is kept. -/
theorem hist_single (n : Nat) (h : n + 1 < 10 ^ 7) : Hist (n + 1) [(n + 1, exBackup (n + 1))] := by
  have hdisc : ∀ bs : List (Nat × DirEnt), (∀ b ∈ bs, IsBackup b.1 b.2) →
      OnDisc ⟨[], []⟩ bs (bs.map Prod.snd) := by
    intro bs hb
    refine ⟨[], by simp, by simp, ?_⟩
    intro b hm
    obtain ⟨f, t, e, _⟩ := hb b hm
    rw [e]
    simp [stamp]
  induction n with
  | zero =>
    have hd := hdisc [] (by simp)
    have hn : getNewBno ⟨[], []⟩ [] = 1 := getNewBno_eq (bs := []) ⟨List.Pairwise.nil, by simp⟩ hd
    have := Hist.backup Hist.start ⟨[], []⟩ [] hd (exBackup 1) (by rw [hn]; exact exBackup_is 1)
    rw [hn] at this
    exact this
  | succ n ih =>
    have h1 := ih (by omega)
    have hd := hdisc [(n + 1, exBackup (n + 1))] (by
      intro b hb; rw [List.mem_singleton.1 hb]; exact exBackup_is _)
    have hn := getNewBno_eq (hist_good h1 (by omega)).1 hd
    have hn' : getNewBno ⟨[], []⟩ [exBackup (n + 1)] = n + 1 + 1 := hn
    have h2 := Hist.backup h1 ⟨[], []⟩ _ hd (exBackup (n + 1 + 1)) (by
      rw [show List.map Prod.snd [(n + 1, exBackup (n + 1))] = [exBackup (n + 1)] from rfl, hn']
      exact exBackup_is _)
    rw [show List.map Prod.snd [(n + 1, exBackup (n + 1))] = [exBackup (n + 1)] from rfl, hn'] at h2
    have h3 := Hist.delete h2 (fun b => decide (b.1 = n + 1 + 1))
    simpa using h3

/-- With ten million backups the names are no longer in the order of the numbers, and the number of
the last backup is given again. -/
theorem C56_ten_million_violated :
    ∃ (made : Nat) (bs : List (Nat × DirEnt)) (k : Links) (dir : List DirEnt),
      Hist made bs ∧ OnDisc k bs dir ∧ ∃ b ∈ bs, getNewBno k dir = b.1 := by
  have h1 := hist_single 9999998 (by decide)
  have hd : OnDisc ⟨[], []⟩ [(9999999, exBackup 9999999)] [exBackup 9999999] :=
    ⟨[], by simp, by simp, by simp [exBackup, stamp]⟩
  have hn : getNewBno ⟨[], []⟩ [exBackup 9999999] = 10000000 :=
    getNewBno_eq (hist_good h1 (by decide)).1 hd
  have h2 := Hist.backup h1 ⟨[], []⟩ _ hd (exBackup 10000000) (by rw [hn]; exact exBackup_is _)
  rw [hn] at h2
  refine ⟨_, _, ⟨[], []⟩, [exBackup 9999999, exBackup 10000000], h2,
    ⟨[], by simp, by simp, by simp [exBackup, stamp]⟩, (10000000, exBackup 10000000), by simp, ?_⟩
  have e1 : exBackup 9999999 = ⟨bytes "9999999 x", bytes "9999999 2020-01-01 00:00:00", false⟩ := by
    simp [exBackup, stamp, decimal7, decimal]; decide
  have e2 : exBackup 10000000 = ⟨bytes "10000000 x", bytes "10000000 2020-01-01 00:00:00", false⟩ := by
    simp [exBackup, stamp, decimal7, decimal]; decide
  rw [e1, e2]
  have hs : [(⟨bytes "9999999 x", bytes "9999999 2020-01-01 00:00:00", false⟩ : DirEnt),
      ⟨bytes "10000000 x", bytes "10000000 2020-01-01 00:00:00", false⟩].mergeSort
        (fun a b => strLe a.name b.name) =
      [⟨bytes "10000000 x", bytes "10000000 2020-01-01 00:00:00", false⟩,
       ⟨bytes "9999999 x", bytes "9999999 2020-01-01 00:00:00", false⟩] := by
    refine List.Perm.eq_of_pairwise (le := fun a b : DirEnt => strLe a.name b.name = true) ?_
      (List.pairwise_mergeSort (le := fun a b : DirEnt => strLe a.name b.name)
        (fun a b c h1 h2 => strLe_trans _ _ _ h1 h2) (fun a b => strLe_total _ _) _) (by decide)
      ((List.mergeSort_perm _ _).trans (List.Perm.swap _ _ _))
    intro a b ha hb
    rw [List.mem_mergeSort] at ha
    revert b
    revert a
    decide
  unfold getNewBno buGetList
  rw [hs]
  decide

/-- The hypotheses are met, with something moved aside and a backup in progress in the directory. -/
example : Hist 5 [(5, exBackup 5)] ∧
    OnDisc ⟨stamp 6 (bytes "x"), []⟩ [(5, exBackup 5)]
      [⟨bytes "0000004-old", bytes "0000004 x", false⟩, exBackup 6, exBackup 5] := by
  refine ⟨hist_single 4 (by decide), [⟨bytes "0000004-old", bytes "0000004 x", false⟩, exBackup 6], ?_, ?_, ?_⟩
  · exact (List.perm_append_comm (l₁ := [_, _]) (l₂ := [exBackup 5]))
  · intro o ho
    simp only [List.mem_cons, List.not_mem_nil, or_false] at ho
    rcases ho with rfl | rfl
    · left; unfold Foreign; decide
    · right; left; rfl
  · intro b hb
    rw [List.mem_singleton.1 hb]
    refine ⟨?_, by simp [exBackup, stamp]⟩
    intro h
    have := (stamp_lt (n := 5) (m := 6) (by decide) (by decide) (bytes "x") (bytes "x"))
    simp only [exBackup] at h
    rw [h] at this
    simp [this.1] at this

end Verif
