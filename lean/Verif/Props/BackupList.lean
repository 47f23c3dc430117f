import Verif.Lemmas.BackupList

/-!
# C104: the backups of a client that are told of are those that are there and complete
-/

namespace Verif
open Verif.BackupList Verif.BackupNumber
open Verif.Retention hiding Ent

/-- C104: the list has just the directories of the client that are backups and not in progress, unless those
are asked for, each with what is in it, and whether it is the current one, as long as the names that the links
point to fit the buffers. -/
theorem C104_listed_partial (cut : Str → Bool) (withWorking : Bool) (c : Client) (hs : ShortLinks c) :
    (∀ b ∈ getList cut withWorking c, ∃ e ∈ c.ents,
      IsBak e ∧ (IsCurrent c e ∨ withWorking = true ∨ ¬ InProgress c e) ∧ Describes c e b) ∧
    (∀ e ∈ c.ents, IsBak e → (IsCurrent c e ∨ withWorking = true ∨ ¬ InProgress c e) →
      ∃ b ∈ getList cut withWorking c, Describes c e b) := by
  constructor
  · intro b hb
    rw [getList_eq, List.mem_filterMap] at hb
    obtain ⟨e, he, h⟩ := hb
    exact ⟨e, List.mem_mergeSort.1 he, (entry_some hs).1 h⟩
  · intro e he h1 h2
    obtain ⟨b, hb⟩ := (entry_some (cut := cut) (b := ⟨[], [], 0, false, false, false, false, false⟩) hs).2 ⟨h1, h2⟩
    refine ⟨b, ?_, ((entry_some hs).1 hb).2.2⟩
    rw [getList_eq, List.mem_filterMap]
    exact ⟨e, List.mem_mergeSort.2 he, hb⟩

/-- C104: the list is in the order of the names of the directories, with none of them twice. -/
theorem C104_order (cut : Str → Bool) (withWorking : Bool) (c : Client)
    (hn : c.ents.Pairwise (fun a b => a.name ≠ b.name)) :
    (getList cut withWorking c).Pairwise
      (fun a b => strLe a.basename b.basename = true ∧ a.basename ≠ b.basename) := by
  rw [getList_eq, List.pairwise_filterMap]
  have h1 := sorted_ents c.ents
  have h2 : (c.ents.mergeSort (fun a b => strLe a.name b.name)).Pairwise (fun a b => a.name ≠ b.name) :=
    (List.mergeSort_perm c.ents _).symm.pairwise hn (fun h e => h e.symm)
  refine (h1.and h2).imp ?_
  rintro a b ⟨h1, h2⟩ x hx y hy
  rw [entry_name hx, entry_name hy]
  exact ⟨h1, h2⟩

/-- C104: the numbering of backups, C56, is from this list, with the links as they are read. -/
theorem C104_numbers (cut : Str → Bool) (c : Client) (hn : c.ents.Pairwise (fun a b => a.name ≠ b.name))
    (hc : ∀ e ∈ c.ents, e.name = getLink bufSize c.current → e.name ≠ getLink bufSize c.working ∧
      e.name ≠ getLink bufSize c.finishing) :
    (getList cut false c).map (fun b => ((⟨b.basename, b.timestamp, b.hardlinked⟩ : DirEnt),
        (⟨b.bno, b.hardlinked⟩ : Bu))) =
      buGetList ⟨getLink bufSize c.working, getLink bufSize c.finishing⟩ (c.ents.filterMap dirEnt) := by
  have hsort := C104_order cut false c hn
  have hR : buGetList ⟨getLink bufSize c.working, getLink bufSize c.finishing⟩ (c.ents.filterMap dirEnt) =
      ((c.ents.filterMap dirEnt).mergeSort (fun a b => strLe a.name b.name)).filterMap
        (fun d => if listed ⟨getLink bufSize c.working, getLink bufSize c.finishing⟩ d
          then some (d, (⟨strtoul d.ts, d.hard⟩ : Bu)) else none) := by
    unfold buGetList
    generalize (c.ents.filterMap dirEnt).mergeSort (fun a b => strLe a.name b.name) = l
    induction l with
    | nil => rfl
    | cons d l ih =>
      rw [List.filter_cons, List.filterMap_cons]
      split
      · rw [List.map_cons, ih]
      · exact ih
  have hL : (getList cut false c).map (fun b => ((⟨b.basename, b.timestamp, b.hardlinked⟩ : DirEnt),
        (⟨b.bno, b.hardlinked⟩ : Bu))) =
      (c.ents.mergeSort (fun a b => strLe a.name b.name)).filterMap (fun e => (dirEnt e).bind
        (fun d => if listed ⟨getLink bufSize c.working, getLink bufSize c.finishing⟩ d
          then some (d, (⟨strtoul d.ts, d.hard⟩ : Bu)) else none)) := by
    rw [getList_eq, List.map_filterMap]
    have : ∀ l : List Ent, (∀ e ∈ l, e ∈ c.ents) →
        l.filterMap (fun e => Option.map (fun b => ((⟨b.basename, b.timestamp, b.hardlinked⟩ : DirEnt),
          (⟨b.bno, b.hardlinked⟩ : Bu))) (entry cut false c e)) =
        l.filterMap (fun e => (dirEnt e).bind
          (fun d => if listed ⟨getLink bufSize c.working, getLink bufSize c.finishing⟩ d
            then some (d, (⟨strtoul d.ts, d.hard⟩ : Bu)) else none)) := by
      intro l hl
      induction l with
      | nil => rfl
      | cons e l ih =>
        rw [List.filterMap_cons, List.filterMap_cons, entry_dirEnt (hc e (hl e (by simp))),
          ih (fun x hx => hl x (by simp [hx]))]
    exact this _ (fun e he => List.mem_mergeSort.1 he)
  have hLs : ((getList cut false c).map (fun b => ((⟨b.basename, b.timestamp, b.hardlinked⟩ : DirEnt),
        (⟨b.bno, b.hardlinked⟩ : Bu)))).Pairwise
      (fun a b => strLe a.1.name b.1.name = true ∧ a.1.name ≠ b.1.name) := by
    rw [List.pairwise_map]
    exact hsort
  apply List.Perm.eq_of_pairwise (le := fun a b : DirEnt × Bu => strLe a.1.name b.1.name = true)
  · intro a b ha hb h1 h2
    -- both are in the first list up to order, and the names there differ
    have hp : ((getList cut false c).map (fun b => ((⟨b.basename, b.timestamp, b.hardlinked⟩ : DirEnt),
        (⟨b.bno, b.hardlinked⟩ : Bu)))).Perm
        (buGetList ⟨getLink bufSize c.working, getLink bufSize c.finishing⟩ (c.ents.filterMap dirEnt)) := by
      rw [hL, hR, ← List.filterMap_filterMap]
      exact ((List.mergeSort_perm c.ents _).filterMap dirEnt |>.trans
        (List.mergeSort_perm _ _).symm).filterMap _
    have hb' := hp.symm.subset hb
    have hname := strLe_antisymm _ _ h1 h2
    have : ∀ l : List (DirEnt × Bu), l.Pairwise (fun a b => strLe a.1.name b.1.name = true ∧ a.1.name ≠ b.1.name) →
        ∀ a ∈ l, ∀ b ∈ l, a.1.name = b.1.name → a = b := by
      intro l hl
      induction l with
      | nil => intro a ha; cases ha
      | cons x l ih =>
        rw [List.pairwise_cons] at hl
        intro a ha b hb h
        rcases List.mem_cons.1 ha with ha0 | ha1
        · subst ha0
          rcases List.mem_cons.1 hb with hb | hb
          · exact hb.symm
          · exact absurd h (hl.1 b hb).2
        · rcases List.mem_cons.1 hb with hb | hb
          · subst hb
            exact absurd h.symm (hl.1 a ha1).2
          · exact ih hl.2 a ha1 b hb h
    exact this _ hLs a ha b hb' hname
  · exact hLs.imp (fun h => h.1)
  · rw [hR, List.pairwise_filterMap]
    refine (List.pairwise_mergeSort (le := fun a b : DirEnt => strLe a.name b.name)
      (fun _ _ _ h1 h2 => strLe_trans _ _ _ h1 h2) (fun _ _ => strLe_total _ _) _).imp ?_
    intro a b h x hx y hy
    split at hx
    · split at hy
      · cases hx; cases hy; exact h
      · cases hy
    · cases hx
  · rw [hL, hR, ← List.filterMap_filterMap]
    exact ((List.mergeSort_perm c.ents _).filterMap dirEnt |>.trans
      (List.mergeSort_perm _ _).symm).filterMap _

/-- C104: what is found for the link `current` is the backup that it points to. -/
theorem C104_current_partial (cut : Str → Bool) (c : Client) (hs : ShortLinks c)
    (hn : c.ents.Pairwise (fun a b => a.name ≠ b.name)) (e : Ent) (he : e ∈ c.ents) (hb : IsBak e)
    (hc : IsCurrent c e) : ∃ b, getCurrent cut c = some b ∧ b.basename = e.name ∧ b.current = true := by
  have hne := starts_ne hb.1
  have hlink : ∀ x : Ent, x.name = getLink bufSize c.current ↔ x.name = e.name := by
    intro x
    rw [← (getLink_short (hs c.current (by simp)) hne).2 hc]
  have hfind : ∀ l : List Ent, l.Pairwise (fun a b => a.name ≠ b.name) → e ∈ l →
      l.find? (fun x => decide (x.name = getLink bufSize c.current)) = some e := by
    intro l hl hm
    induction l with
    | nil => cases hm
    | cons x l ih =>
      rw [List.pairwise_cons] at hl
      rw [List.find?_cons]
      rcases List.mem_cons.1 hm with rfl | hm
      · simp [(hlink e).2 rfl]
      · have : ¬ x.name = getLink bufSize c.current := fun h => hl.1 e hm ((hlink x).1 h)
        simp [this, ih hl.2 hm]
  unfold getCurrent
  rw [hfind _ hn he, Option.bind_some]
  obtain ⟨_, h1, content, line, h2, h3, h4⟩ := hb
  refine ⟨_, maybeAdd_some.2 ⟨h1, content, line.take 37, h2, timestampRead_some.2 ⟨line, h3, rfl⟩, ?_, rfl⟩,
    rfl, rfl⟩
  rw [List.take_take]
  simpa using h4

/-- C104: the names that are made are short enough for a format of times that makes at most 29 characters; the
one that is used if none is set makes 25. -/
theorem C104_short_names (n : Nat) (h : n < 10 ^ 7) (t : Str) (ht : t.length ≤ 29) : (stamp n t).length ≤ 37 := by
  unfold stamp
  rw [decimal7_eq h, List.length_append, List.length_append, digs_len]
  simp only [List.length_cons, List.length_nil]
  omega

/-- A client with three backups, the last of which is being made, and the format of times as it is set. -/
def listClient (t1 t2 t3 : String) : Client where
  path := bytes "/var/spool/burp/client"
  ents :=
    [⟨bytes ("0000003 " ++ t3), true, some (bytes ("0000003 2026-01-03 00:00:00 +0000\n")), [bytes "manifest"]⟩,
     ⟨bytes ("0000001 " ++ t1), true, some (bytes ("0000001 2026-01-01 00:00:00 +0000\n")),
      [bytes "manifest.gz", bytes "hardlinked"]⟩,
     ⟨bytes ("0000002 " ++ t2), true, some (bytes ("0000002 2026-01-02 00:00:00 +0000\n")),
      [bytes "manifest.gz"]⟩,
     ⟨bytes "0000004 nothing", true, none, []⟩, ⟨bytes "lost", true, none, []⟩]
  working := some (bytes ("0000003 " ++ t3))
  finishing := none
  current := some (bytes ("0000002 " ++ t2))

/-- What is in the directory of the client, in the order of the names. -/
def inOrder (c : Client) : List Ent := [1, 2, 0, 3, 4].filterMap (fun n => c.ents[n]?)

/-- The client with the format that is used if none is set. -/
def usualClient : Client :=
  listClient "2026-01-01 00:00:00 +0000" "2026-01-02 00:00:00 +0000" "2026-01-03 00:00:00 +0000"

/-- The client with `timestamp_format = %Y-%m-%d %H:%M:%S %z %A`. -/
def longClient : Client :=
  listClient "2026-01-01 00:00:00 +0000 Thursday" "2026-01-02 00:00:00 +0000 Friday"
    "2026-01-03 00:00:00 +0000 Saturday"

/-- Nothing of the names of the example is too long: the hypothesis of `C104_listed_partial`. -/
example : ShortLinks usualClient := by
  intro l hl t ht
  simp only [List.mem_cons, List.not_mem_nil, or_false] at hl
  rcases hl with rfl | rfl | rfl
  · have h : usualClient.working = some (bytes "0000003 2026-01-03 00:00:00 +0000") := by decide +kernel
    rw [h] at ht
    rw [← Option.some.inj ht]; decide +kernel
  · cases ht
  · have h : usualClient.current = some (bytes "0000002 2026-01-02 00:00:00 +0000") := by decide +kernel
    rw [h] at ht
    rw [← Option.some.inj ht]; decide +kernel

/-- The hypotheses of `C104_order` and `C104_numbers`. -/
example : usualClient.ents.Pairwise (fun a b => a.name ≠ b.name) ∧
    ∀ e ∈ usualClient.ents, e.name = getLink bufSize usualClient.current →
      e.name ≠ getLink bufSize usualClient.working ∧ e.name ≠ getLink bufSize usualClient.finishing := by
  decide +kernel

/-- Two backups, or three with the one that is being made. -/
example : (getList (fun _ => false) false usualClient).map (fun b => (b.bno, b.current, b.working, b.manifest)) =
      [(1, false, false, true), (2, true, false, true)] ∧
    (getList (fun _ => false) true usualClient).map (fun b => (b.bno, b.current, b.working, b.manifest)) =
      [(1, false, false, true), (2, true, false, true), (3, false, true, true)] ∧
    (getCurrent (fun _ => false) usualClient).map (·.bno) = some 2 := by
  rw [getList_perm _ _ _ (inOrder usualClient) (by decide +kernel) (by decide +kernel),
    getList_perm _ _ _ (inOrder usualClient) (by decide +kernel) (by decide +kernel)]
  decide +kernel

/-- C104 fails: with a `timestamp_format` that makes more than 29 characters, the names that `working` and
`current` point to do not fit the buffers of 38. The backup that is being made is then in the list of complete
backups, for restores, deletions and the numbers of kept backups, and no backup is the current one. -/
theorem C104_long_names_violated :
    ∃ (c : Client) (e : Ent) (b : Bak), e ∈ c.ents ∧ InProgress c e ∧ ¬ IsCurrent c e ∧
      b ∈ getList (fun _ => false) false c ∧ b.basename = e.name ∧ b.working = false ∧
      (∃ e' ∈ c.ents, IsCurrent c e' ∧ e'.isDir = true) ∧
      (∀ b ∈ getList (fun _ => false) false c, b.current = false) ∧ getCurrent (fun _ => false) c = none := by
  refine ⟨longClient, ⟨bytes "0000003 2026-01-03 00:00:00 +0000 Saturday", true,
    some (bytes "0000003 2026-01-03 00:00:00 +0000\n"), [bytes "manifest"]⟩,
    ⟨bytes "0000003 2026-01-03 00:00:00 +0000 Saturday", bytes "0000003 2026-01-03 00:00:00 +0000", 3, false,
      false, false, false, true⟩, ?_, Or.inl ?_, ?_, ?_, rfl, rfl, ?_, ?_, ?_⟩
  · decide +kernel
  · decide +kernel
  · unfold IsCurrent; decide +kernel
  · rw [getList_perm _ _ _ (inOrder longClient) (by decide +kernel) (by decide +kernel)]
    decide +kernel
  · unfold IsCurrent; decide +kernel
  · rw [getList_perm _ _ _ (inOrder longClient) (by decide +kernel) (by decide +kernel)]
    decide +kernel
  · decide +kernel

/-- C104 fails: whether a backup has a manifest is asked with a path that is cut off at 255 characters, so that
for a client with a long path every backup is told to be without. -/
theorem C104_long_path_violated : ∃ (c : Client) (e : Ent) (b : Bak), e ∈ c.ents ∧ ShortLinks c ∧
    bytes "manifest" ∈ e.files ∧ b ∈ getList (fun _ => false) false c ∧ b.basename = e.name ∧
    b.manifest = false := by
  refine ⟨⟨slash :: List.replicate 240 0x61,
      [⟨bytes "0000001 x", true, some (bytes "0000001 x\n"), [bytes "manifest"]⟩], none, none, none⟩,
    ⟨bytes "0000001 x", true, some (bytes "0000001 x\n"), [bytes "manifest"]⟩,
    ⟨bytes "0000001 x", bytes "0000001 x", 1, false, false, false, false, false⟩, ?_, ?_, ?_, ?_, rfl, rfl⟩
  · simp
  · intro l hl t ht
    simp only [List.mem_cons, List.not_mem_nil, or_false, or_self] at hl
    rw [hl] at ht; cases ht
  · simp
  · rw [getList_perm _ _ _ _ (List.Perm.refl _) (by simp)]
    decide +kernel

end Verif
