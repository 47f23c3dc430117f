import Verif.Lemmas.Phase2

/-!
# C15, C16: what phase 2 decides

`Out.scanned`, `Out.previous`, `Whole`, `LooksSame`, `LinkBecameFile` and `DeltaAllowed` are in
`Verif/Spec/Phase2.lean`, the order of entries is in `Verif/Spec/Merge.lean`.
-/

namespace Verif
open Verif.Phase2 Verif.Manifest

variable {E : Type}

/-! ### C15 -/

/-- C15: for all lists, sorted or not, every scanned entry is recorded exactly once as new, changed or
unchanged, in the order of the scan, and no other entry is. -/
theorem C15_each_scanned_once (w : Walk E) (scan : List E) (prev : Option (List E)) :
    (phase2 w scan prev).filterMap Out.scanned = scan := by
  rw [phase2_flat, flat_scanned]

/-- C15: for all lists, every entry of the previous backup is recorded exactly once, as one that a
scanned entry is changed or unchanged from or as deleted, and no other entry is. -/
theorem C15_each_previous_once (w : Walk E) (scan : List E) (prev : Option (List E)) :
    (phase2 w scan prev).filterMap Out.previous = prev.getD [] := by
  rw [phase2_flat, flat_previous]

/-- C15: with sorted lists, exactly what is recorded. An entry is compared with the one in the same
place of the previous backup, if there is one: what is decided for the two is recorded for both. If the
decision is to take the whole entry again, or there is nothing to compare with, the scanned entry is
new and the previous one deleted. -/
theorem C15_classification (w : Walk E) (hd : ∀ c p, w.dec c p ≠ .doneDeleted)
    (scan prev : List E) (hs : SortedBy w.key scan) (hp : SortedBy w.key prev)
    (hn : NoClash w.key (scan ++ prev)) :
    (∀ p, .new p ∈ phase2 w scan (some prev) ↔
      p ∈ scan ∧ ∀ c ∈ prev, SameKey (w.key c) (w.key p) → Whole (w.dec c p)) ∧
    (∀ p c, .changed p c ∈ phase2 w scan (some prev) ↔
      p ∈ scan ∧ c ∈ prev ∧ SameKey (w.key c) (w.key p) ∧
        (w.dec c p = .changed ∨ w.dec c p = .doneChanged)) ∧
    (∀ p c, .unchanged p c ∈ phase2 w scan (some prev) ↔
      p ∈ scan ∧ c ∈ prev ∧ SameKey (w.key c) (w.key p) ∧ w.dec c p = .doneUnchanged) ∧
    (∀ c, .deleted c ∈ phase2 w scan (some prev) ↔
      c ∈ prev ∧ ∀ p ∈ scan, SameKey (w.key c) (w.key p) → Whole (w.dec c p)) := by
  have h1 := C15_each_scanned_once w scan (some prev)
  have h2 := C15_each_previous_once w scan (some prev)
  rw [Option.getD_some] at h2
  have hok : ∀ o ∈ phase2 w scan (some prev), OutOk w scan prev o := by
    rw [phase2_flat]
    exact flat_ok w hd scan prev hs hp hn scan prev [] [] rfl rfl (by simp) (by simp)
  generalize phase2 w scan (some prev) = outs at h1 h2 hok
  have ms : ∀ o ∈ outs, ∀ p, o.scanned = some p → p ∈ scan := by
    intro o ho p e; rw [← h1, List.mem_filterMap]; exact ⟨o, ho, e⟩
  have mp : ∀ o ∈ outs, ∀ p, o.previous = some p → p ∈ prev := by
    intro o ho p e; rw [← h2, List.mem_filterMap]; exact ⟨o, ho, e⟩
  have es : ∀ p ∈ scan, ∃ o ∈ outs, o.scanned = some p := by
    intro p h; rw [← h1, List.mem_filterMap] at h; exact h
  have ep : ∀ p ∈ prev, ∃ o ∈ outs, o.previous = some p := by
    intro p h; rw [← h2, List.mem_filterMap] at h; exact h
  have notW : ∀ c p, w.dec c p = .changed ∨ w.dec c p = .doneChanged ∨ w.dec c p = .doneUnchanged →
      ¬ Whole (w.dec c p) := by
    intro c p h hw
    unfold Whole at hw
    rcases h with h | h | h <;> rw [h] at hw <;> simp at hw
  refine ⟨fun p => ⟨fun h => ⟨ms _ h p rfl, hok _ h⟩, ?_⟩,
    fun p c => ⟨fun h => ⟨ms _ h p rfl, mp _ h c rfl, hok _ h⟩, ?_⟩,
    fun p c => ⟨fun h => ⟨ms _ h p rfl, mp _ h c rfl, hok _ h⟩, ?_⟩,
    fun c => ⟨fun h => ⟨mp _ h c rfl, hok _ h⟩, ?_⟩⟩
  · rintro ⟨hm, hw⟩
    obtain ⟨o, ho, e⟩ := es p hm
    have ok := hok o ho
    cases o with
    | new q => cases e; exact ho
    | changed q c =>
      cases e
      exact absurd (hw c (mp _ ho c rfl) ok.1) (notW c _ (by rcases ok.2 with h | h <;> simp [h]))
    | unchanged q c =>
      cases e
      exact absurd (hw c (mp _ ho c rfl) ok.1) (notW c _ (by simp [ok.2]))
    | deleted q => cases e
  · rintro ⟨hm, hc, hsk, hdec⟩
    obtain ⟨o, ho, e⟩ := es p hm
    have ok := hok o ho
    cases o with
    | new q => cases e; exact absurd (ok c hc hsk) (notW c _ (by rcases hdec with h | h <;> simp [h]))
    | changed q c' =>
      cases e
      rw [sorted_same_eq hp hc (mp _ ho c' rfl) (hsk.trans ok.1.symm)]; exact ho
    | unchanged q c' =>
      cases e
      rw [sorted_same_eq hp hc (mp _ ho c' rfl) (hsk.trans ok.1.symm), ok.2] at hdec
      simp at hdec
    | deleted q => cases e
  · rintro ⟨hm, hc, hsk, hdec⟩
    obtain ⟨o, ho, e⟩ := es p hm
    have ok := hok o ho
    cases o with
    | new q => cases e; exact absurd (ok c hc hsk) (notW c _ (by simp [hdec]))
    | changed q c' =>
      cases e
      rw [sorted_same_eq hp hc (mp _ ho c' rfl) (hsk.trans ok.1.symm)] at hdec
      rcases ok.2 with h | h <;> rw [h] at hdec <;> simp at hdec
    | unchanged q c' =>
      cases e
      rw [sorted_same_eq hp hc (mp _ ho c' rfl) (hsk.trans ok.1.symm)]; exact ho
    | deleted q => cases e
  · rintro ⟨hm, hw⟩
    obtain ⟨o, ho, e⟩ := ep c hm
    have ok := hok o ho
    cases o with
    | new q => cases e
    | changed q c' =>
      cases e
      exact absurd (hw q (ms _ ho q rfl) ok.1) (notW c _ (by rcases ok.2 with h | h <;> simp [h]))
    | unchanged q c' =>
      cases e
      exact absurd (hw q (ms _ ho q rfl) ok.1) (notW c _ (by simp [ok.2]))
    | deleted q => cases e; exact ho

/-- The classification applies to the walk that phase 2 does. -/
theorem C15_walk_meets_hypothesis (s : Settings) (prev : List Ent) (exists_ : Str → Bool) (c p : Ent) :
    (entWalk s prev exists_).dec c p ≠ .doneDeleted := deltaStuff_ne s _ c p

/-- Entries for the examples. -/
def exEnt (c : Cmd) (path : String) (mtime : Int) : Ent := ⟨c, some (bytes path), none, none, 0, 0, mtime, 0, 0, 0, 0, 0, none⟩

/-- The previous backup and the new scan of an example in which something is new, changed, unchanged
and deleted. -/
def exPrev : List Ent :=
  [exEnt .directory "/d" 1, exEnt .file "/d/a" 1, exEnt .file "/d/b" 1, exEnt .file "/e" 1]
def exScan : List Ent :=
  [exEnt .directory "/d" 2, exEnt .file "/d/a" 1, exEnt .file "/d/c" 1, exEnt .file "/e" 2]
def exSettings : Settings := ⟨true, 0, false⟩

/-- The hypotheses are met, and this is what is recorded. -/
example : SortedBy (entWalk exSettings exPrev (fun _ => true)).key exScan ∧
    SortedBy (entWalk exSettings exPrev (fun _ => true)).key exPrev ∧
    NoClash (entWalk exSettings exPrev (fun _ => true)).key (exScan ++ exPrev) ∧
    phase2 (entWalk exSettings exPrev (fun _ => true)) exScan (some exPrev) =
      [.changed (exEnt .directory "/d" 2) (exEnt .directory "/d" 1),
       .unchanged (exEnt .file "/d/a" 1) (exEnt .file "/d/a" 1),
       .deleted (exEnt .file "/d/b" 1),
       .new (exEnt .file "/d/c" 1),
       .changed (exEnt .file "/e" 2) (exEnt .file "/e" 1)] := by
  decide +kernel

/-- An encrypted file that has changed is recorded both as new and as deleted: the entry of the
previous backup is kept after the decision to send the whole file, and then found to be behind. The
comment in the code says that it is meant to be freed. -/
theorem C15_replaced_counted_deleted :
    phase2 (entWalk exSettings [exEnt .encFile "/a" 1] (fun _ => true))
      [exEnt .encFile "/a" 2] (some [exEnt .encFile "/a" 1]) =
      [.new (exEnt .encFile "/a" 2), .deleted (exEnt .encFile "/a" 1)] := by
  decide +kernel

/-! ### C16 -/

/-- C16: exactly when an entry is carried over from the previous backup: it looks the same, or it was
a hard link, has the same inode and modification time, and the file that it was linked to could be
found. -/
theorem C16_carried_over_iff (s : Settings) (rel : Ent → Ent → Option Ent) (old new : Ent) :
    deltaStuff s rel old new = .doneUnchanged ↔
      LooksSame s.windows old new ∨ LinkBecameFile old new ∧ (rel old new).isSome = true := by
  rcases deltaStuff_cases s rel old new with ⟨h, h2⟩ | ⟨h, h2, h3, h4⟩ | ⟨h, h2, h3⟩ | ⟨h, h2, h3, h4⟩
  · simp [h, h2]
  · simp only [h, reduceCtorEq, false_iff]
    rintro (h5 | ⟨⟨h5, h6, _⟩, _⟩)
    · exact h3 h5
    · rw [← h2, h5] at h6; simp at h6
  · simp only [h, reduceCtorEq, false_iff]
    rintro (h5 | ⟨⟨h5, _⟩, _⟩)
    · exact h2 h5
    · rw [h3.2.2.1] at h5; simp at h5
  · rw [h]
    have : processNew new ≠ .doneUnchanged := by
      rcases processNew_cases new with h | h <;> rw [h.1] <;> decide
    simp only [this, false_iff]
    rintro (h5 | h5)
    · exact h2 h5
    · exact h3 h5

/-- C16: exactly when a delta is asked for. -/
theorem C16_delta_iff (s : Settings) (rel : Ent → Ent → Option Ent) (old new : Ent) :
    deltaStuff s rel old new = .changed ↔ ¬ LooksSame s.windows old new ∧ DeltaAllowed s old new := by
  rcases deltaStuff_cases s rel old new with ⟨h, h2⟩ | ⟨h, h2, h3, h4⟩ | ⟨h, h2, h3⟩ | ⟨h, h2, h3, h4, _⟩
  · simp only [h, reduceCtorEq, false_iff]
    rintro ⟨h5, h6⟩
    rcases h2 with h2 | ⟨h2, _⟩
    · exact h5 h2
    · have h7 := h6.2.2.1; rw [h2.1] at h7; simp at h7
  · simp only [h, reduceCtorEq, false_iff]
    rintro ⟨_, h6⟩
    exact h4 (by rw [h6.2.2.2.1]; decide)
  · simp [h, h2, h3]
  · have : processNew new ≠ .changed := by
      rcases processNew_cases new with h | h <;> rw [h.1] <;> decide
    simp only [h, this, false_iff]
    rintro ⟨_, h6⟩
    exact h4 h6

/-- C16: exactly when only new attributes are recorded: the entry is of a kind without data. -/
theorem C16_attributes_iff (s : Settings) (rel : Ent → Ent → Option Ent) (old new : Ent) :
    deltaStuff s rel old new = .doneChanged ↔
      old.cmd = new.cmd ∧ ¬ LooksSame s.windows old new ∧ new.cmd ∉ dataKinds := by
  rcases deltaStuff_cases s rel old new with ⟨h, h2⟩ | ⟨h, h2, h3, h4⟩ | ⟨h, h2, h3⟩ | ⟨h, h2, h3, h4, h5⟩
  · simp only [h, reduceCtorEq, false_iff]
    rintro ⟨h5, h6, h7⟩
    rcases h2 with h2 | ⟨h2, _⟩
    · exact h6 h2
    · have := h2.2.1; rw [← h5, h2.1] at this; simp at this
  · simp [h, h2, h3, h4]
  · simp only [h, reduceCtorEq, false_iff]
    rintro ⟨_, _, h7⟩
    exact h7 (by rw [h3.2.2.2.1]; decide)
  · have : processNew new ≠ .doneChanged := by
      rcases processNew_cases new with h | h <;> rw [h.1] <;> decide
    simp only [h, this, false_iff]
    rintro ⟨h6, _, h7⟩
    exact h7 (h5 h6)

/-- C16: everything else is taken whole: the data is asked for if there is data for that kind. -/
theorem C16_otherwise_whole (s : Settings) (rel : Ent → Ent → Option Ent) (old new : Ent)
    (h1 : ¬ LooksSame s.windows old new)
    (h2 : ¬ (LinkBecameFile old new ∧ (rel old new).isSome = true))
    (h3 : ¬ DeltaAllowed s old new) (h4 : new.cmd ∈ dataKinds) :
    deltaStuff s rel old new = .new := by
  rcases deltaStuff_cases s rel old new with ⟨_, h⟩ | ⟨_, _, _, h⟩ | ⟨_, _, h⟩ | ⟨h, _⟩
  · rcases h with h | h
    · exact absurd h h1
    · exact absurd h h2
  · exact absurd h4 h
  · exact absurd h h3
  · rw [h]
    rcases processNew_cases new with h | h
    · exact h.1
    · exact absurd h4 h.2

/-- C16: what is written for an entry that looks the same has the path and attributes just scanned,
with the data, checksum, compression and encryption parameters that are stored. -/
theorem C16_carried_record (old new : Ent) :
    let r := unchangedRecord new old
    (r.cmd, r.path, r.link, r.dev, r.ino, r.mtime, r.ctime, r.size) =
      (new.cmd, new.path, new.link, new.dev, new.ino, new.mtime, new.ctime, new.size) ∧
    (r.datapth, r.endfile, r.compression, r.encryption, r.salt) =
      (old.datapth, old.endfile, old.compression, old.encryption, old.salt) := ⟨rfl, rfl⟩

/-- C16: what the file that a hard link pointed to is like when it is used again: it was stored in the
previous backup under the path that the link pointed to, is of the same kind as the new entry, and its
data is there. -/
theorem C16_relink_sound (prev : List Ent) (exists_ : Str → Bool) (old new h : Ent)
    (hr : relink prev exists_ old new = some h) :
    h ∈ prev ∧ h.path = old.link ∧ h.cmd = new.cmd ∧ ∃ d, h.datapth = some d ∧ exists_ d = true := by
  unfold relink at hr
  cases hm : hardlinkMaster prev old with
  | none => simp [hm] at hr
  | some g =>
    rw [hm] at hr
    dsimp only at hr
    by_cases hk : new.cmd = g.cmd
    · rw [if_neg (by simp [hk])] at hr
      cases hdp : g.datapth with
      | none => simp [hdp] at hr
      | some d =>
        rw [hdp] at hr
        dsimp only at hr
        by_cases he : exists_ d = true
        · rw [if_pos he] at hr
          cases hr
          have h2 := List.find?_some hm
          simp only [Bool.and_eq_true, beq_iff_eq] at h2
          exact ⟨List.mem_of_find?_eq_some hm, h2.1.2, hk.symm, d, hdp, he⟩
        · rw [if_neg he] at hr; cases hr
    · rw [if_pos hk] at hr; cases hr

/-- C16: what is written for such an entry. The checksum is that of the file found. What is missing:
the compression and the encryption parameters are those recorded for the hard link, not for the file
whose data is used (`C16_relink_salt_violated`, `C16_relink_compression_violated`). -/
theorem C16_relink_record_partial (old new h : Ent) (d : Str)
    (hc : h.compression = old.compression) (he : h.encryption = old.encryption) (hs : h.salt = old.salt) :
    let r := unchangedRecord new (relinked old h d)
    (r.datapth, r.endfile, r.compression, r.encryption, r.salt) =
      (some d, h.endfile, h.compression, h.encryption, h.salt) := by
  simp [unchangedRecord, relinked, hc, he, hs]

/-- An encrypted file `/a` with a second link `/b`; then `/a` is deleted. `/b` is now a file, its data
is that of `/a`, but the salt that `/a` was encrypted with is lost, and it cannot be restored. (The
salt is made for each file as its data is sent, `src/client/backup_phase2.c:227-232`, so it is in no entry
without data.) -/
theorem C16_relink_salt_violated :
    ∃ (prev : List Ent) (old new h : Ent) (d : Str),
      old ∈ prev ∧ h ∈ prev ∧
      relink prev (fun _ => true) old new = some h ∧
      deltaStuff exSettings (relink prev (fun _ => true)) old new = .doneUnchanged ∧
      h.salt ≠ 0 ∧ (unchangedRecord new (relinked old h d)).salt = 0 := by
  let a : Ent := ⟨.encFile, some (bytes "/a"), none, some (bytes "t/1"), 5, 7, 1, 1, 10, 0, 3, 99, some (bytes "10:x")⟩
  let b : Ent := ⟨.hardLink, some (bytes "/b"), some (bytes "/a"), none, 5, 7, 1, 1, 10, 0, 3, 0, none⟩
  let n : Ent := ⟨.encFile, some (bytes "/b"), none, none, 5, 7, 1, 2, 10, 0, 3, 0, none⟩
  exact ⟨[a, b], b, n, a, bytes "t/2", by decide +kernel⟩

/-- Likewise if the compression of the two paths differs, as when files with one extension are
excluded from compression: the entry says that data stored without compression is compressed. -/
theorem C16_relink_compression_violated :
    ∃ (prev : List Ent) (old new h : Ent) (d : Str),
      old ∈ prev ∧ h ∈ prev ∧
      relink prev (fun _ => true) old new = some h ∧
      deltaStuff exSettings (relink prev (fun _ => true)) old new = .doneUnchanged ∧
      h.compression = 0 ∧ (unchangedRecord new (relinked old h d)).compression = 9 := by
  let a : Ent := ⟨.file, some (bytes "/a.zip"), none, some (bytes "t/1"), 5, 7, 1, 1, 10, 0, 0, 0, some (bytes "10:x")⟩
  let b : Ent := ⟨.hardLink, some (bytes "/b"), some (bytes "/a.zip"), none, 5, 7, 1, 1, 10, 9, 0, 0, none⟩
  let n : Ent := ⟨.file, some (bytes "/b"), none, none, 5, 7, 1, 2, 10, 9, 0, 0, none⟩
  exact ⟨[a, b], b, n, a, bytes "t/2", by decide +kernel⟩

/-- Each decision is taken in some case. -/
example : LooksSame false (exEnt .file "/a" 1) { exEnt .file "/a" 1 with ctime := 4 } ∧
    ¬ LooksSame true (exEnt .file "/a" 1) { exEnt .file "/a" 1 with ctime := 4 } ∧
    ¬ LooksSame false (exEnt .metadata "/a" 1) { exEnt .metadata "/a" 1 with ctime := 4 } ∧
    deltaStuff exSettings (fun _ _ => none) (exEnt .file "/a" 1) (exEnt .file "/a" 2) = .changed ∧
    deltaStuff exSettings (fun _ _ => none) (exEnt .file "/a" 1) (exEnt .encFile "/a" 2) = .new ∧
    deltaStuff exSettings (fun _ _ => none) (exEnt .special "/a" 1) (exEnt .special "/a" 2) = .doneChanged := by
  unfold LooksSame
  decide +kernel

end Verif
