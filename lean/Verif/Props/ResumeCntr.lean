import Verif.Lemmas.ResumeCntr
import Verif.Props.Resume

/-!
# C107: the counters of a resumed backup

`Halted` says how the files of the working directory can have been left by any number of interruptions, and
`Counted` what the counters are at the end of phase 2; both are in `Verif/Spec/ResumeCntr.lean`.
-/

namespace Verif
open Verif.Phase2 Verif.Manifest Verif.Resume Verif.ResumeCntr

variable {E : Type}

/-- The two parts of what is dealt with. -/
theorem settled_perm (w : Walk E) (sent : E → Bool) (X : List (Out E)) :
    (X.filter (settled w sent)).Perm
      (X.filter (fun o => toChanged w o && sent (subject o)) ++ X.filter (fun o => !toChanged w o)) := by
  induction X with
  | nil => exact List.Perm.refl _
  | cons o X ih =>
    by_cases hl : toChanged w o = true
    · by_cases hsn : sent (subject o) = true
      · simpa [settled, hl, hsn] using ih
      · simpa [settled, hl, hsn] using ih
    · simp only [Bool.not_eq_true] at hl
      have h1 : (o :: X).filter (settled w sent) = o :: X.filter (settled w sent) := by simp [settled, hl]
      have h2 : (o :: X).filter (fun o => toChanged w o && sent (subject o)) =
          X.filter (fun o => toChanged w o && sent (subject o)) := by simp [hl]
      have h3 : (o :: X).filter (fun o => !toChanged w o) = o :: X.filter (fun o => !toChanged w o) := by
        simp [hl]
      rw [h1, h2, h3]
      exact (List.Perm.cons o ih).trans List.perm_middle.symm

/-- Deletions have no length. -/
theorem lengths_unchanged (w : Walk E) (recvd : E → UInt64) (kept : E → Option UInt64) : ∀ (X : List (Out E))
    (c : Cntr.Cntr), (unchangedOf w X).foldl (addLength (lengthOf w recvd kept)) c =
      (X.filter (fun o => !toChanged w o)).foldl (addLength (lengthOf w recvd kept)) c
  | [], _ => rfl
  | o :: X, c => by
    have ih := lengths_unchanged w recvd kept X
    unfold unchangedOf at ih ⊢
    cases o with
    | deleted d =>
      have : toChanged w (.deleted d) = false := rfl
      simp only [List.filter_cons, this, Bool.not_false, if_true, Bool.false_eq_true, if_false, List.foldl_cons]
      exact ih c
    | new p =>
      cases h : toChanged w (.new p) <;> simp [h, -List.filter_filter, ih]
    | changed p q =>
      cases h : toChanged w (.changed p q) <;> simp [h, -List.filter_filter, ih]
    | unchanged p q =>
      cases h : toChanged w (.unchanged p q) <;> simp [h, -List.filter_filter, ih]

/-- The counters with which a backup goes on, for everything except the number of bytes, and with the number
of bytes if no list entry is dropped. -/
theorem resumed_counters (w : Walk E) (sent : E → Bool) (recvd : E → UInt64) (kept : E → Option UInt64)
    (base : Cntr.Cntr) (X ch : List (Out E)) (r : Cntr.Cntr)
    (hr : r = ((X.filter (fun o => !toChanged w o)).map (rowOf w)).foldl addTo
      (((X.filter (fun o => toChanged w o && sent (subject o))).map (rowOf w)).foldl addTo
        ((unchangedOf w X).foldl (addLength (lengthOf w recvd kept))
          (ch.foldl (addLength (lengthOf w recvd kept)) base)))) :
    (∀ x, x ≠ Cmd.bytes.toByte → r x = (X.filter (settled w sent)).foldl (count w recvd kept) base x) ∧
    (ch = X.filter (fun o => toChanged w o && sent (subject o)) →
      r = (X.filter (settled w sent)).foldl (count w recvd kept) base) := by
  have hfull := foldl_perm (count w recvd kept) (steady_count w recvd kept) (settled_perm w sent X) base
  rw [count_list w recvd kept (_ ++ _), List.map_append, List.foldl_append, List.foldl_append] at hfull
  have sw := foldl_swap (addLength (lengthOf w recvd kept)) (steady_addLength (lengthOf w recvd kept))
    addTo steady_addTo
  rw [sw, sw, sw, sw] at hr
  constructor
  · intro x hx
    rw [hr, hfull, lengths_other _ hx, lengths_other _ hx, lengths_other _ hx, lengths_other _ hx]
  · intro hch
    rw [hr, hfull, lengths_unchanged, hch]

/-- C107: a backup that has been interrupted any number of times, each time at any place, and resumed each
time, ends with the same numbers of new, changed, unchanged, deleted and scanned entries of each kind, and the
same estimate of the size, as if it had not been interrupted: each entry is counted once, in whatever order
the data arrive. So the table printed at the end is the same. -/
theorem C107_counts (w : Walk E) (isDir sent : E → Bool) (recvd size : E → UInt64) (kept : E → Option UInt64)
    (hd : ∀ c p, w.dec c p ≠ .doneDeleted) (scan : List E) (prev : Option (List E))
    (hs : SortedBy w.key scan) (hp : SortedBy w.key (prev.getD [])) (hn : NoClash w.key (scan ++ prev.getD []))
    (ch un : List (Out E)) (cd cn : List Row)
    (h : Halted w isDir sent (lengthOf w recvd kept) scan prev ch un cd cn) (full resumed : Cntr.Cntr)
    (hfull : Counted w sent recvd kept (phase1Count w.key size scan) (phase2 w scan prev) full)
    (hres : Counted w sent recvd kept
      (resumeCounters (outInfo w isDir) (lengthOf w recvd kept) (readPhase1 w.key size scan) ch un cd cn).1
      (phase2 w (resume (outInfo w isDir) w.key ch un scan prev).scan
        (resume (outInfo w isDir) w.key ch un scan prev).prev) resumed) :
    (∀ k, k ≠ Cmd.bytes.toByte → resumed k = full k) ∧ Cntr.printed resumed = Cntr.printed full := by
  have main : ∀ k, k ≠ Cmd.bytes.toByte → resumed k = full k := by
    obtain ⟨seen, hi, rfl, rfl, rfl⟩ := halted_inv w isDir sent _ hd scan prev hs hp hn h
    obtain ⟨X, x1, _, _, x4, x5, x6, _⟩ := resume_counters w isDir sent hd (lengthOf w recvd kept)
      (readPhase1 w.key size scan) scan prev hs hp hn seen ch hi
    rw [x4, x5] at x6
    obtain ⟨o1, p1, rfl⟩ := hfull
    obtain ⟨o2, p2, rfl⟩ := hres
    intro k hk
    rw [foldl_perm _ (steady_count w recvd kept) p1, foldl_perm _ (steady_count w recvd kept) p2, x1,
      List.filter_append, List.foldl_append]
    exact foldl_at _ (steady_count w recvd kept) _
      ((resumed_counters w sent recvd kept _ X ch _ x6).1 k hk)
  refine ⟨main, ?_⟩
  unfold Cntr.printed
  have : ∀ l : List (Cmd × Cntr.Flag), (∀ r ∈ l, r.2 = .tabulate → r.1.toByte ≠ Cmd.bytes.toByte) →
      l.filterMap (Cntr.printRow resumed) = l.filterMap (Cntr.printRow full) := by
    intro l hl
    induction l with
    | nil => rfl
    | cons r l ih =>
      have e : Cntr.printRow resumed r = Cntr.printRow full r := by
        unfold Cntr.printRow
        by_cases hf : r.2 = .tabulate
        · rw [main _ (hl r (by simp) hf)]
        · simp [hf]
      rw [List.filterMap_cons, List.filterMap_cons, e, ih (fun r hr => hl r (by simp [hr]))]
  exact this _ (by decide)

/-- C107 for the number of bytes too, and so for everything that is written to the file of statistics, if no
separate Windows header has been received when the backup is resumed. Missing is what
`C107_bytes_violated` shows. -/
theorem C107_bytes_partial (w : Walk E) (isDir sent : E → Bool) (recvd size : E → UInt64)
    (kept : E → Option UInt64) (hd : ∀ c p, w.dec c p ≠ .doneDeleted) (scan : List E) (prev : Option (List E))
    (hs : SortedBy w.key scan) (hp : SortedBy w.key (prev.getD [])) (hn : NoClash w.key (scan ++ prev.getD []))
    (ch un : List (Out E)) (cd cn : List Row)
    (h : Halted w isDir sent (lengthOf w recvd kept) scan prev ch un cd cn)
    (hv : ∀ o ∈ ch, (w.key (subject o)).1 ≠ .vss ∧ (w.key (subject o)).1 ≠ .encVss) (full resumed : Cntr.Cntr)
    (hfull : Counted w sent recvd kept (phase1Count w.key size scan) (phase2 w scan prev) full)
    (hres : Counted w sent recvd kept
      (resumeCounters (outInfo w isDir) (lengthOf w recvd kept) (readPhase1 w.key size scan) ch un cd cn).1
      (phase2 w (resume (outInfo w isDir) w.key ch un scan prev).scan
        (resume (outInfo w isDir) w.key ch un scan prev).prev) resumed) :
    resumed = full ∧ Cntr.jsonRows resumed = Cntr.jsonRows full := by
  have main : resumed = full := by
    have hk := C30_received_kept w isDir scan prev ch un hv
    obtain ⟨seen, hi, rfl, rfl, rfl⟩ := halted_inv w isDir sent _ hd scan prev hs hp hn h
    obtain ⟨X, x1, x2, _, x4, x5, x6, _⟩ := resume_counters w isDir sent hd (lengthOf w recvd kept)
      (readPhase1 w.key size scan) scan prev hs hp hn seen ch hi
    rw [x4, x5] at x6
    rw [hk] at x2
    obtain ⟨o1, p1, rfl⟩ := hfull
    obtain ⟨o2, p2, rfl⟩ := hres
    rw [foldl_perm _ (steady_count w recvd kept) p1, foldl_perm _ (steady_count w recvd kept) p2, x1,
      List.filter_append, List.foldl_append, (resumed_counters w sent recvd kept _ X ch _ x6).2 x2]
    rfl
  exact ⟨main, by rw [main]⟩

/-! ### A case -/

/-- The previous backup has a file where there is a directory now, and a file that is gone. -/
def cntrPrev : List Ent := [exEnt .file "/d" 1, exEnt .file "/d/a" 1, exEnt .encFile "/d/c" 1, exEnt .file "/d/x" 1]

/-- The scan: a directory, an unchanged file, an encrypted file that has changed (which is asked for whole), and
a new file. -/
def cntrScan : List Ent :=
  [exEnt .directory "/d" 2, exEnt .file "/d/a" 1, exEnt .encFile "/d/c" 2, exEnt .file "/e" 2]

/-- The walk of this case. -/
def cntrWalk : Walk Ent := entWalk exSettings cntrPrev (fun _ => true)

/-- What phase 2 has recorded when the encrypted file has arrived: what was there before is then counted as
deleted. -/
def cntrSeen : List (Out Ent) := phase2 cntrWalk cntrScan (some cntrPrev)

/-- All of the hypotheses of `C107_counts` and `C107_bytes_partial` are met, by a backup with new, changed,
unchanged and deleted entries that stopped when one of two files had been received. -/
example : (∀ c p, cntrWalk.dec c p ≠ .doneDeleted) ∧ SortedBy cntrWalk.key cntrScan ∧
    SortedBy cntrWalk.key cntrPrev ∧ NoClash cntrWalk.key (cntrScan ++ cntrPrev) ∧
    (cntrSeen = [.new (exEnt .directory "/d" 2), .deleted (exEnt .file "/d" 1),
      .unchanged (exEnt .file "/d/a" 1) (exEnt .file "/d/a" 1), .new (exEnt .encFile "/d/c" 2),
      .deleted (exEnt .encFile "/d/c" 1), .deleted (exEnt .file "/d/x" 1), .new (exEnt .file "/e" 2)]) ∧
    StoppedSeen cntrWalk (fun _ => true) cntrScan (some cntrPrev) cntrSeen
      [.new (exEnt .encFile "/d/c" 2)] := by
  refine ⟨fun c p => deltaStuff_ne _ _ c p, by decide +kernel, by decide +kernel, by decide +kernel,
    by decide +kernel, ?_⟩
  exact ⟨List.prefix_refl _, by decide +kernel, fun o _ => Or.inl rfl⟩

/-- In that case, the counters with which the backup goes on: what was counted before the encrypted file, that
file, and the deletion of what was in its place. -/
example :
    let r := resumeCounters (outInfo cntrWalk (fun _ => false)) (lengthOf cntrWalk (fun _ => 5) (fun _ => some 7))
      (readPhase1 cntrWalk.key (fun _ => 9) cntrScan) [.new (exEnt .encFile "/d/c" 2)] (unchangedOf cntrWalk cntrSeen)
      [⟨.new, (.encFile, some (bytes "/d/c"))⟩] ((cntrSeen.filter (fun o => !toChanged cntrWalk o)).map (rowOf cntrWalk))
    r.2.2 = [⟨.new, (.directory, some (bytes "/d"))⟩, ⟨.deleted, (.file, some (bytes "/d"))⟩,
      ⟨.same, (.file, some (bytes "/d/a"))⟩, ⟨.deleted, (.encFile, some (bytes "/d/c"))⟩] ∧
    r.1 Cmd.encFile.toByte = ⟨1, 0, 0, 1, 1⟩ ∧ r.1 Cmd.file.toByte = ⟨0, 0, 1, 1, 2⟩ ∧
    r.1 Cmd.bytes.toByte = ⟨12, 0, 0, 0, 0⟩ ∧ r.1 Cmd.bytesEstimated.toByte = ⟨27, 0, 0, 0, 0⟩ := by
  decide +kernel

/-! ### Where it fails -/

/-- The walk of a file with a separate Windows header. -/
def vssWalk : Walk Ent := entWalk exSettings [] (fun _ => true)

/-- The scan of that file. -/
def vssScan : List Ent := [exEnt .vss "/v" 1, exEnt .file "/v" 1]

/-- C107 fails for the number of bytes with the separate Windows headers (`split_vss`): looking for the last good
entry adds the lengths of all entries of the list of changed entries to the number of bytes, also of those that
are then cut off because the footer of their group is missing (`src/server/resume.c:313-320`); they are asked
for again and counted again. Here a header of 5 bytes has been received; the whole backup has 10 bytes, and
after resuming it is said to have 15. -/
theorem C107_bytes_violated :
    ∃ (ch un : List (Out Ent)) (cd cn : List Row) (full resumed : Cntr.Cntr),
      Halted vssWalk (fun _ => false) (fun _ => true) (lengthOf vssWalk (fun _ => 5) (fun _ => none)) vssScan none
        ch un cd cn ∧
      Counted vssWalk (fun _ => true) (fun _ => 5) (fun _ => none) (phase1Count vssWalk.key (fun _ => 9) vssScan)
        (phase2 vssWalk vssScan none) full ∧
      Counted vssWalk (fun _ => true) (fun _ => 5) (fun _ => none)
        (resumeCounters (outInfo vssWalk (fun _ => false)) (lengthOf vssWalk (fun _ => 5) (fun _ => none))
          (readPhase1 vssWalk.key (fun _ => 9) vssScan) ch un cd cn).1
        (phase2 vssWalk (resume (outInfo vssWalk (fun _ => false)) vssWalk.key ch un vssScan none).scan
          (resume (outInfo vssWalk (fun _ => false)) vssWalk.key ch un vssScan none).prev) resumed ∧
      (full Cmd.bytes.toByte).count = 10 ∧ (resumed Cmd.bytes.toByte).count = 15 := by
  refine ⟨_, _, _, _, _, _, Halted.first (seen := phase2 vssWalk vssScan none)
    (changed := [.new (exEnt .vss "/v" 1)]) ⟨List.prefix_refl _, by decide +kernel, fun o _ => Or.inl rfl⟩,
    ⟨_, List.Perm.refl _, rfl⟩, ⟨_, List.Perm.refl _, rfl⟩, ?_, ?_⟩
  · decide +kernel
  · decide +kernel

theorem add_elsewhere (c : Cntr.Cntr) (ch x : Byte) (h : x ≠ ch) (h1 : x ≠ Cmd.total.toByte)
    (h2 : x ≠ Cmd.grandTotal.toByte) (h3 : x ≠ Cmd.file.toByte) : Cntr.add c ch x = c x := by
  unfold Cntr.add Cntr.incrCount Cntr.incrChanged Cntr.upd
  repeat' split
  all_goals simp_all

theorem addTo_elsewhere (c : Cntr.Cntr) (r : Row) (x : Byte) (h : x ≠ r.key.1.toByte)
    (h1 : x ≠ Cmd.total.toByte) (h2 : x ≠ Cmd.grandTotal.toByte) (h3 : x ≠ Cmd.file.toByte) :
    addTo c r x = c x := by
  obtain ⟨what, key⟩ := r
  cases what
  · exact add_elsewhere c _ x h h1 h2 h3
  · simp_all [addTo, Cntr.addChanged, Cntr.incrChanged, Cntr.upd]
  · simp_all [addTo, Cntr.addSame, Cntr.incrSame, Cntr.upd]
  · simp_all [addTo, Cntr.addDeleted, Cntr.incrDeleted, Cntr.upd]

theorem forwardCounter_elsewhere (t : Cmd × Option Str) (x : Byte) (h1 : x ≠ Cmd.total.toByte)
    (h2 : x ≠ Cmd.grandTotal.toByte) (h3 : x ≠ Cmd.file.toByte) : ∀ (l : List Row) (c : Cntr.Cntr),
    (∀ r ∈ l, x ≠ r.key.1.toByte) → (forwardCounter t c l).1 x = c x
  | [], _, _ => rfl
  | r :: l, c, h => by
    have e := addTo_elsewhere c r x (h r (by simp)) h1 h2 h3
    have ih := forwardCounter_elsewhere t x h1 h2 h3 l (addTo c r) (fun q hq => h q (by simp [hq]))
    rw [forwardCounter]
    dsimp only
    by_cases h4 : Iobuf.iobufPathcmp t r.key = 0
    · rw [if_pos h4]; exact e
    · rw [if_neg h4]
      by_cases h5 : Iobuf.iobufPathcmp t r.key = -1
      · rw [if_pos h5]
      · rw [if_neg h5]
        exact ih.trans e

theorem readPhase1_elsewhere (key : E → Cmd × Option Str) (size : E → UInt64) (x : Byte)
    (h2 : x ≠ Cmd.grandTotal.toByte) (h3 : x ≠ Cmd.bytesEstimated.toByte) (scan : List E)
    (h : ∀ e ∈ scan, x ≠ (key e).1.toByte) : readPhase1 key size scan x = Cntr.Ent.zero := by
  unfold readPhase1
  have : ∀ (l : List E) (c : Cntr.Cntr), (∀ e ∈ l, x ≠ (key e).1.toByte) →
      l.foldl (fun c e =>
        let c := Cntr.addPhase1 c (key e).1.toByte
        if (key e).1.isEstimatable then Cntr.incrCount c Cmd.bytesEstimated.toByte (size e) else c) c x = c x := by
    intro l
    induction l with
    | nil => intro c _; rfl
    | cons e l ih =>
      intro c h
      rw [List.foldl_cons, ih _ (fun a ha => h a (by simp [ha]))]
      have := h e (by simp)
      split <;> simp_all [Cntr.addPhase1, Cntr.incrPhase1, Cntr.incrCount, Cntr.upd]
  exact this scan Cntr.init h

/-- No warnings and no messages are left. -/
theorem resumed_no_warnings {R : Type} (i : Info R) (len : R → Option UInt64) (key : E → Cmd × Option Str)
    (size : E → UInt64) (scan : List E) (changed unchanged : List R) (cd cn : List Row) (k : Byte)
    (hk : k = Cmd.warning.toByte ∨ k = Cmd.message.toByte) (hs : ∀ e ∈ scan, (key e).1.toByte ∈ Cntr.kinds)
    (hr : ∀ r ∈ cd ++ cn, r.key.1.toByte ∈ Cntr.kinds) :
    (resumeCounters i len (readPhase1 key size scan) changed unchanged cd cn).1 k = Cntr.Ent.zero := by
  have hne : ∀ b ∈ Cntr.kinds, k ≠ b := by rcases hk with rfl | rfl <;> decide
  have h1 : k ≠ Cmd.total.toByte := by rcases hk with rfl | rfl <;> decide
  have h2 : k ≠ Cmd.grandTotal.toByte := by rcases hk with rfl | rfl <;> decide
  have h3 : k ≠ Cmd.file.toByte := by rcases hk with rfl | rfl <;> decide
  have h4 : k ≠ Cmd.bytes.toByte := by rcases hk with rfl | rfl <;> decide
  have h5 : k ≠ Cmd.bytesEstimated.toByte := by rcases hk with rfl | rfl <;> decide
  have e0 := readPhase1_elsewhere key size k h2 h5 scan (fun e he => hne _ (hs e he))
  have e1 : lastGoodCount len (readPhase1 key size scan) changed k = Cntr.Ent.zero := by
    unfold lastGoodCount
    rw [lengths_other len h4, e0]
  unfold resumeCounters
  dsimp only
  cases (lastGood i changed).1 with
  | none => exact e1
  | some r =>
    dsimp only
    rw [forwardCounter_elsewhere _ k h1 h2 h3 cn _ (fun r hm => hne _ (hr r (by simp [hm]))),
      forwardCounter_elsewhere _ k h1 h2 h3 cd _ (fun r hm => hne _ (hr r (by simp [hm]))), beforeCount_spec,
      lengths_other len h4, e1]

/-- C107 fails for the warnings: they are written to neither of the two files, so whatever happened before the
interruption, the counters with which a backup goes on have no warnings, and no messages. So the statistics of a
resumed backup do not have the warnings from before the interruption, nor those of the scan, and the option
`fail_on_warning` (`src/server/backup_phase2.c:1242-1243,1270-1273`) only sees those that come after it. -/
theorem C107_warnings_violated {R : Type} (i : Info R) (len : R → Option UInt64) (key : E → Cmd × Option Str)
    (size : E → UInt64) (scan : List E) (changed unchanged : List R) (cd cn : List Row)
    (hs : ∀ e ∈ scan, (key e).1.toByte ∈ Cntr.kinds) (hr : ∀ r ∈ cd ++ cn, r.key.1.toByte ∈ Cntr.kinds) :
    let c := (resumeCounters i len (readPhase1 key size scan) changed unchanged cd cn).1
    (c Cmd.warning.toByte).count = 0 ∧ (c Cmd.message.toByte).count = 0 ∧
      ∀ set, Cntr.failOnWarning set c = false := by
  have h1 := resumed_no_warnings i len key size scan changed unchanged cd cn _ (.inl rfl) hs hr
  have h2 := resumed_no_warnings i len key size scan changed unchanged cd cn _ (.inr rfl) hs hr
  dsimp only
  refine ⟨by rw [h1]; rfl, by rw [h2]; rfl, fun set => ?_⟩
  unfold Cntr.failOnWarning
  rw [h1]
  cases set <;> rfl

/-- Without an interruption a warning makes such a backup fail. -/
example : Cntr.failOnWarning true (Cntr.run [.add Cmd.warning.toByte]) = true := by decide +kernel

end Verif
