import Verif.Lemmas.StatsFile

/-!
# C119: the file of statistics has the statistics, or those from before
-/

namespace Verif
open StatsFile

/-- **C119.** Backups, restores and verifications each have a file of their own; other actions write none. -/
theorem C119_names (text : Str) (l : StatsFile.Luck) (d : Dir) :
    (fileName .backup = fileName .backupTimed)
    ∧ (∀ a b p, fileName a = some p → fileName b = some p → a = b ∨ (a ∈ [.backup, .backupTimed] ∧ b ∈ [.backup, .backupTimed]))
    ∧ save .other text l d = ([], d, true) := by
  refine ⟨rfl, ?_, rfl⟩
  intro a b p ha hb
  have : fileName a = fileName b := by rw [ha, hb]
  clear hb
  cases a <;> cases b <;> first
    | exact .inl rfl
    | exact .inr ⟨by decide, by decide⟩
    | exact absurd this (by decide)
    | cases ha

/-- **C119.** If all that is given to be written is taken, and no longer temporary file was left over, then the file
has the text, as a whole, and the temporary file is gone. What is missing: writes that take a part only, and longer
files left over; see `C119_short_violated` and `C119_left_over_violated`. -/
theorem C119_exact_partial (act : StatsFile.Action) (text path : Str) (l : StatsFile.Luck) (d : Dir)
    (hp : fileName act = some path) (ho : l.opens = true) (hr : l.renames = true) (ht : l.takes = [])
    (hold : ((d (path ++ bytes ".tmp")).getD []).length ≤ text.length) :
    (save act text l d).2.2 = true ∧ (save act text l d).2.1 path = some text
    ∧ (save act text l d).2.1 (path ++ bytes ".tmp") = none := by
  obtain ⟨hf1, hf2⟩ := writeAll_full (fuel := text.length + 1) (s := text)
    (o := ⟨(d (path ++ bytes ".tmp")).getD [], 0, [], []⟩) (by omega) rfl
  have hok := writeAll_ok (ts := []) (Nat.lt_succ_self text.length) (ok_start ((d (path ++ bytes ".tmp")).getD [])) hf1
  have hw : written text l d (path ++ bytes ".tmp")
    = writeAll (text.length + 1) text ⟨(d (path ++ bytes ".tmp")).getD [], 0, [], []⟩ [] := by
    unfold written; rw [ht]
  have hoff : text.length ≤ (written text l d (path ++ bytes ".tmp")).1.off := by
    rw [hw]
    have := hok.buf
    rw [hf2] at this
    simpa using this.symm
  have hfile : (written text l d (path ++ bytes ".tmp")).1.file = text := by
    have := hok.file
    rw [← hw] at this
    rw [this]
    unfold over
    rw [List.nil_append, List.take_of_length_le hoff, List.drop_of_length_le (by omega), List.append_nil]
  have hne := tmp_ne path
  have hfin : (save act text l d).2 = ((d.set (path ++ bytes ".tmp") none).set path (some text), true) := by
    unfold save
    rw [hp]
    simp only
    rw [if_pos ho]
    have hwr : writeAll (text.length + 1) text ⟨(d (path ++ bytes ".tmp")).getD [], 0, [], []⟩ l.takes
      = written text l d (path ++ bytes ".tmp") := rfl
    rw [hwr, if_pos (show ((written text l d (path ++ bytes ".tmp")).2 && l.renames) = true by rw [hw, hf1, hr]; rfl)]
    show ((d.set (path ++ bytes ".tmp") none).set path (some (written text l d (path ++ bytes ".tmp")).1.file), true) = _
    rw [hfile]
  rw [hfin]
  refine ⟨rfl, ?_, ?_⟩
  · show (if path = path then some text else _) = _
    rw [if_pos rfl]
  · show (if path ++ bytes ".tmp" = path then some text else if path ++ bytes ".tmp" = path ++ bytes ".tmp" then none else _) = _
    rw [if_neg (fun h => hne h.symm), if_pos rfl]

/-- **C119.** Whatever is taken: if it succeeds the file has the beginning of the text, and after that what a
temporary file that was left over had there. -/
theorem C119_shape (act : StatsFile.Action) (text path : Str) (l : StatsFile.Luck) (d : Dir)
    (hp : fileName act = some path) (h : (save act text l d).2.2 = true) :
    ∃ n, n ≤ text.length
      ∧ (save act text l d).2.1 path = some (over text ((d (path ++ bytes ".tmp")).getD []) n)
      ∧ (save act text l d).2.1 (path ++ bytes ".tmp") = none := by
  rcases save_cases (text := text) (l := l) (d := d) hp with ⟨h1, _⟩ | ⟨h1, _, h3, _⟩
  · rw [h1] at h; cases h
  · have hok := writeAll_ok (Nat.lt_succ_self text.length) (ok_start ((d (path ++ bytes ".tmp")).getD [])) h1
    refine ⟨(written text l d (path ++ bytes ".tmp")).1.off, hok.le, ?_, ?_⟩
    · rw [h3]
      show (if path = path then some _ else _) = _
      rw [if_pos rfl]
      exact congrArg some hok.file
    · rw [h3]
      show (if path ++ bytes ".tmp" = path then _ else if path ++ bytes ".tmp" = path ++ bytes ".tmp" then none else _) = none
      rw [if_neg (fun h => tmp_ne path h.symm), if_pos rfl]

/-- **C119.** Wherever the server is killed, the file is as it was, or all has been done; and no other file is
touched. -/
theorem C119_old_or_new (act : StatsFile.Action) (text path : Str) (l : StatsFile.Luck) (d x : Dir)
    (hp : fileName act = some path) (hx : x ∈ (save act text l d).1) :
    (x path = d path ∨ (x = (save act text l d).2.1 ∧ (save act text l d).2.2 = true))
    ∧ ∀ n, n ≠ path → n ≠ path ++ bytes ".tmp" → x n = d n := by
  have hset : ∀ v n, n ≠ path ++ bytes ".tmp" → d.set (path ++ bytes ".tmp") v n = d n := by
    intro v n hn
    show (if n = path ++ bytes ".tmp" then v else d n) = d n
    rw [if_neg hn]
  rcases save_cases (text := text) (l := l) (d := d) hp with ⟨_, h2⟩ | ⟨_, h2, h3, h4⟩
  · obtain ⟨v, rfl | rfl⟩ := h2 x (.inl hx)
    · exact ⟨.inl rfl, fun n _ _ => rfl⟩
    · exact ⟨.inl (hset v path (tmp_ne path)), fun n _ hn => hset v n hn⟩
  · rcases h4 x hx with h5 | ⟨v, rfl⟩
    · refine ⟨.inr ⟨h5, h2⟩, fun n hn hn' => ?_⟩
      rw [h5, h3]
      show (if n = path then _ else d.set (path ++ bytes ".tmp") none n) = d n
      rw [if_neg hn, hset none n hn']
    · exact ⟨.inl (hset v path (tmp_ne path)), fun n _ hn => hset v n hn⟩

/-- **C119.** If it fails the file is as it was, and so is every other but the temporary one. -/
theorem C119_failure (act : StatsFile.Action) (text path : Str) (l : StatsFile.Luck) (d : Dir)
    (hp : fileName act = some path) (h : (save act text l d).2.2 = false) :
    ∀ n, n ≠ path ++ bytes ".tmp" → (save act text l d).2.1 n = d n := by
  intro n hn
  rcases save_cases (text := text) (l := l) (d := d) hp with ⟨_, h2⟩ | ⟨_, h2, _⟩
  · obtain ⟨v, h3 | h3⟩ := h2 _ (.inr rfl)
    · rw [h3]
    · rw [h3]
      show (if n = path ++ bytes ".tmp" then v else d n) = d n
      rw [if_neg hn]
  · rw [h2] at h; cases h

/-- **C119.** An error of the system when the file is opened or renamed is a failure. -/
theorem C119_errors (act : StatsFile.Action) (text path : Str) (l : StatsFile.Luck) (d : Dir)
    (hp : fileName act = some path) (h : l.opens = false ∨ l.renames = false) :
    (save act text l d).2.2 = false := by
  unfold save
  rw [hp]
  simp only
  rcases h with h | h
  · rw [if_neg (by rw [h]; decide)]
  · by_cases ho : l.opens = true
    · rw [if_pos ho, if_neg (by rw [h]; simp)]
    · rw [if_neg ho]

/-! ## A case -/

/-- A directory with the statistics of an earlier restore. -/
def stDir : Dir := fun n => if n = bytes "restore_stats" then some (bytes "{1}") else none

example : (save .restore (bytes "{22}") ⟨true, [], true⟩ stDir).2.1 (bytes "restore_stats") = some (bytes "{22}")
    ∧ (save .restore (bytes "{22}") ⟨true, [], true⟩ stDir).1.length = 3 := by decide +kernel

example : (save .restore (bytes "{22}") ⟨true, [.error], true⟩ stDir).2.2 = false
    ∧ (save .restore (bytes "{22}") ⟨true, [.error], true⟩ stDir).2.1 (bytes "restore_stats") = some (bytes "{1}") := by
  decide +kernel

/-! ## What does not hold -/

/-- C119 fails if a server was killed while it wrote longer statistics before: the temporary file is opened without
being emptied, so that the end of the old text follows the new one, and that is reported as success. -/
theorem C119_left_over_violated : ∃ (text : Str) (l : StatsFile.Luck) (d d' : Dir) (l' : StatsFile.Luck) (text' : Str),
    d (bytes "restore_stats.tmp") = none ∧ d' ∈ (save .restore text' l' d).1 ∧ l.takes = [] ∧ l'.takes = []
    ∧ (save .restore text l d').2.2 = true
    ∧ (save .restore text l d').2.1 (bytes "restore_stats") = some (text ++ bytes "}") :=
  ⟨bytes "{22}", ⟨true, [], true⟩, stDir, stDir.set (bytes "restore_stats.tmp") (some (bytes "{333}")),
    ⟨true, [], true⟩, bytes "{333}", by decide +kernel, by
      have h : (save .restore (bytes "{333}") ⟨true, [], true⟩ stDir).1 =
          [stDir.set (bytes "restore_stats.tmp") (some []),
            stDir.set (bytes "restore_stats.tmp") (some (bytes "{333}")),
            (stDir.set (bytes "restore_stats.tmp") none).set (bytes "restore_stats") (some (bytes "{333}"))] := by
        rfl
      rw [h]
      exact List.mem_cons_of_mem _ (List.mem_cons_self ..),
    rfl, rfl, by decide +kernel, by decide +kernel⟩

/-- C119 fails if a write takes a part only, as on a full disc: what is left in the buffer is never written, the file
is cut, and that is reported as success. -/
theorem C119_short_violated : ∃ (text : Str) (l : StatsFile.Luck) (d : Dir), d (bytes "backup_stats.tmp") = none
    ∧ l.takes = [.took 2] ∧ (save .backup text l d).2.2 = true
    ∧ (save .backup text l d).2.1 (bytes "backup_stats") = some (text.take 2) ∧ text.take 2 ≠ text :=
  ⟨bytes "{22}", ⟨true, [.took 2], true⟩, stDir, by decide +kernel, rfl, by decide +kernel, by decide +kernel,
    by decide⟩

/-- C119 fails if a signal comes while the file is waited for: nothing is written, the file is empty, the earlier
statistics are gone, and that is reported as success. -/
theorem C119_signal_violated : ∃ (text : Str) (l : StatsFile.Luck) (d : Dir), d (bytes "restore_stats.tmp") = none
    ∧ l.takes = [.took 0] ∧ text ≠ [] ∧ (save .restore text l d).2.2 = true
    ∧ d (bytes "restore_stats") = some (bytes "{1}")
    ∧ (save .restore text l d).2.1 (bytes "restore_stats") = some [] :=
  ⟨bytes "{22}", ⟨true, [.took 0], true⟩, stDir, by decide +kernel, rfl, by decide, by decide +kernel,
    by decide +kernel, by decide +kernel⟩

end Verif
