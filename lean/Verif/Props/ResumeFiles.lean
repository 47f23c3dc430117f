import Verif.Lemmas.ResumeFiles
import Verif.Props.Resume
import Verif.Props.Manifest
import Verif.Props.CntrStr

/-!
# C108: resuming from files that were written in part

`Whole`, `TornAt`, `Torn`, `TornRows`, `StandsFor`, `Lists` and `Stopped` are in
`Verif/Spec/ResumeFiles.lean`; `readEntries` reads a file to its end or to the first error.
-/

namespace Verif
open Verif.Sbuf Verif.Iobuf Verif.PathCmp Verif.ResumeFiles

/-- C108: whatever is in the files, what resuming leaves of each list is a beginning of it that can be read
to its end, and what is appended afterwards is read behind it. -/
theorem C108_readable (st : Stat) (maxSub : Int) (d : Dpth.Dpth) (f : Files) (r : Resumed)
    (h : doResume st maxSub d f = some r) (es : List Entry) (hes : ∀ e ∈ es, e.Ok) :
    (r.changed <+: f.changed ∧ (readEntries r.changed).2 = true ∧
      ∃ g, writeEntries r.changed (es.map Entry.toSbuf) = (g, true) ∧
        readEntries g = ((readEntries r.changed).1 ++ es.map Entry.toSbuf, true)) ∧
    (r.unchanged <+: f.unchanged ∧ (readEntries r.unchanged).2 = true ∧
      ∃ g, writeEntries r.unchanged (es.map Entry.toSbuf) = (g, true) ∧
        readEntries g = ((readEntries r.unchanged).1 ++ es.map Entry.toSbuf, true)) := by
  obtain ⟨s, r0, hm, _, _, _, e⟩ := meaning_of_doResume h
  have e1 : r.changed = r0.changed := by rw [e]
  have e2 : r.unchanged = r0.unchanged := by rw [e]
  have hb := block_entries hes
  have key : ∀ (u : Str) (xs : List Sbuf.Sbuf), Block u xs → (readEntries u).2 = true ∧
      ∃ g, writeEntries u (es.map Entry.toSbuf) = (g, true) ∧
        readEntries g = ((readEntries u).1 ++ es.map Entry.toSbuf, true) := by
    intro u xs hu
    rw [block_read hu]
    refine ⟨rfl, u ++ (es.map encEntry).flatten, writeEntries_ok hes u, ?_⟩
    exact block_read (block_append hu hb)
  rw [e1, e2]
  exact ⟨⟨hm.pre.1, key _ _ hm.changed⟩, ⟨hm.pre.2.1, key _ _ hm.unchanged⟩⟩

/-- C108: whatever is in the files of counters, what resuming leaves of each is a beginning of it, and rows
that are appended afterwards are read behind the rows in it. -/
theorem C108_rows_readable (st : Stat) (maxSub : Int) (d : Dpth.Dpth) (f : Files) (r : Resumed)
    (h : doResume st maxSub d f = some r) (rs : List ResumeCntr.Row) (hrs : ∀ x ∈ rs, RowOk x) :
    (r.cd <+: f.cd ∧ ∃ g, writeRows r.cd (rs.map rawRow) = (g, true) ∧
      rowsIn g = rowsIn r.cd ++ rs.map rawRow) ∧
    (r.cn <+: f.cn ∧ ∃ g, writeRows r.cn (rs.map rawRow) = (g, true) ∧
      rowsIn g = rowsIn r.cn ++ rs.map rawRow) := by
  obtain ⟨s, r0, hm, _, _, _, e⟩ := meaning_of_doResume h
  have e1 : r.cd = r0.cd := by rw [e]
  have e2 : r.cn = r0.cn := by rw [e]
  have hall : ∀ x ∈ rs.map rawRow, x.2.Ok := by
    intro x hx
    obtain ⟨y, hy, rfl⟩ := List.mem_map.1 hx
    exact rawRow_ok (hrs y hy)
  have hb := rowBlock_rows hall
  have hblocks : (∃ xs, RowBlock r0.cd xs) ∧ (∃ xs, RowBlock r0.cn xs) := by
    have := hm.rows
    split at this
    · rw [this.1, this.2.1]
      exact ⟨⟨_, rowBlock_nil⟩, ⟨_, rowBlock_nil⟩⟩
    · exact ⟨⟨_, this.1⟩, ⟨_, this.2.1⟩⟩
  have key : ∀ (u : Str), (∃ xs, RowBlock u xs) → ∃ g, writeRows u (rs.map rawRow) = (g, true) ∧
      rowsIn g = rowsIn u ++ rs.map rawRow := by
    rintro u ⟨xs, hu⟩
    refine ⟨u ++ ((rs.map rawRow).map rowEnc).flatten, writeRows_ok hall u, ?_⟩
    rw [rowBlock_read hu, hu, rowBlock_read hb]
  rw [e1, e2]
  exact ⟨⟨hm.pre.2.2.1, key _ hblocks.1⟩, ⟨hm.pre.2.2.2, key _ hblocks.2⟩⟩

/-- C108: whatever is in the files, resuming does to them what `Resume.resume` (C30) does to the lists of the
entries that can be read: the same entries are kept, and reading the scan and the previous manifest from
the positions on gives the same entries. -/
theorem C108_kept (st : Stat) (maxSub : Int) (d : Dpth.Dpth) (f : Files) (r : Resumed)
    (h : doResume st maxSub d f = some r) :
    let p := Resume.resume (infoOf st) keyOf (readEntries f.changed).1 (readEntries f.unchanged).1
      (readEntries f.scan).1 (f.prev.map (fun q => (readEntries q).1))
    readEntries r.changed = (p.changed, true) ∧ readEntries r.unchanged = (p.unchanged, true) ∧
    readEntries (r.scanLeft f) = (p.scan, true) ∧
    (r.prevLeft f).map (fun q => (readEntries q).1) = p.prev ∧
    (r.prevLeft f).map (fun q => (readEntries q).2) = f.prev.map (fun q => (readEntries q).2) := by
  obtain ⟨s, r0, hm, _, _, _, e⟩ := meaning_of_doResume h
  have hs := (doResume_work h).1
  have e1 : r.changed = r0.changed := by rw [e]
  have e2 : r.unchanged = r0.unchanged := by rw [e]
  have e3 : r.scanLeft f = r0.scanLeft f := by rw [e]; rfl
  have e4 : r.prevLeft f = r0.prevLeft f := by rw [e]; rfl
  have h3 := hm.scan
  rw [hs] at h3
  rw [e1, e2, e3, e4]
  exact ⟨block_read hm.changed, block_read hm.unchanged, h3, hm.prev, hm.prevOk⟩

/-- C108: with files of counters that burp has written, the last row perhaps in part, resuming does to them
and to the counters what `ResumeCntr.resumeCounters` (C107) does with the rows that are whole. -/
theorem C108_counters (st : Stat) (maxSub : Int) (d : Dpth.Dpth) (f : Files) (r : Resumed)
    (cd cn : List ResumeCntr.Row) (hcd : ∀ x ∈ cd, RowOk x) (hcn : ∀ x ∈ cn, RowOk x) (td : TornRows cd f.cd)
    (tn : TornRows cn f.cn) (h : doResume st maxSub d f = some r) :
    let c := ResumeCntr.resumeCounters (infoOf st) lengthIn
      (ResumeCntr.readPhase1 keyOf (fun sb => st.size sb.attr) (readEntries f.scan).1)
      (readEntries f.changed).1 (readEntries f.unchanged).1 cd cn
    r.side.cntr = c.1 ∧ rowsIn r.cd = c.2.1.map rawRow ∧ rowsIn r.cn = c.2.2.map rawRow := by
  obtain ⟨s, r0, hm, hs, _, _, e⟩ := meaning_of_doResume h
  have e1 : r.cd = r0.cd := by rw [e]
  have e2 : r.cn = r0.cn := by rw [e]
  have e3 : r.side.cntr = r0.side.cntr := by rw [e]
  have := hm.rows
  rw [tornRows_read hcd td, tornRows_read hcn tn, hs] at this
  rw [e1, e2, e3]
  simp only [ResumeCntr.resumeCounters]
  cases hL : (Resume.lastGood (infoOf st) (readEntries f.changed).1).1 with
  | none =>
    rw [hL] at this
    simp only at this
    rw [this.1, this.2.1, rowsIn_empty]
    exact ⟨this.2.2, rfl, rfl⟩
  | some x =>
    rw [hL] at this
    simp only at this
    rw [countRows_raw _ cd _ hcd] at this
    simp only at this
    rw [countRows_raw _ cn _ hcn] at this
    exact ⟨this.2.2, rowBlock_read this.1, rowBlock_read this.2.1⟩

/-- C108: the bytes that are counted for an entry (`lengthIn` in `C108_counters`) are the length that is
recorded with its data: the number before the colon. An entry without data counts for nothing. -/
theorem C108_lengths (e : Entry) :
    (∀ k d a p x (n : Nat) (sum : Str), n < 2 ^ 64 → e = .stored k d a p x →
      x = BackupNumber.decimal n ++ (58 :: sum) → lengthIn e.toSbuf = some (UInt64.ofNat n)) ∧
    (hasData e = false → lengthIn e.toSbuf = none) := by
  constructor
  · rintro k d a p x n sum hn rfl rfl
    obtain ⟨c, r, ec, hc⟩ := Cntr.decimal_cons n
    obtain ⟨-, -, -, -, h1, h2, h3⟩ := Cntr.isDigit_plain hc
    have hnul : ∀ b ∈ BackupNumber.decimal n, b ≠ 0 := by
      intro b hb h0
      have := (decimal_digits n).1 b hb
      rw [h0] at this
      exact absurd this (by decide)
    have hcs : cstr (BackupNumber.decimal n ++ 58 :: sum) = BackupNumber.decimal n ++ 58 :: cstr sum := by
      have : ∀ (a : Str), (∀ b ∈ a, b ≠ 0) → cstr (a ++ 58 :: sum) = a ++ 58 :: cstr sum := by
        intro a ha
        induction a with
        | nil => simp [cstr]
        | cons y ys ih =>
          have hy := ha y (by simp)
          have := ih (fun b hb => ha b (by simp [hb]))
          unfold cstr at this ⊢
          rw [List.cons_append, List.takeWhile_cons, if_pos (by simpa using hy), this]
          rfl
      exact this _ hnul
    have hd : (BackupNumber.decimal n ++ 58 :: cstr sum).dropWhile Cntr.isSpace
        = BackupNumber.decimal n ++ 58 :: cstr sum := by
      rw [ec, List.cons_append, List.dropWhile_cons]
      simp [h1]
    have hv : BackupNumber.strtoul (BackupNumber.decimal n ++ 58 :: cstr sum) = n := by
      rw [BackupNumber.strtoul, decValue_append _ _ _ (decimal_digits n).1,
        decValue_decimal, BackupNumber.decValue, if_neg (by decide)]
      omega
    simp only [lengthIn, Entry.toSbuf, Option.map_some, Option.some.injEq]
    rw [hcs]
    unfold Cntr.strtoull
    rw [hd]
    split
    · rename_i r' e'
      rw [ec, List.cons_append] at e'
      exact absurd (List.cons.inj e').1 h2
    · rename_i r' e'
      rw [ec, List.cons_append] at e'
      exact absurd (List.cons.inj e').1 h3
    · rw [hv]
  · cases e <;> simp [hasData, lengthIn, Entry.toSbuf]

example : lengthIn (Entry.toSbuf (.stored .file (bytes "t/a") (bytes "A") (bytes "/a") (bytes "120:0f"))) = some 120 := by
  decide +kernel

/-- C108: resuming does not fail for what an interruption does to the files. With a scan and a previous
manifest that can be read, and lists that were written by burp up to any place, it succeeds unless the
last of all storage paths is recorded in one of the lists, or the backup began with it. -/
theorem C108_works (st : Stat) (maxSub : Int) (d : Dpth.Dpth) (hd : d.Ok) (f : Files)
    (hs : (readEntries f.scan).2 = true) (hp : ∀ p, f.prev = some p → (readEntries p).2 = true)
    (es us : List Entry) (e u : Entry) (te tu : Str) (hes : ∀ x ∈ es, x.Ok) (hus : ∀ x ∈ us, x.Ok)
    (h1 : TornAt es e te f.changed) (h2 : TornAt us u tu f.unchanged)
    (hr : ∀ x ∈ es ++ us ++ [e, u], ∀ q, x.toSbuf.datapth = some q → Dpth.Recorded q) :
    (∃ r, doResume st maxSub d f = some r) ∨
    ∃ x : Dpth.Dpth, x.Ok ∧ (x = d ∨ ∃ y ∈ es ++ us ++ [e, u], ∃ gz, y.toSbuf.datapth = some (Dpth.dpthMk x gz)) ∧
      (maxSub % 65536).toNat ≤ x.a ∧ (maxSub % 65536).toNat ≤ x.b ∧ x.c = 65535 := by
  have hpath : ∀ (es : List Entry) (e : Entry) (t g : Str), (∀ x ∈ es, x.Ok) → TornAt es e t g →
      ∀ q, some q ∈ pathsIn g → ∃ y ∈ es ++ [e], y.toSbuf.datapth = some q := by
    intro es e t g hes ht q hq
    obtain ⟨k1, k2, k3, k4⟩ := pathsIn_torn hes ht
    rw [k1] at hq
    rcases List.mem_append.1 hq with hq | hq
    · obtain ⟨x, hx, hx2⟩ := List.mem_map.1 hq
      exact ⟨x, by simp [hx], hx2⟩
    · simp only [List.mem_singleton] at hq
      rcases (leftIn_torn k2 k3 k4).1 with h | h
      · rw [h] at hq; cases hq
      · exact ⟨e, by simp, by rw [hq, h]⟩
  have p1 : ∀ q, some q ∈ pathsIn f.changed → ∃ y ∈ es ++ us ++ [e, u], y.toSbuf.datapth = some q := by
    intro q hq
    obtain ⟨y, hy, hy2⟩ := hpath es e te f.changed hes h1 q hq
    refine ⟨y, ?_, hy2⟩
    simp only [List.mem_append, List.mem_cons, List.not_mem_nil, or_false] at hy ⊢
    rcases hy with h | h
    · exact Or.inl (Or.inl h)
    · exact Or.inr (Or.inl h)
  have p2 : ∀ q, some q ∈ pathsIn f.unchanged → ∃ y ∈ es ++ us ++ [e, u], y.toSbuf.datapth = some q := by
    intro q hq
    obtain ⟨y, hy, hy2⟩ := hpath us u tu f.unchanged hus h2 q hq
    refine ⟨y, ?_, hy2⟩
    simp only [List.mem_append, List.mem_cons, List.not_mem_nil, or_false] at hy ⊢
    rcases hy with h | h
    · exact Or.inl (Or.inr h)
    · exact Or.inr (Or.inr h)
  have r1 : ∀ q, some q ∈ pathsIn f.changed → Dpth.Recorded q := fun q hq => by
    obtain ⟨y, hy, hy2⟩ := p1 q hq
    exact hr y hy q hy2
  have r2 : ∀ q, some q ∈ pathsIn f.unchanged → Dpth.Recorded q := fun q hq => by
    obtain ⟨y, hy, hy2⟩ := p2 q hq
    exact hr y hy q hy2
  obtain ⟨r0, hr0⟩ := resumeWork_works (st := st)
    (s := ⟨ResumeCntr.readPhase1 keyOf (fun sb => st.size sb.attr) (readEntries f.scan).1, d⟩) hs hp hd r1 r2
  have hm := resumeWork_meaning hr0
  have hall : ∀ q, some q ∈ (pathsIn f.changed ++
      match (Resume.lastGood (infoOf st) (readEntries f.changed).1).1 with
      | none => []
      | some x => pathsBefore (keyOf x) f.unchanged) →
      ∃ y ∈ es ++ us ++ [e, u], y.toSbuf.datapth = some q := by
    intro q hq
    rcases List.mem_append.1 hq with hq | hq
    · exact p1 q hq
    · split at hq
      · cases hq
      · exact p2 q (pathsBefore_sub _ _ q hq)
  have hrec : ∀ q, some q ∈ (pathsIn f.changed ++
      match (Resume.lastGood (infoOf st) (readEntries f.changed).1).1 with
      | none => []
      | some x => pathsBefore (keyOf x) f.unchanged) → Dpth.Recorded q := fun q hq => by
    obtain ⟨y, hy, hy2⟩ := hall q hq
    exact hr y hy q hy2
  have hok : r0.side.dpth.Ok ∧
      (r0.side.dpth = d ∨ ∃ y ∈ es ++ us ++ [e, u], ∃ gz, y.toSbuf.datapth = some (Dpth.dpthMk r0.side.dpth gz)) := by
    obtain ⟨d', a1, a2, _⟩ := Dpth.setAll_spec (d := d) hd _ hrec
    have : some d' = some r0.side.dpth := a1.symm.trans hm.dpth
    simp only [Option.some.injEq] at this
    rw [← this]
    refine ⟨a2, ?_⟩
    rcases Dpth.setAll_or hrec a1 with e | ⟨g, hg⟩
    · exact Or.inl e
    · obtain ⟨y, hy, hy2⟩ := hall _ hg
      exact Or.inr ⟨y, hy, g, hy2⟩
  simp only [doResume]
  rw [hs]
  simp only [Bool.true_eq_false, if_false, hr0]
  by_cases hi : (Dpth.dpthIncr maxSub r0.side.dpth).2 = true
  · exact Or.inl ⟨_, by rw [if_pos hi]⟩
  · right
    refine ⟨r0.side.dpth, hok.1, hok.2, ?_⟩
    obtain ⟨k1, k2, k3⟩ := hok.1
    have hi' : (Dpth.dpthIncr maxSub r0.side.dpth).2 = false := by simpa using hi
    have := Dpth.dpthIncr_fail hi'
    exact ⟨this.2.1, this.2.2.1, by omega⟩

/-- C108: no storage path that is in the list of changed entries is given out again, not even one in an entry
that was written in part, if the record with the path is whole. -/
theorem C108_paths (st : Stat) (maxSub : Int) (d : Dpth.Dpth) (hd : d.Ok) (f : Files) (r : Resumed)
    (h : doResume st maxSub d f = some r) (es us : List Entry) (e u : Entry) (te tu : Str)
    (hes : ∀ x ∈ es, x.Ok) (hus : ∀ x ∈ us, x.Ok) (h1 : TornAt es e te f.changed)
    (h2 : TornAt us u tu f.unchanged)
    (hr : ∀ x ∈ es ++ us ++ [e, u], ∀ q, x.toSbuf.datapth = some q → Dpth.Recorded q)
    (x : Dpth.Dpth) (hx : x.Ok) (gz : Bool) (k : Cmd) (a p z : Str)
    (hin : Entry.stored k (Dpth.dpthMk x gz) a p z ∈ es ∨
      (e = Entry.stored k (Dpth.dpthMk x gz) a p z ∧
        (sendMsgFzp [] ⟨Cmd.datapth.toByte, Dpth.dpthMk x gz⟩).1.length ≤ te.length)) :
    d.rank < r.side.dpth.rank ∧ x.rank < r.side.dpth.rank := by
  obtain ⟨s, r0, hm, _, hs2, hi, er⟩ := meaning_of_doResume h
  obtain ⟨k1, k2, k3, k4⟩ := pathsIn_torn hes h1
  obtain ⟨l1, l2, l3, l4⟩ := pathsIn_torn hus h2
  have r1 : ∀ q, some q ∈ pathsIn f.changed → Dpth.Recorded q := by
    intro q hq
    rw [k1] at hq
    rcases List.mem_append.1 hq with hq | hq
    · obtain ⟨y, hy, hy2⟩ := List.mem_map.1 hq
      exact hr y (by simp [hy]) q hy2
    · simp only [List.mem_singleton] at hq
      rcases (leftIn_torn k2 k3 k4).1 with h | h
      · rw [h] at hq; cases hq
      · exact hr e (by simp) q (by rw [hq, h])
  have r2 : ∀ q, some q ∈ pathsIn f.unchanged → Dpth.Recorded q := by
    intro q hq
    rw [l1] at hq
    rcases List.mem_append.1 hq with hq | hq
    · obtain ⟨y, hy, hy2⟩ := List.mem_map.1 hq
      exact hr y (by simp [hy]) q hy2
    · simp only [List.mem_singleton] at hq
      rcases (leftIn_torn l2 l3 l4).1 with h | h
      · rw [h] at hq; cases hq
      · exact hr u (by simp) q (by rw [hq, h])
  have hmem : some (Dpth.dpthMk x gz) ∈ pathsIn f.changed := by
    rw [k1]
    rcases hin with hin | ⟨he, hlen⟩
    · exact List.mem_append_left _ (List.mem_map.2 ⟨_, hin, rfl⟩)
    · apply List.mem_append_right
      have hfit : (Dpth.dpthMk x gz).length ≤ 65535 := by
        rw [he] at k2
        exact k2.2.1
      rw [sendMsgFzp_ok _ hfit] at hlen
      have := (leftIn_torn k2 k3 k4).2 (Dpth.dpthMk x gz) (by rw [he]; rfl) (by simpa using hlen)
      rw [this]
      simp
  have hrec : ∀ q, some q ∈ (pathsIn f.changed ++
      match (Resume.lastGood (infoOf st) (readEntries f.changed).1).1 with
      | none => []
      | some x => pathsBefore (keyOf x) f.unchanged) → Dpth.Recorded q := by
    intro q hq
    rcases List.mem_append.1 hq with hq | hq
    · exact r1 q hq
    · split at hq
      · cases hq
      · exact r2 q (pathsBefore_sub _ _ q hq)
  obtain ⟨d', a1, a2, a3, a4⟩ := Dpth.setAll_spec (d := d) hd _ hrec
  have hdp := hm.dpth
  rw [hs2] at hdp
  replace hdp : some d' = some r0.side.dpth := a1.symm.trans hdp
  simp only [Option.some.injEq] at hdp
  have hinc := Dpth.dpthIncr_ok (m := maxSub) a2 (by rw [hdp]; exact hi)
  have e5 : r.side.dpth = (Dpth.dpthIncr maxSub d').1 := by rw [er, hdp]
  rw [e5]
  have := a4 x gz hx (List.mem_append_left _ hmem)
  omega

/-- C108, for interruptions that lose nothing but a part of the last entry of each list: a backup that has been
interrupted any number of times, and resumed each time, goes on after resuming with what is left of the
scan and of the previous manifest, and what it then appends to the files makes them the files of the
backup without interruptions: read to their end they have an entry for each record of it, in the same
order. Missing is what `C30_lost_unchanged_violated` shows: that no more is lost is not ensured by the
program. -/
theorem C108_complete_partial {E : Type} (w : Phase2.Walk E) (isDir sent : E → Bool) (st : Stat) (maxSub : Int)
    (hd : ∀ c p, w.dec c p ≠ .doneDeleted) (scan : List E) (prev : Option (List E))
    (hs : SortedBy w.key scan) (hp : SortedBy w.key (prev.getD []))
    (hn : NoClash w.key (scan ++ prev.getD [])) (f : Files)
    (hsf : Lists w scan f.scan) (hpf : ListsPrev w prev f.prev)
    (h : Stopped w isDir sent st maxSub scan prev f.scan f.prev f.changed f.unchanged)
    (d : Dpth.Dpth) (r : Resumed) (hr : doResume st maxSub d f = some r) :
    ∃ scan' prev', scan' <:+ scan ∧ Lists w scan' (r.scanLeft f) ∧ ListsPrev w prev' (r.prevLeft f) ∧
      (∀ es, AllStandFor w isDir st (fullChanged w sent scan' prev') es →
        ∃ g es', writeEntries r.changed (es.map Entry.toSbuf) = (g, true) ∧
          readEntries g = (es'.map Entry.toSbuf, true) ∧
          AllStandFor w isDir st (fullChanged w sent scan prev) es') ∧
      (∀ us, AllStandFor w isDir st (fullUnchanged w scan' prev') us →
        ∃ g us', writeEntries r.unchanged (us.map Entry.toSbuf) = (g, true) ∧
          readEntries g = (us'.map Entry.toSbuf, true) ∧
          AllStandFor w isDir st (fullUnchanged w scan prev) us') := by
  obtain ⟨ch, un, hi, hh⟩ := stopped_holds hsf hpf h
  obtain ⟨s, r0, hm, _, _, _, e⟩ := meaning_of_doResume hr
  have e1 : r.changed = r0.changed := by rw [e]
  have e2 : r.unchanged = r0.unchanged := by rw [e]
  have e3 : r.scanLeft f = r0.scanLeft f := by rw [e]; rfl
  have e4 : r.prevLeft f = r0.prevLeft f := by rw [e]; rfl
  obtain ⟨⟨ks, k1, k2⟩, ⟨ls, l1, l2⟩, m1, m2⟩ := resumed_holds hsf hpf hh hm
  have hsub := resume_sub (Resume.outInfo w isDir) w.key ch un scan prev
  obtain ⟨c1, c2⟩ := C30_resume_complete_partial w isDir sent hd scan prev hs hp hn ch un hi
  rw [e1, e2, e3, e4]
  refine ⟨_, _, hsub.2.2.1, m1, m2, ?_, ?_⟩
  · intro es hes
    refine ⟨r0.changed ++ (es.map encEntry).flatten, ks ++ es, writeEntries_ok (allStandFor_ok hes) _, ?_, ?_⟩
    · rw [block_read (block_append k2 (block_entries (allStandFor_ok hes)))]
      simp
    · rw [← c1]
      exact allStandFor_append k1 hes
  · intro us hus
    refine ⟨r0.unchanged ++ (us.map encEntry).flatten, ls ++ us, writeEntries_ok (allStandFor_ok hus) _, ?_, ?_⟩
    · rw [block_read (block_append l2 (block_entries (allStandFor_ok hus)))]
      simp
    · rw [← c2]
      exact allStandFor_append l1 hus

/-! ### An interrupted backup -/

/-- `/d` and `/d/a` are as they were, and `/d/c` has been received. -/
def keptChanged : List Entry := [.stored .file (bytes "0000/0000/0001") (bytes "attr") (bytes "/d/c") (bytes "3:abc")]
def keptUnchanged : List Entry :=
  [.plain .directory (bytes "attr") (bytes "/d"),
   .stored .file (bytes "0000/0000/0000") (bytes "attr") (bytes "/d/a") (bytes "3:abc")]

/-- The entry that was being written. -/
def tornEntry : Entry := .stored .file (bytes "0000/0000/0002") (bytes "attr") (bytes "/e") (bytes "3:abc")

def resumeScan : List Entry :=
  [.plain .directory (bytes "attr") (bytes "/d"), .plain .file (bytes "attr") (bytes "/d/a"),
   .plain .file (bytes "attr") (bytes "/d/c"), .plain .file (bytes "attr") (bytes "/e")]

def resumePrev : List Entry :=
  [.plain .directory (bytes "attr") (bytes "/d"),
   .stored .file (bytes "0000/0000/0000") (bytes "attr") (bytes "/d/a") (bytes "3:abc"),
   .stored .file (bytes "0000/0000/0000") (bytes "attr") (bytes "/d/b") (bytes "3:abc"),
   .stored .file (bytes "0000/0000/0000") (bytes "attr") (bytes "/e") (bytes "3:abc")]

/-- The record with the storage path of the last entry has been written, and no more of the entry. -/
def tornPart : Str := (sendMsgFzp [] ⟨Cmd.datapth.toByte, bytes "0000/0000/0002"⟩).1

def noStat : Stat := ⟨fun _ => false, fun _ => 0⟩

def resumeFiles : Files where
  changed := (keptChanged.map encEntry).flatten ++ tornPart
  unchanged := (keptUnchanged.map encEntry).flatten
  cd := []
  cn := []
  scan := (resumeScan.map encEntry).flatten
  prev := some (resumePrev.map encEntry).flatten

theorem storedOk {k : Cmd} {d a p x : Str} (hk : k ∈ dataKinds) (h1 : d.length ≤ 65535 ∧ a.length ≤ 65535 ∧
    p.length ≤ 65535 ∧ x.length ≤ 65535) (h2 : NoNul p) (h3 : hasDotComponent p = false) (h4 : NoNul d)
    (h5 : hasDotComponent d = false) : (Entry.stored k d a p x).Ok :=
  ⟨hk, h1.1, h1.2.1, h1.2.2.1, h1.2.2.2, h2, dotFree_of_check h3, h4, dotFree_of_check h5⟩

theorem plainOk {k : Cmd} {a p : Str} (hk : k ∈ pathKinds) (h1 : a.length ≤ 65535 ∧ p.length ≤ 65535)
    (h2 : NoNul p) (h3 : hasDotComponent p = false) : (Entry.plain k a p).Ok :=
  ⟨hk, h1.1, h1.2, h2, dotFree_of_check h3⟩

theorem resumeEntries_ok : (∀ e ∈ keptChanged, e.Ok) ∧ (∀ e ∈ keptUnchanged, e.Ok) ∧ (∀ e ∈ resumeScan, e.Ok) ∧
    (∀ e ∈ resumePrev, e.Ok) ∧ tornEntry.Ok := by
  refine ⟨?_, ?_, ?_, ?_, ?_⟩
  · intro e he
    simp only [keptChanged, List.mem_singleton] at he
    rw [he]
    exact storedOk (by decide) (by decide) (by decide) (by decide) (by decide) (by decide)
  · intro e he
    simp only [keptUnchanged, List.mem_cons, List.not_mem_nil, or_false] at he
    rcases he with rfl | rfl
    · exact plainOk (by decide) (by decide) (by decide) (by decide)
    · exact storedOk (by decide) (by decide) (by decide) (by decide) (by decide) (by decide)
  · intro e he
    simp only [resumeScan, List.mem_cons, List.not_mem_nil, or_false] at he
    rcases he with rfl | rfl | rfl | rfl <;> exact plainOk (by decide) (by decide) (by decide) (by decide)
  · intro e he
    simp only [resumePrev, List.mem_cons, List.not_mem_nil, or_false] at he
    rcases he with rfl | rfl | rfl | rfl
    · exact plainOk (by decide) (by decide) (by decide) (by decide)
    all_goals exact storedOk (by decide) (by decide) (by decide) (by decide) (by decide) (by decide)
  · exact storedOk (by decide) (by decide) (by decide) (by decide) (by decide) (by decide)

theorem whole_of {es : List Entry} (h : ∀ e ∈ es, e.Ok) : ResumeFiles.Whole es (es.map encEntry).flatten := by
  unfold ResumeFiles.Whole
  rw [writeEntries_ok h]
  simp

theorem entry_written {e : Entry} (h : e.Ok) : toManifest [] e.toSbuf = (encEntry e, true) := by
  unfold Sbuf.toManifest
  rw [writeAll_ok (fun r hr => ((entry_records_ok h) r hr).2)]
  rfl

theorem tornPart_eq : tornPart = enc ⟨116, bytes "0000/0000/0002"⟩ := by
  unfold tornPart
  rw [sendMsgFzp_ok _ (by decide)]
  rfl

theorem tornEntry_bytes : encEntry tornEntry = tornPart ++ (enc ⟨114, bytes "attr"⟩ ++ (enc ⟨102, bytes "/e"⟩ ++
    enc ⟨120, bytes "3:abc"⟩)) := by
  have : toRecords tornEntry.toSbuf = [⟨116, bytes "0000/0000/0002"⟩, ⟨114, bytes "attr"⟩, ⟨102, bytes "/e"⟩,
    ⟨120, bytes "3:abc"⟩] := by rfl
  unfold encEntry
  rw [this, tornPart_eq]
  simp

theorem tornFiles : TornAt keptChanged tornEntry tornPart resumeFiles.changed ∧
    TornAt keptUnchanged tornEntry [] resumeFiles.unchanged := by
  obtain ⟨h1, h2, _, _, h5⟩ := resumeEntries_ok
  refine ⟨⟨_, encEntry tornEntry, whole_of h1, h5, entry_written h5, ?_, ?_, rfl⟩, ⟨_, encEntry tornEntry, whole_of h2, h5, entry_written h5, ?_, ?_, ?_⟩⟩
  · exact ⟨_, tornEntry_bytes.symm⟩
  · rw [tornEntry_bytes]
    intro h
    have := congrArg List.length h
    simp [enc] at this
  · exact List.nil_prefix
  · rw [tornEntry_bytes, tornPart_eq]
    simp [enc]
  · simp [resumeFiles]

theorem dataPaths : Dpth.dpthMk ⟨0, 0, 0⟩ false = bytes "0000/0000/0000" ∧
    Dpth.dpthMk ⟨0, 0, 1⟩ false = bytes "0000/0000/0001" ∧
    Dpth.dpthMk ⟨0, 0, 2⟩ false = bytes "0000/0000/0002" := by
  have h0 : hex04 0 = bytes "0000" := by rw [hex04_small (by decide)]; decide
  have h1 : hex04 1 = bytes "0001" := by rw [hex04_small (by decide)]; decide
  have h2 : hex04 2 = bytes "0002" := by rw [hex04_small (by decide)]; decide
  simp only [Dpth.dpthMk, h0, h1, h2]
  decide

theorem resumeFiles_recorded : ∀ x ∈ keptChanged ++ keptUnchanged ++ [tornEntry, tornEntry], ∀ q,
    x.toSbuf.datapth = some q → Dpth.Recorded q := by
  intro x hx q hq
  simp only [keptChanged, keptUnchanged, List.cons_append, List.nil_append, List.mem_cons, List.not_mem_nil,
    or_false] at hx
  rcases hx with rfl | rfl | rfl | rfl | rfl
  · cases hq
    exact Or.inl ⟨⟨0, 0, 1⟩, false, by decide, dataPaths.2.1.symm⟩
  · cases hq
  · cases hq
    exact Or.inl ⟨⟨0, 0, 0⟩, false, by decide, dataPaths.1.symm⟩
  all_goals
    cases hq
    exact Or.inl ⟨⟨0, 0, 2⟩, false, by decide, dataPaths.2.2.symm⟩

/-- The hypotheses of the theorems above are met by these files, and resuming succeeds. -/
theorem resumeFiles_resumed : ∃ r, doResume noStat 30000 ⟨0, 0, 0⟩ resumeFiles = some r := by
  obtain ⟨h1, h2, h3, h4, h5⟩ := resumeEntries_ok
  obtain ⟨t1, t2⟩ := tornFiles
  rcases C108_works noStat 30000 ⟨0, 0, 0⟩ (by decide) resumeFiles
    (by show (readEntries (resumeScan.map encEntry).flatten).2 = true
        rw [block_read (block_entries h3)])
    (by intro p hp
        simp only [resumeFiles, Option.some.injEq] at hp
        rw [← hp, block_read (block_entries h4)])
    keptChanged keptUnchanged tornEntry tornEntry tornPart [] h1 h2 t1 t2 resumeFiles_recorded with h | ⟨x, hok, hx, ha, _⟩
  · exact h
  · exfalso
    have hz : x.a = 0 := by
      rcases hx with rfl | ⟨y, hy, gz, hq⟩
      · rfl
      · simp only [keptChanged, keptUnchanged, List.cons_append, List.nil_append, List.mem_cons,
          List.not_mem_nil, or_false] at hy
        rcases hy with rfl | rfl | rfl | rfl | rfl
        · rw [(Dpth.dpthMk_inj hok (by decide) ((Option.some.inj hq).symm.trans dataPaths.2.1.symm)).1]
        · cases hq
        · rw [(Dpth.dpthMk_inj hok (by decide) ((Option.some.inj hq).symm.trans dataPaths.1.symm)).1]
        all_goals
          rw [(Dpth.dpthMk_inj hok (by decide) ((Option.some.inj hq).symm.trans dataPaths.2.2.symm)).1]
    rw [hz] at ha
    simp at ha

/-- Just the entry that was written in part is dropped; the scan goes on with the entry for `/e`, and the
storage path of the part is not given out again. -/
example : ∃ r, doResume noStat 30000 ⟨0, 0, 0⟩ resumeFiles = some r ∧
    readEntries r.changed = (keptChanged.map Entry.toSbuf, true) ∧
    readEntries r.unchanged = (keptUnchanged.map Entry.toSbuf, true) ∧
    readEntries (r.scanLeft resumeFiles) = ([(Entry.plain .file (bytes "attr") (bytes "/e")).toSbuf], true) ∧
    (⟨0, 0, 2⟩ : Dpth.Dpth).rank < r.side.dpth.rank := by
  obtain ⟨h1, h2, h3, h4, h5⟩ := resumeEntries_ok
  obtain ⟨t1, t2⟩ := tornFiles
  obtain ⟨r, hr⟩ := resumeFiles_resumed
  have hk := C108_kept noStat 30000 ⟨0, 0, 0⟩ resumeFiles r hr
  rw [torn_read h1 ⟨_, _, t1⟩, torn_read h2 ⟨_, _, t2⟩,
    show (readEntries resumeFiles.scan) = (resumeScan.map Entry.toSbuf, true) from block_read (block_entries h3),
    show resumeFiles.prev.map (fun q => (readEntries q).1) = some (resumePrev.map Entry.toSbuf) by
      simp only [resumeFiles, Option.map_some]; rw [block_read (block_entries h4)]] at hk
  simp only at hk
  rw [show (Resume.resume (infoOf noStat) keyOf (keptChanged.map Entry.toSbuf) (keptUnchanged.map Entry.toSbuf)
      (resumeScan.map Entry.toSbuf) (some (resumePrev.map Entry.toSbuf))).changed =
      keptChanged.map Entry.toSbuf by decide +kernel,
    show (Resume.resume (infoOf noStat) keyOf (keptChanged.map Entry.toSbuf) (keptUnchanged.map Entry.toSbuf)
      (resumeScan.map Entry.toSbuf) (some (resumePrev.map Entry.toSbuf))).unchanged =
      keptUnchanged.map Entry.toSbuf by decide +kernel,
    show (Resume.resume (infoOf noStat) keyOf (keptChanged.map Entry.toSbuf) (keptUnchanged.map Entry.toSbuf)
      (resumeScan.map Entry.toSbuf) (some (resumePrev.map Entry.toSbuf))).scan =
      [(Entry.plain .file (bytes "attr") (bytes "/e")).toSbuf] by decide +kernel] at hk
  refine ⟨r, hr, hk.1, hk.2.1, hk.2.2.1, ?_⟩
  exact (C108_paths noStat 30000 ⟨0, 0, 0⟩ (by decide) resumeFiles r hr keptChanged keptUnchanged tornEntry tornEntry
    tornPart [] h1 h2 t1 t2 resumeFiles_recorded ⟨0, 0, 2⟩ (by decide) false .file (bytes "attr") (bytes "/e")
    (bytes "3:abc") (Or.inr ⟨by rw [dataPaths.2.2]; rfl, by rw [dataPaths.2.2]; exact Nat.le_refl _⟩)).2

/-- The files are those of a backup that has been interrupted: the hypotheses of `C108_complete_partial` are
met. -/
example : (∀ c p, exResumeWalk.dec c p ≠ .doneDeleted) ∧ SortedBy exResumeWalk.key exScan ∧
    SortedBy exResumeWalk.key exPrev ∧ NoClash exResumeWalk.key (exScan ++ exPrev) ∧
    Lists exResumeWalk exScan resumeFiles.scan ∧ ListsPrev exResumeWalk (some exPrev) resumeFiles.prev ∧
    Stopped exResumeWalk (fun _ => false) (fun _ => true) noStat 30000 exScan (some exPrev) resumeFiles.scan
      resumeFiles.prev resumeFiles.changed resumeFiles.unchanged := by
  obtain ⟨h1, h2, h3, h4, h5⟩ := resumeEntries_ok
  obtain ⟨t1, t2⟩ := tornFiles
  refine ⟨fun c p => deltaStuff_ne _ _ c p, by decide +kernel, by decide +kernel, by decide +kernel, ?_, ?_, ?_⟩
  · refine ⟨exScan.zip resumeScan, by decide +kernel, ?_, ?_⟩
    · show readEntries (resumeScan.map encEntry).flatten = _
      rw [block_read (block_entries h3)]
      rfl
    · intro p hp
      refine ⟨h3 _ (List.of_mem_zip hp).2, ?_⟩
      revert p
      decide +kernel
  · refine ⟨exPrev.zip resumePrev, by decide +kernel, ?_, ?_⟩
    · rw [block_read (block_entries h4)]
      rfl
    · intro p hp
      refine ⟨h4 _ (List.of_mem_zip hp).2, ?_⟩
      revert p
      decide +kernel
  · refine Stopped.first (n := 3) (ch := [.new (exEnt .file "/d/c" 1)])
      (un := [.changed (exEnt .directory "/d" 2) (exEnt .directory "/d" 1),
        .unchanged (exEnt .file "/d/a" 1) (exEnt .file "/d/a" 1)])
      (es := keptChanged) (us := keptUnchanged) ?_ ?_ ?_ ⟨_, _, t1⟩ ⟨_, _, t2⟩
    · constructor <;> decide +kernel
    · refine ⟨[_].zip keptChanged, rfl, rfl, ?_⟩
      intro p hp
      refine ⟨h1 _ (List.of_mem_zip hp).2, ?_⟩
      revert p
      decide +kernel
    · refine ⟨[_, _].zip keptUnchanged, rfl, rfl, ?_⟩
      intro p hp
      refine ⟨h2 _ (List.of_mem_zip hp).2, ?_⟩
      revert p
      decide +kernel

/-- A file of counters with one row, and of the next one nothing but the letter: the hypotheses of
`C108_counters` are met. -/
example : TornRows [⟨.new, (.file, some (bytes "/d/c"))⟩]
      ((rowEnc (rawRow ⟨.new, (.file, some (bytes "/d/c"))⟩)) ++ [letter .changed]) ∧
    RowOk ⟨.new, (.file, some (bytes "/d/c"))⟩ := by
  have h1 : RowOk ⟨.new, (.file, some (bytes "/d/c"))⟩ := ⟨_, rfl, by decide, by unfold Fits; decide⟩
  have h2 : RowOk ⟨.changed, (.file, some (bytes "/e"))⟩ := ⟨_, rfl, by decide, by unfold Fits; decide⟩
  refine ⟨⟨_, _, _, ⟨.changed, (.file, some (bytes "/e"))⟩, ?_, h2, writeRow_ok [] _ (rawRow_ok h2), ?_, ?_, rfl⟩, h1⟩
  · rw [writeRows_ok (by intro x hx; simp only [List.map_cons, List.map_nil, List.mem_singleton] at hx; rw [hx]; exact rawRow_ok h1)]
    simp
  · exact ⟨enc (rawRow ⟨.changed, (.file, some (bytes "/e"))⟩).2, rfl⟩
  · simp [rowEnc, rawRow, enc]

end Verif
