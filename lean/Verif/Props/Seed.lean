import Verif.Spec.Seed
import Verif.Spec.Dpth
import Verif.Model.Dpth
import Verif.Lemmas.PathCmp
import Verif.Lemmas.Dpth
import Verif.Lemmas.Merge
import Verif.Props.Prepend
import Verif.Props.PathCmp

/-!
# C59: seeded paths
-/

namespace Verif
open Verif.PathCmp Verif.Sbuf Verif.Seed Verif.Iobuf

theorem inTree_prefix {src p y : Str} (h : InTree src p y) :
    ∃ t, p = src ++ t ∧ skipSlash t = y := by
  rcases h with ⟨rfl, rfl⟩ | ⟨_, rfl, _⟩ | ⟨rfl, rfl, hy, hh⟩
  · exact ⟨[], by simp, rfl⟩
  · exact ⟨slash :: y, rfl, by simp [skipSlash, deref]⟩
  · refine ⟨y, rfl, ?_⟩
    cases y with
    | nil => rfl
    | cons c cs => simp [skipSlash, deref] at hh ⊢; intro h; exact absurd h hh

theorem inTree_components {src p y : Str} (h : InTree src p y) :
    components p = components src ++ components y := by
  rcases h with ⟨rfl, rfl⟩ | ⟨_, rfl, _⟩ | ⟨rfl, rfl, hy, hh⟩
  · simp [components_nil]
  · exact components_append _ _
  · rw [components_slash]; rfl

theorem after_append (s t : Str) : after (s ++ t) s.length = some t := by
  simp [after]

/-- C59: everything in the source directory is written to the manifest as the same thing in the destination
directory. -/
theorem C59_path (src dst p y : Str) (h : InTree src p y) :
    seedPath src dst p = some (dst ++ slash :: y) := by
  obtain ⟨t, rfl, ht⟩ := inTree_prefix h
  simp [seedPath, after_append, ht]

/-- C59: in terms of names. -/
theorem C59_relocated (src dst p y : Str) (h : InTree src p y) :
    ∃ q, seedPath src dst p = some q ∧ Relocated src dst p q :=
  ⟨_, C59_path src dst p y h, components y, inTree_components h, components_append _ _⟩

/-- C59: nothing changes its place in the order of the manifest, so different entries stay different and a
sorted manifest stays sorted. -/
theorem C59_order (src dst p q y z : Str) (hp : InTree src p y) (hq : InTree src q z) :
    ∃ p' q', seedPath src dst p = some p' ∧ seedPath src dst q = some q' ∧ pathcmp p' q' = pathcmp p q := by
  refine ⟨_, _, C59_path src dst p y hp, C59_path src dst q z hq, ?_⟩
  rw [pathcmp_append_left, pathcmp_cons]
  rcases hp with ⟨rfl, rfl⟩ | ⟨h1, rfl, hy⟩ | ⟨rfl, rfl, hy, _⟩ <;>
    rcases hq with ⟨h, rfl⟩ | ⟨h2, h, hz⟩ | ⟨h2, h, hz, _⟩
  · subst h; simp [pathcmp_self]
  · subst h
    obtain ⟨c, cs, rfl⟩ := List.exists_cons_of_ne_nil hz
    conv => rhs; rw [← List.append_nil p, List.append_assoc, pathcmp_append_left]
    simp [pathcmp]
  · subst h2 h
    obtain ⟨c, cs, rfl⟩ := List.exists_cons_of_ne_nil hz
    simp [pathcmp]
  · subst h
    obtain ⟨c, cs, rfl⟩ := List.exists_cons_of_ne_nil hy
    conv => rhs; rw [← List.append_nil q, List.append_assoc, pathcmp_append_left]
    simp [pathcmp]
  · subst h
    rw [pathcmp_append_left, pathcmp_cons]
  · exact absurd h2 h1
  · subst h
    obtain ⟨c, cs, rfl⟩ := List.exists_cons_of_ne_nil hy
    simp [pathcmp]
  · exact absurd rfl h2
  · subst h
    rw [pathcmp_cons]

example : InTree (bytes "/mnt/copy") (bytes "/mnt/copy/home/x") (bytes "home/x") ∧
    InTree (bytes "/") (bytes "/home") (bytes "home") ∧
    seedPath (bytes "/mnt/copy") (bytes "/srv") (bytes "/mnt/copy/home/x") = some (bytes "/srv/home/x") := by
  unfold InTree
  decide

theorem components_t (x : Str) : components (bytes "t/" ++ x) = bytes "t" :: components x := by
  have : bytes "t/" ++ x = bytes "t" ++ slash :: x := rfl
  rw [this, components_append]
  rfl

theorem components_t_slash (x : Str) : components (bytes "t" ++ slash :: x) = bytes "t" :: components x :=
  components_t x

/-- C59: for a file that is kept in a tree like the client's, the data path that is written is where the data
are after the directory has been renamed. -/
theorem C59_data (src dst p y : Str) (h : InTree src p y) (hs : src.head? = some slash) (hr : p ≠ [slash]) :
    (∃ rest, treeDatapth p = (moveSeed src dst).1 ++ rest) ∧
    ∃ d', seedData src dst (treeDatapth p) = some d' ∧
      Relocated (moveSeed src dst).1 (moveSeed src dst).2 (treeDatapth p) d' ∧
      Relocated (bytes "t/" ++ src) (bytes "t/" ++ dst) (treeDatapth p) d' := by
  obtain ⟨t, hp, ht⟩ := inTree_prefix h
  obtain ⟨s, hs⟩ : ∃ s, src = slash :: s := by
    cases src with
    | nil => simp at hs
    | cons c cs => exact ⟨cs, by simp at hs; rw [hs]⟩
  have hcomp := inTree_components h
  have e : treeDatapth p = treeDir ++ p := by
    rw [hp, hs] at hr ⊢
    cases hst : s ++ t with
    | nil => simp [hst] at hr
    | cons c cs =>
      simp [treeDatapth, Prepend.prependS, Prepend.prependSlash, treeDir, bytes, Prepend.prependN,
        Prepend.prependLen, hst]
  have htc : components (treeDir ++ p) = bytes "t" :: components p := by
    rw [hp, hs]
    show components (bytes "t" ++ slash :: (s ++ t)) = _
    rw [components_t_slash, List.cons_append, components_slash]
  have hsrc : components (treeDir ++ src) = bytes "t" :: components src := by
    rw [hs]
    show components (bytes "t" ++ slash :: s) = _
    rw [components_t_slash, components_slash]
  have hdst (x : Str) : components (treeDir ++ (if deref dst ≠ slash then [slash] else []) ++ dst ++ x) =
      bytes "t" :: components (dst ++ x) := by
    by_cases hd : deref dst = slash
    · obtain ⟨d, rfl⟩ : ∃ d, dst = slash :: d := by
        cases dst with
        | nil => exact absurd hd (by decide)
        | cons c cs => exact ⟨cs, by simp [deref] at hd; rw [hd]⟩
      simp only [hd, ne_eq, not_true_eq_false, if_false, List.append_nil]
      show components (bytes "t" ++ slash :: (d ++ x)) = _
      rw [components_t_slash, List.cons_append, components_slash]
    · simp only [hd, ne_eq, not_false_eq_true, if_true]
      show components (bytes "t" ++ slash :: (dst ++ x)) = _
      rw [components_t_slash]
  rw [e]
  refine ⟨⟨t, by simp [moveSeed, hp]⟩,
    treeDir ++ (if deref dst ≠ slash then [slash] else []) ++ dst ++ [slash] ++ y, ?_,
    ⟨components y, ?_, ?_⟩, ⟨components y, ?_, ?_⟩⟩
  · have : treeDir.isPrefixOf (treeDir ++ p) = true := by simp
    have ha : after (treeDir ++ (src ++ t)) (treeDir.length + src.length) = some t := by
      rw [← List.append_assoc, ← List.length_append, after_append]
    rw [seedData, if_neg (by rw [this]; decide), hp, ha, Option.map_some, ht]
  · simp only [moveSeed]; rw [htc, hsrc, hcomp]; rfl
  · have := hdst []
    simp only [List.append_nil] at this
    simp only [moveSeed]
    rw [this, List.append_assoc, hdst]
    show _ :: components (dst ++ slash :: y) = _
    rw [components_append]; rfl
  · rw [components_t, htc, hcomp]; rfl
  · rw [components_t, List.append_assoc, hdst]
    show _ :: components (dst ++ slash :: y) = _
    rw [components_append]; rfl

theorem seedData_other (src dst d : Str) (h : d.head? ≠ some 116) : seedData src dst d = some d := by
  have : treeDir.isPrefixOf d = false := by
    cases d with
    | nil => rfl
    | cons c cs =>
      have hc : c ≠ 116 := by intro e; exact h (by simp [e])
      have : (116 : Byte) ≠ c := fun e => hc e.symm
      simp [treeDir, bytes, List.isPrefixOf, this]
  rw [seedData, if_pos this]

theorem hexDigit_not_t (n : Nat) : Iobuf.hexDigit n ≠ 116 := by
  intro h
  have := (hexDigit_facts n).1
  rw [h] at this
  revert this
  have : Iobuf.hexVal 116 = none := by decide
  rw [this]; simp

/-- C59: the path of data that are stored by number does not change. -/
theorem C59_numbered (src dst : Str) (d : Dpth.Dpth) (h : d.a < 65536) (gz : Bool) :
    seedData src dst (Dpth.dpthMk d gz) = some (Dpth.dpthMk d gz) := by
  apply seedData_other
  rw [Dpth.dpthMk, hex04_small h]
  simp [hexDigit_not_t]

/-- One entry. -/
theorem copyEntry_moved (src dst : Str) (e : Sbuf) (hs : src.head? = some slash)
    (hp : ∃ p y, e.path = some p ∧ InTree src p.buf y ∧ (e.datapth ≠ none → p.buf ≠ [slash]))
    (hd : GoodData e) : ∃ e', copyEntry (some (src, dst)) e = some e' ∧ Moved src dst e e' ∧
      e'.link = e.link ∧
      ∃ p p' y, e.path = some p ∧ InTree src p.buf y ∧ e'.path = some p' ∧ p'.cmd = p.cmd ∧
        seedPath src dst p.buf = some p'.buf := by
  obtain ⟨p, y, hp, hy, hr⟩ := hp
  have h1 := C59_path src dst p.buf y hy
  have hrel : Relocated src dst p.buf (dst ++ slash :: y) :=
    ⟨components y, inTree_components hy, components_append _ _⟩
  cases hdp : e.datapth with
  | none =>
    refine ⟨{ e with path := some { p with buf := dst ++ slash :: y } }, ?_,
      ⟨⟨p, _, hp, rfl, rfl, hrel⟩, rfl, rfl, .inl ⟨rfl, by simp [hdp]⟩⟩, rfl, p, _, y, hp, hy, rfl, rfl, h1⟩
    simp [copyEntry, hp, h1, hdp]
  | some d =>
    rcases hd d hdp with h2 | ⟨p2, hp2, rfl⟩
    · refine ⟨{ e with path := some { p with buf := dst ++ slash :: y } }, ?_,
        ⟨⟨p, _, hp, rfl, rfl, hrel⟩, rfl, rfl, .inl ⟨rfl, ?_⟩⟩, rfl, p, _, y, hp, hy, rfl, rfl, h1⟩
      · simp [copyEntry, hp, h1, hdp, seedData_other src dst d h2]
      · intro d' h3; rw [hdp] at h3; cases h3; exact h2
    · rw [hp] at hp2; cases hp2
      obtain ⟨_, d', hd', _, hrel'⟩ := C59_data src dst p.buf y hy hs (hr (by simp [hdp]))
      refine ⟨{ e with path := some { p with buf := dst ++ slash :: y }, datapth := some d' }, ?_,
        ⟨⟨p, _, hp, rfl, rfl, hrel⟩, rfl, rfl, .inr ⟨_, d', hdp, rfl, hrel'⟩⟩, rfl, p, _, y, hp, hy, rfl,
          rfl, h1⟩
      simp [copyEntry, hp, h1, hdp, hd']

theorem mapM_moved (src dst : Str) (hs : src.head? = some slash) : ∀ (l : List Sbuf),
    (∀ e ∈ l, GoodData e ∧ ∃ p y, e.path = some p ∧ InTree src p.buf y ∧ (e.datapth ≠ none → p.buf ≠ [slash])) →
    ∃ l', l.mapM (copyEntry (some (src, dst))) = some l' ∧ l'.length = l.length ∧
      (∀ x ∈ l.zip l', Moved src dst x.1 x.2) ∧ (∀ e' ∈ l', ∃ e ∈ l, copyEntry (some (src, dst)) e = some e') ∧
      (SortedBy sbKey l → SortedBy sbKey l')
  | [], _ => ⟨[], rfl, rfl, by simp, by simp, fun h => h⟩
  | e :: l, h => by
    obtain ⟨l', h1, h2, h3, h4, h5⟩ := mapM_moved src dst hs l (fun x hx => h x (by simp [hx]))
    obtain ⟨hd, hp⟩ := h e (by simp)
    obtain ⟨e', g1, g2, _, p, p', y, g3, g4, g5, g6, g7⟩ := copyEntry_moved src dst e hs hp hd
    refine ⟨e' :: l', by simp [List.mapM_cons, g1, h1], by simp [h2], ?_, ?_, ?_⟩
    · intro x hx
      rcases List.mem_cons.1 hx with rfl | hx
      · exact g2
      · exact h3 x hx
    · intro x hx
      rcases List.mem_cons.1 hx with rfl | hx
      · exact ⟨e, by simp, g1⟩
      · obtain ⟨a, ha, hb⟩ := h4 x hx; exact ⟨a, by simp [ha], hb⟩
    · intro hsort
      unfold SortedBy at hsort ⊢
      rw [List.pairwise_cons] at hsort ⊢
      refine ⟨?_, h5 hsort.2⟩
      intro x hx
      obtain ⟨f, hf, hfx⟩ := h4 x hx
      have hlt := hsort.1 f hf
      obtain ⟨hdf, hpf⟩ := h f (by simp [hf])
      obtain ⟨f', k1, k2, _, q, q', z, k3, k4, k5, k6, k7⟩ := copyEntry_moved src dst f hs hpf hdf
      rw [hfx] at k1; cases k1
      obtain ⟨u, v, m1, m2, m3⟩ := C59_order src dst p.buf q.buf y z g4 k4
      rw [g7] at m1; rw [k7] at m2; cases m1; cases m2
      have ke : sbKey e = (((Cmd.ofByte p.cmd).getD .error), some p.buf) := by simp [sbKey, pathCmd, g3]
      have ke' : sbKey e' = (((Cmd.ofByte p.cmd).getD .error), some p'.buf) := by
        simp [sbKey, pathCmd, g5, g6]
      have kf : sbKey f = (((Cmd.ofByte q.cmd).getD .error), some q.buf) := by simp [sbKey, pathCmd, k3]
      have kf' : sbKey x = (((Cmd.ofByte q.cmd).getD .error), some q'.buf) := by
        simp [sbKey, pathCmd, k5, k6]
      rw [ke, kf] at hlt
      rw [ke', kf']
      unfold EntryLt at hlt ⊢
      simp only [pathcmpP] at hlt ⊢
      rcases hlt with hlt | ⟨he, hg⟩
      · left; rw [m3]; exact hlt
      · right
        refine ⟨?_, hg⟩
        have : pathcmp p'.buf q'.buf = 0 := by
          rw [m3]; injection he with he; rw [he]; exact pathcmp_self _
        rw [pathcmp_eq_zero.1 this]

/-- C59: when everything that was backed up is in the source directory, the final manifest is the merged one
with each path, and the path of its data, moved to the destination, in the same order. What is missing: the
targets of hard links, and a check that there is nothing else (see below). -/
theorem C59_manifest_partial (src dst : Str) (us cs : List Sbuf) (hs : src.head? = some slash)
    (h : ∀ e, e ∈ us ∨ e ∈ cs → GoodData e ∧
      ∃ p y, e.path = some p ∧ InTree src p.buf y ∧ (e.datapth ≠ none → p.buf ≠ [slash])) :
    ∃ l', phase3Seed (some (src, dst)) us cs = some l' ∧
      l'.length = (Manifest.phase3 sbKey us cs).length ∧
      (∀ x ∈ (Manifest.phase3 sbKey us cs).zip l', Moved src dst x.1 x.2) ∧
      (SortedBy sbKey (Manifest.phase3 sbKey us cs) → SortedBy sbKey l') := by
  have hm : ∀ e ∈ Manifest.phase3 sbKey us cs, e ∈ us ∨ e ∈ cs := fun e he => phase3_mem.1 he
  obtain ⟨l', h1, h2, h3, _, h5⟩ := mapM_moved src dst hs _ (fun e he => h e (hm e he))
  exact ⟨l', h1, h2, h3, h5⟩

/-- C59: without seeding nothing changes. -/
theorem C59_not_seeded (us cs : List Sbuf) : phase3Seed none us cs = some (Manifest.phase3 sbKey us cs) := by
  have : ∀ l : List Sbuf, l.mapM (copyEntry none) = some l := by
    intro l
    induction l with
    | nil => rfl
    | cons e l ih => simp [List.mapM_cons, copyEntry, ih]
  exact this _

/-- C59, violated: the target of a hard link is another file of the backup, and it is not moved, so what is
in the manifest is a link to a path that is not there. -/
theorem C59_hardlink_violated :
    phase3Seed (some (bytes "/mnt/copy", bytes "/srv")) []
      [{ datapth := some (bytes "0000/0000/0000"), attr := some [], path := some ⟨Cmd.file.toByte, bytes "/mnt/copy/a"⟩,
         endfile := some [] },
       { attr := some [], path := some ⟨Cmd.hardLink.toByte, bytes "/mnt/copy/b"⟩,
         link := some ⟨Cmd.hardLink.toByte, bytes "/mnt/copy/a"⟩ }] =
    some
      [{ datapth := some (bytes "0000/0000/0000"), attr := some [], path := some ⟨Cmd.file.toByte, bytes "/srv/a"⟩,
         endfile := some [] },
       { attr := some [], path := some ⟨Cmd.hardLink.toByte, bytes "/srv/b"⟩,
         link := some ⟨Cmd.hardLink.toByte, bytes "/mnt/copy/a"⟩ }] := by
  simp only [phase3Seed, Manifest.phase3]
  decide

/-- C59, violated: the server does not look whether a path is in the source directory. A path beside it is
cut as if it were (only the client's own check of its starting directories is in the way), and a shorter one
is read beyond its end. -/
theorem C59_outside_violated :
    seedPath (bytes "/mnt/copy") (bytes "/srv") (bytes "/mnt/other/a") = some (bytes "/srv/r/a") ∧
    seedPath (bytes "/mnt/copy") (bytes "/srv") (bytes "/mnt") = none ∧
    checkStartDirs (some (bytes "/mnt/copy")) [bytes "/mnt/other"] = false ∧
    checkStartDirs (some (bytes "/mnt/copy")) [bytes "/mnt"] = false := by
  decide

/-- C59: the client refuses starting directories that are not in the source. -/
theorem C59_start_dirs (src : Str) (start : List Str) (hs : NoNul src) (hn : ∀ s ∈ start, NoNul s) :
    checkStartDirs (some src) start = true ↔
      ∀ s ∈ start, Under src s ∨ (src.getLast? = some slash ∧ ∃ y, y ≠ [] ∧ s = src ++ y) := by
  simp only [checkStartDirs, List.all_eq_true, decide_eq_true_eq]
  constructor
  · intro h s hm; exact (C06_is_subdir_exact src s hs (hn s hm)).1 (h s hm)
  · intro h s hm; exact (C06_is_subdir_exact src s hs (hn s hm)).2 (h s hm)

theorem stripRev_spec : ∀ s : Str, ∃ n, s = List.replicate n slash ++ stripRev s ∧
    ((stripRev s).head? ≠ some slash ∨ stripRev s = [slash])
  | [] => ⟨0, rfl, .inl (by simp [stripRev])⟩
  | [c] => ⟨0, rfl, by
      by_cases h : c = slash
      · right; rw [h]; rfl
      · left; simp [stripRev, h]⟩
  | c :: d :: r => by
    by_cases h : c = slash
    · obtain ⟨n, h1, h2⟩ := stripRev_spec (d :: r)
      refine ⟨n + 1, ?_, ?_⟩
      · rw [stripRev, if_pos h, List.replicate_succ, List.cons_append, ← h1, h]
      · rw [stripRev, if_pos h]; exact h2
    · exact ⟨0, by simp [stripRev, h], .inl (by simp [stripRev, h])⟩

/-- C59: what is taken as the source or the destination is an absolute path without `.` and `..`, with no
separator at its end, that names what was given. -/
theorem C59_setup (isSrc : Bool) (str s : Str) (h : setupSeed isSrc str = some s) :
    (s = [slash] ∨ s.getLast? ≠ some slash) ∧ components s = components str ∧
    (isSrc = true → s.head? = some slash) ∧ isAbsolute (stripTrailing str) = true := by
  have habs : isAbsolute (stripTrailing str) = true := by
    cases e : isAbsolute (stripTrailing str) with
    | true => rfl
    | false => simp [setupSeed, e] at h
  have hne : stripTrailing str ≠ [] := by
    intro e; rw [e] at habs; exact absurd habs (by decide)
  obtain ⟨n, h1, h2⟩ := stripRev_spec str.reverse
  have hstr : str = stripTrailing str ++ List.replicate n slash := by
    have := congrArg List.reverse h1
    simpa [stripTrailing] using this
  have hlast : stripTrailing str = [slash] ∨ (stripTrailing str).getLast? ≠ some slash := by
    rcases h2 with h2 | h2
    · right; simpa [stripTrailing, List.getLast?_reverse] using h2
    · left; simp [stripTrailing, h2]
  have hcomp : components (stripTrailing str) = components str := by
    conv => rhs; rw [hstr]
    clear h1 hstr
    induction n with
    | zero => simp
    | succ n ih =>
      rw [List.replicate_succ', ← List.append_assoc]
      rw [ih]
      have := components_append (stripTrailing str ++ List.replicate n slash) []
      rw [components_nil, List.append_nil] at this
      exact this.symm
  rw [setupSeed, if_neg (by simp [habs])] at h
  split at h
  · next hc =>
    cases h
    refine ⟨?_, ?_, fun _ => rfl, habs⟩
    · right
      rcases hlast with h | h
      · rw [h] at hc; exact absurd rfl hc.2
      · obtain ⟨c, cs, e⟩ := List.exists_cons_of_ne_nil hne
        rw [e] at h ⊢
        simpa using h
    · rw [components_slash, hcomp]
  · next hc =>
    cases h
    refine ⟨hlast, hcomp, ?_, habs⟩
    intro hi
    have : deref (stripTrailing str) = slash := by
      rcases Classical.em (deref (stripTrailing str) = slash) with h | h
      · exact h
      · exact absurd ⟨hi, h⟩ hc
    obtain ⟨c, cs, e⟩ := List.exists_cons_of_ne_nil hne
    rw [e] at this ⊢
    simp [deref] at this
    simp [this]

example : setupSeed true (bytes "/mnt/copy//") = some (bytes "/mnt/copy") ∧
    setupSeed true (bytes "C:/copy/") = some (bytes "/C:/copy") ∧ setupSeed false (bytes "C:/") = some (bytes "C:") ∧
    setupSeed true (bytes "mnt") = none ∧ setupSeed true (bytes "/mnt/../x") = none ∧
    setupSeed false (bytes "//") = some (bytes "/") := by decide

/-- C59: seeding needs both a source and a destination. -/
theorem C59_both (src dst : Option Str) : checkSeed src dst = true ↔ (src = none ↔ dst = none) := by
  cases src <;> cases dst <;> simp [checkSeed]

example : ∃ l', phase3Seed (some (bytes "/mnt/copy", bytes "/srv"))
      [{ datapth := some (bytes "t/mnt/copy/a"), attr := some [], path := some ⟨Cmd.file.toByte, bytes "/mnt/copy/a"⟩,
         endfile := some [] }]
      [{ attr := some [], path := some ⟨Cmd.directory.toByte, bytes "/mnt/copy"⟩ }] = some l' ∧
    l' = [{ attr := some [], path := some ⟨Cmd.directory.toByte, bytes "/srv/"⟩ },
      { datapth := some (bytes "t/srv/a"), attr := some [], path := some ⟨Cmd.file.toByte, bytes "/srv/a"⟩,
         endfile := some [] }] := by
  refine ⟨_, ?_, rfl⟩
  simp only [phase3Seed, Manifest.phase3]
  decide

end Verif
