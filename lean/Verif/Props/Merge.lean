import Verif.Lemmas.Merge
import Verif.Lemmas.Jiggle
import Verif.Props.Jiggle

/-!
# C17, C18: merging manifests

`SortedBy`, `WeaklySortedBy`, `NoClash` and `Closed` are in `Verif/Spec/Merge.lean`.
-/

namespace Verif
open Verif.PathCmp Verif.Iobuf Verif.Manifest Verif.History Verif.Jiggle

variable {E : Type}

/-! ### C17 -/

/-- C17: for all lists, sorted or not, the manifest has every entry of both as often as they have it,
and no other. -/
theorem C17_merge_loses_nothing (key : E → Cmd × Option Str) (unchanged changed : List E) :
    (phase3 key unchanged changed).Perm (unchanged ++ changed) :=
  phase3_perm key unchanged changed

/-- C17: sorted lists give a sorted manifest. -/
theorem C17_merge_sorted (key : E → Cmd × Option Str) (unchanged changed : List E)
    (hn : NoClash key (unchanged ++ changed))
    (hu : WeaklySortedBy key unchanged) (hc : WeaklySortedBy key changed) :
    WeaklySortedBy key (phase3 key unchanged changed) := by
  refine phase3_pairwise key _ unchanged changed hu hc hn (fun _ _ _ _ h => Or.inl h) ?_ hu hc
  rintro u _ c _ (h | h)
  · exact Or.inl h
  · exact Or.inr h.symm

/-- C17: when no path is in both lists, every path is in the manifest once. What is missing: with a
path in both lists, the manifest has it twice (`C17_equal_paths_violated`). -/
theorem C17_each_path_once_partial (key : E → Cmd × Option Str) (unchanged changed : List E)
    (hn : NoClash key (unchanged ++ changed))
    (hu : SortedBy key unchanged) (hc : SortedBy key changed)
    (hd : ∀ u ∈ unchanged, ∀ c ∈ changed, ¬ SameKey (key u) (key c)) :
    SortedBy key (phase3 key unchanged changed) := by
  refine phase3_pairwise key _ unchanged changed hu hc hn (fun _ _ _ _ h => h) ?_
    (hu.imp Or.inl) (hc.imp Or.inl)
  rintro u hu c hc (h | h)
  · exact h
  · exact absurd h (hd u hu c hc)

/-- Entries for the examples: a kind, a path and what else the entry says. -/
def exKey (e : Cmd × String × Nat) : Cmd × Option Str := (e.1, some (bytes e.2.1))

/-- With a path in both lists the changed entry comes first and the unchanged one stays too. -/
theorem C17_equal_paths_violated :
    ∃ unchanged changed : List (Cmd × String × Nat),
      SortedBy exKey unchanged ∧ SortedBy exKey changed ∧
      phase3 exKey unchanged changed = [(.file, "/a", 1), (.file, "/a", 0)] := by
  refine ⟨[(.file, "/a", 0)], [(.file, "/a", 1)], by simp [SortedBy], by simp [SortedBy], ?_⟩
  have h : pcmp exKey (Cmd.file, "/a", 0) (.file, "/a", 1) = 0 := by decide
  simp [phase3, h]

/-- The hypotheses are met, and the entries interleave. -/
example : ∃ unchanged changed : List (Cmd × String × Nat),
    NoClash exKey (unchanged ++ changed) ∧ SortedBy exKey unchanged ∧ SortedBy exKey changed ∧
    (∀ u ∈ unchanged, ∀ c ∈ changed, ¬ SameKey (exKey u) (exKey c)) ∧
    phase3 exKey unchanged changed =
      [(.directory, "/a", 0), (.file, "/a/b", 1), (.file, "/a.b", 0), (.file, "/b", 1)] := by
  refine ⟨[(.directory, "/a", 0), (.file, "/a.b", 0)], [(.file, "/a/b", 1), (.file, "/b", 1)],
    by decide, by decide, by decide, by decide, ?_⟩
  · have h1 : pcmp exKey (Cmd.directory, "/a", 0) (.file, "/a/b", 1) = -1 := by decide
    have h2 : pcmp exKey (Cmd.file, "/a.b", 0) (.file, "/a/b", 1) = 1 := by decide
    have h3 : pcmp exKey (Cmd.file, "/a.b", 0) (.file, "/b", 1) = -1 := by decide
    simp [phase3, h1, h2, h3]

/-! ### C18 -/

open Classical in
/-- C18: from a sorted manifest exactly the entries named in the list of deletions are removed, and
the others stay in order. The list of deletions need not be sorted: it is enough that what is smaller
has been mentioned before (`Closed`). -/
theorem C18_exactly_deletions_removed (key : E → Cmd × Option Str) (manifest deletions : List E)
    (hn : NoClash key (manifest ++ deletions)) (hs : SortedBy key manifest)
    (hc : Closed key deletions) :
    performDeletions key manifest deletions =
      manifest.filter (fun m => decide (¬ ∃ d ∈ deletions, SameKey (key m) (key d))) :=
  performDeletions_eq key deletions hc manifest deletions [] hs hn (by simp) (by simp)

theorem SortedBy.closed {key : E → Cmd × Option Str} {ds : List E} (h : SortedBy key ds) :
    Closed key ds :=
  (closed_logged h (by simpa using Logged.more Logged.nil (List.prefix_refl ds))).1

/-- A forward delta that does not apply to the previous version. -/
def Failed {C D S : Type} (L : Librsync C D S) (s : Slot C D) : Prop :=
  s.fin = none ∧ ∃ a d, s.old = some a ∧ s.fwd = some d ∧ L.patch a d = none

theorem fails_iff {C D S : Type} {L : Librsync C D S} {s : Slot C D} :
    (fails L s = true ∧ s.fin = none) ↔ Failed L s := by
  unfold fails Failed
  constructor
  · rintro ⟨h, hf⟩
    refine ⟨hf, ?_⟩
    cases h1 : s.fwd with
    | none => simp [h1] at h
    | some fd =>
      cases h2 : s.old with
      | none => simp [h1, h2] at h
      | some a => exact ⟨a, fd, rfl, rfl, by simpa [h1, h2] using h⟩
  · rintro ⟨hf, a, d, h1, h2, h3⟩
    simp [h1, h2, h3, hf]

open Classical in
/-- C18 with the deletions file that phase 4 makes: after any number of power cuts, and although
every run appends to the file what earlier runs had appended already, exactly the entries whose file
could not be made are removed from the manifest. `whole` is the manifest, `man` the part of it with
stored data. -/
theorem C18_failures_removed {C D S K : Type} {L : Librsync C D S} {hard cw : Bool}
    {comp : Str → Bool} {man : List (K × Str)} {ini st : Str → Slot C D} {ks : List K}
    {fs0 fs : FS C D S K} {key : K → Cmd × Option Str} {whole : List K}
    (h0 : Initial ini fs0)
    (hnd : (man.map Prod.snd).Nodup) (hnk : (man.map Prod.fst).Nodup)
    (hrun : History.jiggleAll L hard man ini = some (st, ks))
    (hc : ∀ e ∈ man, (ini e.2).fwd ≠ none → comp e.2 = cw)
    (h : Crashed (fun _ _ => false) (Jiggle.jiggleAll L hard comp man) fs0 fs)
    (hn : NoClash key whole) (hs : SortedBy key whole) (hsub : (man.map Prod.fst).Sublist whole) :
    performDeletions key whole
        ((Jiggle.jiggleAll L hard comp man).run (fun _ _ => false) fs).2.1.dels =
      whole.filter (fun k => decide (¬ ∃ d, (k, d) ∈ man ∧ Failed L (ini d))) := by
  obtain ⟨_, hspec⟩ := jiggleAll_spec hnd hnk hrun
  have hj : ∀ e ∈ man, History.jiggle L hard (ini e.2) ≠ none := by
    intro e he
    obtain ⟨del, h1, _⟩ := hspec e.1 e.2 he
    rw [h1]; exact fun h => by cases h
  obtain ⟨hl, he⟩ := crashed_log h0 hnd hj hc h
  have hfs : (failing L ini man).Sublist whole := by
    refine List.Sublist.trans ?_ hsub
    exact (List.filter_sublist).map _
  have hsort : SortedBy key (failing L ini man) := hs.sublist hfs
  have hlog : Logged (failing L ini man) (fs.dels ++ failing L ini man) :=
    .more hl (List.prefix_refl _)
  obtain ⟨hcl, hmem⟩ := closed_logged hsort hlog
  have he' : ((Jiggle.jiggleAll L hard comp man).run (fun _ _ => false) fs).2.1.dels =
      fs.dels ++ failing L ini man := he
  rw [he']
  rw [C18_exactly_deletions_removed key whole _ (hn.sub ?_) hs hcl]
  · apply List.filter_congr
    intro k hk
    have hF : ∀ x, x ∈ fs.dels ++ failing L ini man ↔ x ∈ failing L ini man :=
      fun x => ⟨hmem x, fun hx => List.mem_append_right _ hx⟩
    have hfail : ∀ x, x ∈ failing L ini man ↔ ∃ d, (x, d) ∈ man ∧ Failed L (ini d) := by
      intro x
      unfold failing
      simp only [List.mem_map, List.mem_filter]
      constructor
      · rintro ⟨⟨x', d⟩, ⟨hm, hf⟩, rfl⟩
        refine ⟨d, hm, ?_⟩
        exact fails_iff.1 ⟨hf, (h0.1 d).2.2.2.2.2.2.1⟩
      · rintro ⟨d, hm, hf⟩
        exact ⟨(x, d), ⟨hm, (fails_iff.2 hf).1⟩, rfl⟩
    congr 1
    rw [← hfail]
    simp only [hF]
    refine propext (not_congr ?_)
    constructor
    · rintro ⟨d, hd, hsame⟩
      have hd' := hfs.subset hd
      have : k = d := by
        obtain ⟨i, hi, rfl⟩ := List.mem_iff_getElem.1 hk
        obtain ⟨j, hj', rfl⟩ := List.mem_iff_getElem.1 hd'
        unfold SortedBy at hs
        rw [List.pairwise_iff_getElem] at hs
        rcases Nat.lt_trichotomy i j with hij | hij | hij
        · exact absurd hsame (hs i j hi hj' hij).not_same
        · subst hij; rfl
        · exact absurd hsame.symm (hs j i hj' hi hij).not_same
      rw [this]; exact hd
    · intro hk'
      exact ⟨k, hk', rfl, rfl⟩
  · intro x hx
    rcases List.mem_append.1 hx with hx | hx
    · exact hx
    · exact hfs.subset (hmem x hx)

/-- Two entries of which the second fails: its delta does not apply. -/
def failSlots (d : Str) : Slot Nat Nat :=
  if d = bytes "t/a" then { old := some 1, fwd := some 2 }
  else if d = bytes "t/b" then { old := some 1, fwd := some 0 }
  else {}

/-- A `librsync` whose delta 0 never applies. -/
def pickyRsync : Librsync Nat Nat Nat where
  sig c := c
  delta _ c := c + 1
  patch _ d := if d = 0 then none else some (d - 1)

def failKey (k : Nat) : Cmd × Option Str :=
  if k = 0 then (.directory, some (bytes "/")) else if k = 1 then (.file, some (bytes "/a"))
  else (.file, some (bytes "/b"))

/-- The hypotheses are met by a manifest with a directory and two files, one of which fails. -/
example : NoClash failKey [0, 1, 2] ∧ SortedBy failKey [0, 1, 2] ∧
    ([(1, bytes "t/a"), (2, bytes "t/b")].map Prod.fst).Sublist [0, 1, 2] ∧
    ¬ Failed pickyRsync (failSlots (bytes "t/a")) ∧ Failed pickyRsync (failSlots (bytes "t/b")) ∧
    ∃ st, History.jiggleAll pickyRsync false [(1, bytes "t/a"), (2, bytes "t/b")] failSlots =
      some (st, [2]) := by
  refine ⟨by decide, by decide, by decide, ?_, ?_, _, rfl⟩
  · intro h
    obtain ⟨h1, _⟩ := fails_iff.2 h
    exact absurd h1 (by decide)
  · exact fails_iff.1 (by decide)

/-- A deletions file as two interrupted runs leave it: not sorted, and yet `Closed`. -/
example : Closed failKey [1, 1, 2] ∧ ¬ SortedBy failKey [1, 1, 2] :=
  ⟨(closed_logged (F := [1, 2]) (by decide)
    (.more (.more .nil (List.prefix_append [1] [2])) (List.prefix_refl [1, 2]))).1, by decide⟩

end Verif
