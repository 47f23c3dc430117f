import Verif.Lemmas.Jiggle
import Verif.Props.History

/-!
# C27: finishing a backup is safe against power cuts

The full property: whatever interruptions there are, a complete run of phase 4 from the state they
leave succeeds, gives the new backup the contents that an uninterrupted run gives it, and leaves the
previous backups restorable. The code does not have it: see the three `_violated` theorems. What is
proved instead excludes their causes: the limit on hard links is not reached, and the entries
with deltas are either all compressed or all not compressed.
-/

namespace Verif
open Verif.History Verif.Jiggle

variable {C D S K : Type}

/-- After any number of power cuts at any points, a complete run succeeds; every file of the new
backup, and the list of entries that it drops, is what an uninterrupted run gives; and every restore
from the previous backup or an older one that worked before works now and gives the same. -/
theorem C27_rerun_completes_partial {L : Librsync C D S} (hL : L.Sound) {hard cw : Bool}
    {comp : Str → Bool} {man : List (K × Str)} {ini st : Str → Slot C D} {ks : List K}
    {fs0 fs : FS C D S K} (h0 : Initial ini fs0)
    (hnd : (man.map Prod.snd).Nodup) (hnk : (man.map Prod.fst).Nodup)
    (hrun : History.jiggleAll L hard man ini = some (st, ks))
    (hc : ∀ e ∈ man, (ini e.2).fwd ≠ none → comp e.2 = cw)
    (h : Crashed (fun _ _ => false) (Jiggle.jiggleAll L hard comp man) fs0 fs) :
    ∃ fs', ((Jiggle.jiggleAll L hard comp man).run (fun _ _ => false) fs).2 = (fs', .ok) ∧
      (∀ d, fs'.look (.fin d) = (st d).fin.map .whole) ∧
      (∀ k, k ∈ fs'.dels ↔ k ∈ ks) ∧
      (∀ d, Complete (fs'.look (.old d)) ∧ Complete (fs'.look (.rev d))) ∧
      (∀ (older : List (Backup C D K)) d c,
        restoreFile L (older ++ [previous ini]) d = .content c →
        restoreFile L (older ++ twoBackups fs') d = .content c) := by
  obtain ⟨hsub, hspec⟩ := jiggleAll_spec hnd hnk hrun
  have hj : ∀ e ∈ man, History.jiggle L hard (ini e.2) ≠ none := by
    intro e he
    obtain ⟨del, h1, _⟩ := hspec e.1 e.2 he
    rw [h1]; exact fun h => by cases h
  obtain ⟨r1, r2, r3⟩ := crashed_complete h0 hnd hj hc h
  let r := (Jiggle.jiggleAll L hard comp man).run few fs
  have key : ∀ k d, (k, d) ∈ man → ∃ del, del = fails L (ini d) ∧ (k ∈ ks ↔ del = true) ∧
      r.2.1.look (.fin d) = (st d).fin.map .whole ∧
      (r.2.1.look (.old d) = (ini d).old.map .whole ∧
        (r.2.1.look (.rev d) = none ∨ ∃ x, r.2.1.look (.rev d) = some (.delta x)) ∨
       ∃ a c, (ini d).old = some a ∧ r.2.1.look (.old d) = none ∧
        r.2.1.look (.fin d) = some (.whole c) ∧
        ((r.2.1.look (.rev d) = none ∧ c = a) ∨
          r.2.1.look (.rev d) = some (.delta (L.delta (L.sig c) a)))) := by
    intro k d he
    obtain ⟨del, h1, h2⟩ := hspec k d he
    have hd := r3 (k, d) he
    have hd' : fails L (ini d) = true ∨ r.2.1.look (.fin d) ≠ none := by
      unfold Done at hd
      split at hd
      · rename_i hf; exact Or.inl hf
      · exact Or.inr hd.1
    obtain ⟨a1, a2, a3⟩ := (r2.stage (k, d) he).done (h0.1 d).2.2.2.2.2.2.1 hd' h1
    exact ⟨del, a1, h2, a2, a3⟩
  have out : ∀ d, d ∉ man.map Prod.snd → ∀ n, n = .fin d ∨ n = .old d ∨ n = .rev d →
      r.2.1.look n = fs0.look n := by
    intro d hd n hn
    have hu := untouched hd
    apply r2.frame n
    · rcases hn with rfl | rfl | rfl <;> simp
    · rcases hn with rfl | rfl | rfl <;> simp
    · intro e he
      have := hu e he
      rcases hn with rfl | rfl | rfl <;> simp [touches, this.symm]
  refine ⟨r.2.1, Prod.ext rfl r1, ?_, ?_, ?_, ?_⟩
  · intro d
    by_cases hd : d ∈ man.map Prod.snd
    · obtain ⟨⟨k, d'⟩, he, rfl⟩ := List.mem_map.1 hd
      obtain ⟨_, _, _, h3, _⟩ := key k d' he
      exact h3
    · rw [out d hd _ (Or.inl rfl), jiggleAll_frame hrun d hd, (h0.1 d).1, (h0.1 d).2.2.2.2.2.2.1]
      rfl
  · intro k
    constructor
    · intro hk
      obtain ⟨d, he, hf⟩ := r2.dels k hk
      obtain ⟨del, h1, h2, _⟩ := key k d he
      exact h2.2 (h1.trans hf)
    · intro hk
      obtain ⟨⟨k', d⟩, he, rfl⟩ := List.mem_map.1 (hsub k hk)
      obtain ⟨del, h1, h2, _⟩ := key k' d he
      have hd := r3 (k', d) he
      have hf : fails L (ini d) = true := h1.symm.trans (h2.1 hk)
      unfold Done at hd
      rw [if_pos hf] at hd
      exact hd
  · intro d
    by_cases hd : d ∈ man.map Prod.snd
    · obtain ⟨⟨k, d'⟩, he, rfl⟩ := List.mem_map.1 hd
      obtain ⟨_, _, _, _, ⟨h4, h5 | ⟨x, h5⟩⟩ | ⟨a, c, h3, h4, _, ⟨h5, _⟩ | h5⟩⟩ := key k d' he <;>
        simp only [Complete, h4, h5] <;> cases (ini d').old <;> simp
    · rw [out d hd _ (Or.inr (Or.inl rfl)), out d hd _ (Or.inr (Or.inr rfl)), (h0.1 d).2.1,
        (h0.1 d).2.2.1]
      cases (ini d).old <;> simp [Complete]
  · intro older d c hres
    refine restoreFile_congr ?_ hres
    intro c hc
    have ho : (ini d).old = some c := by
      rw [restoreFile_cons, restoreFile_nil] at hc
      cases ho : (ini d).old with
      | none => simp [previous, ho] at hc
      | some a => simpa [previous, ho] using hc
    unfold twoBackups
    rw [restoreFile_cons]
    by_cases hd : d ∈ man.map Prod.snd
    · obtain ⟨⟨k, d'⟩, he, rfl⟩ := List.mem_map.1 hd
      simp only at ho hc ⊢
      obtain ⟨_, _, _, _, ⟨h4, _⟩ | ⟨a, c', h3, h4, h5, h6⟩⟩ := key k d' he
      · simp [h4, ho]
      · rw [ho] at h3
        cases h3
        rw [restoreFile_cons]
        simp only [h4, newData, h5]
        rcases h6 with ⟨h6, rfl⟩ | h6
        · simp [h6]
        · simp [h6, hL c' c]
    · have := out d hd _ (Or.inr (Or.inl rfl))
      rw [(h0.1 d).2.2.1, ho] at this
      simp [this]

/-- At no point does an interrupted run change the previous backup that is in use: the original of
the duplicate that phase 4 works on, or the hardlinked archive itself. -/
theorem C27_previous_untouched_partial {L : Librsync C D S} {hard cw : Bool}
    {comp : Str → Bool} {man : List (K × Str)} {ini st : Str → Slot C D} {ks : List K}
    {fs0 fs : FS C D S K} (h0 : Initial ini fs0)
    (hnd : (man.map Prod.snd).Nodup) (hnk : (man.map Prod.fst).Nodup)
    (hrun : History.jiggleAll L hard man ini = some (st, ks))
    (hc : ∀ e ∈ man, (ini e.2).fwd ≠ none → comp e.2 = cw)
    (h : Crashed (fun _ _ => false) (Jiggle.jiggleAll L hard comp man) fs0 fs) (d : Str) :
    fs.look (.cur d) = fs0.look (.cur d) ∧
    (hard = true → fs.look (.old d) = fs0.look (.old d)) := by
  obtain ⟨hsub, hspec⟩ := jiggleAll_spec hnd hnk hrun
  have hj : ∀ e ∈ man, History.jiggle L hard (ini e.2) ≠ none := by
    intro e he
    obtain ⟨del, h1, _⟩ := hspec e.1 e.2 he
    rw [h1]; exact fun h => by cases h
  obtain ⟨_, hi⟩ := crashed_inv h0 hnd hj hc h
  refine ⟨hi.frame (.cur d) (by simp) (by simp) (by intros; rfl), ?_⟩
  rintro rfl
  by_cases hd : d ∈ man.map Prod.snd
  · obtain ⟨⟨k, d'⟩, he, rfl⟩ := List.mem_map.1 hd
    rw [(h0.1 d').2.2.1]
    exact (hi.stage _ he).old_hard
  · apply hi.frame
    · simp
    · simp
    · intro e he
      have := untouched hd e he
      simp [touches, this.symm]

/-! ### Two changed files -/

def fA : Str := [65]
def fB : Str := [66]

/-- Two files that changed, for both of which the client sent a delta. -/
def twoChanged (d : Str) : Slot Int Int :=
  if d = fA then { old := some 10, fwd := some 5 }
  else if d = fB then { old := some 20, fwd := some 7 } else {}

/-- The duplicate of the previous backup shares its inodes. -/
def twoFS : FS Int Int Int Nat where
  names n := match n with
    | .cur d | .old d => if d = fA then some 0 else if d = fB then some 1 else none
    | .fwd d => if d = fA then some 2 else if d = fB then some 3 else none
    | _ => none
  files i := if i = 0 then .whole 10 else if i = 1 then .whole 20
    else if i = 2 then .delta 5 else .delta 7
  next := 4
  dels := []

def twoMan : List (Nat × Str) := [(0, fA), (1, fB)]

theorem twoFS_initial : Initial twoChanged twoFS := by
  refine ⟨?_, rfl, rfl, rfl, ?_, ?_⟩
  · intro d
    by_cases hA : d = fA
    · subst hA; simp [twoFS, FS.look, twoChanged]
    · by_cases hB : d = fB
      · subst hB; simp [twoFS, FS.look, twoChanged, hA]
      · simp [twoFS, FS.look, twoChanged, hA, hB]
  · intro n i hn
    cases n <;> simp only [twoFS] at hn ⊢ <;> first | (cases hn; done) | skip
    all_goals
      split at hn
      · cases hn; decide
      · split at hn
        · cases hn; decide
        · cases hn
  · intro d i n hn
    simp [twoFS] at hn

/-- An uninterrupted run of the specification. -/
theorem twoChanged_run (hard : Bool) : ∃ st, History.jiggleAll toy hard twoMan twoChanged = some (st, []) ∧
    (st fA).fin = some 15 ∧ (st fB).fin = some 27 := by
  cases hard <;> exact ⟨_, rfl, by decide, by decide⟩

/-- The hypotheses of the partial theorems are met: neither file is compressed, and the power is cut
after the third operation. -/
example : ∃ fs, Crashed (fun _ _ => false) (Jiggle.jiggleAll toy false (fun _ => false) twoMan) twoFS fs ∧
    fs.look (.tmp fA) = some (.whole 15) ∧
    (∀ e ∈ twoMan, (twoChanged e.2).fwd ≠ none → (fun _ => false) e.2 = false) ∧
    (twoMan.map Prod.snd).Nodup ∧ (twoMan.map Prod.fst).Nodup := by
  let p := Jiggle.jiggleAll toy false (fun _ => false) twoMan
  refine ⟨(p.run (fun _ _ => false) twoFS).1[2]'(by decide), .again .start ?_, by decide, by decide,
    by decide, by decide⟩
  exact List.getElem_mem _

/-- A complete run after the interruptions: the state it leaves and what it returns. -/
def rerun (many : FS Int Int Int Nat → Name → Bool) (p : Prog Int Int Int Nat)
    (fs : FS Int Int Int Nat) : FS Int Int Int Nat × Ret := (p.run many fs).2

/-- A first run is cut after the new version of an uncompressed file has been put in place and
before `deltas.forward/inflate` is removed. That is a hard link to the old version. The next run
skips this file and writes the old version of another, compressed, file into `inflate`, and so into
the old version of the first one: the previous backup of the first file now has the content of the
second, both in the duplicate and in the original. -/
theorem C27_mixed_compression_violated :
    Initial twoChanged twoFS ∧ ∃ (comp : Str → Bool) (fs : FS Int Int Int Nat),
      Crashed (fun _ _ => false) (Jiggle.jiggleAll toy false comp twoMan) twoFS fs ∧
      (rerun (fun _ _ => false) (Jiggle.jiggleAll toy false comp twoMan) fs).2 = .ok ∧
      restoreFile toy [(previous twoChanged : Backup Int Int Nat)] fA = .content 10 ∧
      restoreFile toy (twoBackups (rerun (fun _ _ => false) (Jiggle.jiggleAll toy false comp twoMan) fs).1) fA = .content 20 ∧
      twoFS.look (.cur fA) = some (.whole 10) ∧ (rerun (fun _ _ => false) (Jiggle.jiggleAll toy false comp twoMan) fs).1.look (.cur fA) = some (.whole 20) := by
  refine ⟨twoFS_initial, fun d => d == fB, ((Jiggle.jiggleAll toy false (fun d => d == fB) twoMan).run
    (fun _ _ => false) twoFS).1[8]'(by decide), .again .start (List.getElem_mem _), ?_⟩
  decide

/-- The same with a hardlinked archive, which must never be changed. -/
theorem C27_mixed_compression_archive_violated :
    Initial twoChanged twoFS ∧ ∃ (comp : Str → Bool) (fs : FS Int Int Int Nat),
      Crashed (fun _ _ => false) (Jiggle.jiggleAll toy true comp twoMan) twoFS fs ∧
      (rerun (fun _ _ => false) (Jiggle.jiggleAll toy true comp twoMan) fs).2 = .ok ∧
      twoFS.look (.old fA) = some (.whole 10) ∧ (rerun (fun _ _ => false) (Jiggle.jiggleAll toy true comp twoMan) fs).1.look (.old fA) = some (.whole 20) := by
  refine ⟨twoFS_initial, fun d => d == fB, ((Jiggle.jiggleAll toy true (fun d => d == fB) twoMan).run
    (fun _ _ => false) twoFS).1[3]'(by decide), .again .start (List.getElem_mem _), ?_⟩
  decide

/-! ### Link counts -/

/-- The number of names of an inode, among those of the example. -/
def nlink (fs : FS Int Int Int Nat) (n : Name) : Nat :=
  ([Name.cur fA, .old fA, .fin fA, .tmp fA, .rel fA, .inflate].filter
    (fun m => decide (fs.names m = fs.names n))).length

def oneMan : List (Nat × Str) := [(0, fA)]

/-- One file that is unchanged. -/
def oneSame (d : Str) : Slot Int Int := if d = fA then { old := some 10 } else {}

def oneSameFS : FS Int Int Int Nat where
  names n := match n with
    | .cur d | .old d => if d = fA then some 0 else none
    | _ => none
  files _ := .whole 10
  next := 1
  dels := []

theorem oneSameFS_initial : Initial oneSame oneSameFS := by
  refine ⟨?_, rfl, rfl, rfl, ?_, ?_⟩
  · intro d
    by_cases hA : d = fA
    · subst hA; simp [oneSameFS, FS.look, oneSame]
    · simp [oneSameFS, FS.look, oneSame, hA]
  · intro n i hn
    cases n <;> simp only [oneSameFS] at hn ⊢ <;> first | (cases hn; done) | skip
    all_goals
      split at hn
      · cases hn; decide
      · cases hn
  · intro d i n hn
    simp [oneSameFS] at hn

/-- An unchanged file has as many links as allowed, and is copied instead, directly to its final
name. If the copy is interrupted the next run takes the incomplete file to be finished. -/
theorem C27_copy_interrupted_violated :
    Initial oneSame oneSameFS ∧ ∃ (fs : FS Int Int Int Nat),
      Crashed (fun fs n => decide (2 ≤ nlink fs n)) (Jiggle.jiggleAll toy true (fun _ => false) oneMan)
        oneSameFS fs ∧
      (rerun (fun fs n => decide (2 ≤ nlink fs n)) (Jiggle.jiggleAll toy true (fun _ => false) oneMan) fs).2 = .ok ∧
      (rerun (fun fs n => decide (2 ≤ nlink fs n)) (Jiggle.jiggleAll toy true (fun _ => false) oneMan) fs).1.look (.fin fA) = some .junk := by
  refine ⟨oneSameFS_initial, ((Jiggle.jiggleAll toy true (fun _ => false) oneMan).run
    (fun fs n => decide (2 ≤ nlink fs n)) oneSameFS).1[0]'(by decide),
    .again .start (List.getElem_mem _), ?_⟩
  decide

/-- One uncompressed file that changed. -/
def oneChanged (d : Str) : Slot Int Int := if d = fA then { old := some 10, fwd := some 5 } else {}

def oneChangedFS : FS Int Int Int Nat where
  names n := match n with
    | .cur d | .old d => if d = fA then some 0 else none
    | .fwd d => if d = fA then some 1 else none
    | _ => none
  files i := if i = 0 then .whole 10 else .delta 5
  next := 2
  dels := []

theorem oneChangedFS_initial : Initial oneChanged oneChangedFS := by
  refine ⟨?_, rfl, rfl, rfl, ?_, ?_⟩
  · intro d
    by_cases hA : d = fA
    · subst hA; simp [oneChangedFS, FS.look, oneChanged]
    · simp [oneChangedFS, FS.look, oneChanged, hA]
  · intro n i hn
    cases n <;> simp only [oneChangedFS] at hn ⊢ <;> first | (cases hn; done) | skip
    all_goals
      split at hn
      · cases hn; decide
      · cases hn
  · intro d i n hn
    simp [oneChangedFS] at hn

/-- An uncompressed file is one link below the limit. An interruption leaves the link `inflate` to
it, and so the next run finds the limit reached and copies the file to `inflate`: opening the
destination for writing empties the source. Both the previous backup and the new one are lost. -/
theorem C27_link_limit_violated :
    Initial oneChanged oneChangedFS ∧ ∃ (fs : FS Int Int Int Nat),
      Crashed (fun fs n => decide (3 ≤ nlink fs n)) (Jiggle.jiggleAll toy false (fun _ => false) oneMan)
        oneChangedFS fs ∧
      oneChangedFS.look (.cur fA) = some (.whole 10) ∧ (rerun (fun fs n => decide (3 ≤ nlink fs n)) (Jiggle.jiggleAll toy false (fun _ => false) oneMan) fs).1.look (.cur fA) = some .junk ∧
      (rerun (fun fs n => decide (3 ≤ nlink fs n)) (Jiggle.jiggleAll toy false (fun _ => false) oneMan) fs).1.look (.old fA) = some .junk := by
  refine ⟨oneChangedFS_initial, ((Jiggle.jiggleAll toy false (fun _ => false) oneMan).run
    (fun fs n => decide (3 ≤ nlink fs n)) oneChangedFS).1[0]'(by decide),
    .again .start (List.getElem_mem _), ?_⟩
  decide

end Verif
