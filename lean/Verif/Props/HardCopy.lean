import Verif.Lemmas.HardCopy

/-!
# C129: the copy of the current backup has all that is in it
-/

namespace Verif
open HardCopy

/-- **C129, in part.** If the copy of a backup is reported to have been made, it has the same files as the backup, with the
same contents, at the same places, and no others. If each file is found and can be read, and what is written gets to
the disk. -/
theorem C129_files_partial (max : Nat) : ∀ (t : Forest File) (c : Forest Copy), (∀ p ∈ files t, Sound p.2) →
    copy max t = some c → (files c).map (fun p => (p.1, p.2.data)) = (files t).map (fun p => (p.1, p.2.data))
  | .nil, c, _, h => by cases h; rfl
  | .file n f rest, c, hs, h => by
    have hf : Sound f := hs ([n], f) List.mem_cons_self
    unfold copy at h
    rw [if_neg (by simp [hf.1])] at h
    cases hd : doLink max f with
    | none => rw [hd] at h; cases h
    | some x =>
      rw [hd] at h
      simp only at h
      cases hr : copy max rest with
      | none => rw [hr] at h; cases h
      | some r =>
        rw [hr] at h
        cases h
        have ih := C129_files_partial max rest r (fun p hp => hs p (List.mem_cons_of_mem _ hp)) hr
        have hx : x.data = f.data := (doLink_spec hd).1 hf.2.1 hf.2.2
        simp only [files, List.map_cons, hx, ih]
  | .dir n kids rest, c, hs, h => by
    unfold copy at h
    cases hk : copy max kids with
    | none => rw [hk] at h; cases h
    | some k =>
      rw [hk] at h
      simp only at h
      cases hr : copy max rest with
      | none => rw [hr] at h; cases h
      | some r =>
        rw [hr] at h
        cases h
        have ih1 := C129_files_partial max kids k (fun p hp => by
          have := hs (n :: p.1, p.2) (List.mem_append_left _ (List.mem_map.mpr ⟨p, hp, rfl⟩))
          exact this) hk
        have ih2 := C129_files_partial max rest r (fun p hp => hs p (List.mem_append_right _ hp)) hr
        simp only [files, List.map_append, List.map_map, ih2]
        congr 1
        have := congrArg (List.map (fun p : List Str × Str => (n :: p.1, p.2))) ih1
        simpa [List.map_map, Function.comp_def] using this

/-- **C129.** It has all the directories, also those with nothing in them. -/
theorem C129_dirs (max : Nat) : ∀ (t : Forest File) (c : Forest Copy), copy max t = some c → dirs c = dirs t
  | .nil, c, h => by cases h; rfl
  | .file n f rest, c, h => by
    unfold copy at h
    split at h
    · exact C129_dirs max rest c h
    · cases hd : doLink max f with
      | none => rw [hd] at h; cases h
      | some x =>
        rw [hd] at h
        simp only at h
        cases hr : copy max rest with
        | none => rw [hr] at h; cases h
        | some r =>
          rw [hr] at h
          cases h
          exact C129_dirs max rest r hr
  | .dir n kids rest, c, h => by
    unfold copy at h
    cases hk : copy max kids with
    | none => rw [hk] at h; cases h
    | some k =>
      rw [hk] at h
      simp only at h
      cases hr : copy max rest with
      | none => rw [hr] at h; cases h
      | some r =>
        rw [hr] at h
        cases h
        simp only [dirs, C129_dirs max kids k hk, C129_dirs max rest r hr]

/-- **C129.** Whatever goes wrong, a file of the copy comes from the file at the same place; if it is another name of it,
that file had fewer names than the limit, so that it has not more than the limit then. -/
theorem C129_limit (max : Nat) : ∀ (t : Forest File) (c : Forest Copy), copy max t = some c →
    ∀ p ∈ files c, ∃ f, (p.1, f) ∈ files t ∧ p.2.data <+: f.data ∧ (p.2 = .linked f.data → f.links + 1 ≤ max)
  | .nil, c, h => by cases h; intro p hp; cases hp
  | .file n f rest, c, h => by
    unfold copy at h
    split at h
    · intro p hp
      obtain ⟨g, h1, h2⟩ := C129_limit max rest c h p hp
      exact ⟨g, List.mem_cons_of_mem _ h1, h2⟩
    · cases hd : doLink max f with
      | none => rw [hd] at h; cases h
      | some x =>
        rw [hd] at h
        simp only at h
        cases hr : copy max rest with
        | none => rw [hr] at h; cases h
        | some r =>
          rw [hr] at h
          cases h
          intro p hp
          rcases List.mem_cons.mp hp with rfl | hp
          · exact ⟨f, List.mem_cons_self, (doLink_spec hd).2.1, (doLink_spec hd).2.2 f.data⟩
          · obtain ⟨g, h1, h2⟩ := C129_limit max rest r hr p hp
            exact ⟨g, List.mem_cons_of_mem _ h1, h2⟩
  | .dir n kids rest, c, h => by
    unfold copy at h
    cases hk : copy max kids with
    | none => rw [hk] at h; cases h
    | some k =>
      rw [hk] at h
      simp only at h
      cases hr : copy max rest with
      | none => rw [hr] at h; cases h
      | some r =>
        rw [hr] at h
        cases h
        intro p hp
        rcases List.mem_append.mp hp with hp | hp
        · obtain ⟨q, hq, rfl⟩ := List.mem_map.mp hp
          obtain ⟨g, h1, h2⟩ := C129_limit max kids k hk q hq
          exact ⟨g, List.mem_append_left _ (List.mem_map.mpr ⟨_, h1, rfl⟩), h2⟩
        · obtain ⟨g, h1, h2⟩ := C129_limit max rest r hr p hp
          exact ⟨g, List.mem_append_right _ h1, h2⟩

/-- **C129.** If a file that is found has fewer names than the limit and cannot be linked, or has as many and its duplicate
cannot be written, the copy is not reported to have been made. -/
theorem C129_reported (max : Nat) : ∀ (t : Forest File) (p : List Str × File), p ∈ files t → p.2.found = true →
    (p.2.links < max ∧ p.2.linkable = false ∨ max ≤ p.2.links ∧ p.2.writable = false) → copy max t = none
  | .nil, p, hp, _, _ => by cases hp
  | .file n f rest, p, hp, h1, h2 => by
    unfold copy
    rcases List.mem_cons.mp hp with rfl | hp
    · have hd : doLink max f = none := by
        unfold doLink duplicateFile
        rcases h2 with ⟨h2, h3⟩ | ⟨h2, h3⟩
        · have h2' : f.links < max := h2
          have h3' : f.linkable = false := h3
          rw [if_neg (by omega), if_pos (by rw [h3']; rfl)]
        · have h2' : max ≤ f.links := h2
          have h3' : f.writable = false := h3
          rw [if_pos h2', if_pos (by rw [h3']; rfl)]
      have h1' : f.found = true := h1
      rw [if_neg (by simp [h1']), hd]
    · rw [C129_reported max rest p hp h1 h2]
      split
      · rfl
      · cases doLink max f <;> rfl
  | .dir n kids rest, p, hp, h1, h2 => by
    unfold copy
    rcases List.mem_append.mp hp with hp | hp
    · obtain ⟨q, hq, rfl⟩ := List.mem_map.mp hp
      rw [C129_reported max kids q hq h1 h2]
    · rw [C129_reported max rest p hp h1 h2]
      cases copy max kids <;> rfl

/-- Such a file, in a directory. -/
example : copy 3 (.dir (bytes "d") (.file (bytes "f") { data := [1], linkable := false } .nil) .nil) = none :=
  C129_reported 3 _ ([bytes "d", bytes "f"], { data := [1], linkable := false }) (by simp [files]) rfl (.inl ⟨by decide, rfl⟩)

/-- C129 fails for a file that `lstat` does not find: this is put into the log, and the copy is reported to have been made
without it. -/
theorem C129_missing_violated (max : Nat) (n d : Str) :
    copy max (.file n { data := d, found := false } .nil) = some .nil := rfl

/-- C129 fails for a file with as many names as the limit of which reading fails: the duplicate ends there, and the copy is
reported to have been made. -/
theorem C129_read_violated : copy 3 (.file (bytes "f") { data := [1, 2, 3], links := 3, failsAt := some 1 } .nil)
    = some (.file (bytes "f") (.own [1]) .nil) := by decide +kernel

/-- C129 fails for such a file when the disk is full at the end: the error is seen by `fclose` only, whose result is not
looked at. -/
theorem C129_flush_violated : copy 3 (.file (bytes "f") { data := [1, 2, 3], links := 3, flushedAt := some 0 } .nil)
    = some (.file (bytes "f") (.own []) .nil) := by decide +kernel

/-- A backup with a directory that has a file and an empty directory, and a file with as many names as the limit. -/
def aTree : Forest File :=
  .dir (bytes "data") (.file (bytes "a") { data := [1] } (.dir (bytes "e") .nil .nil)) (.file (bytes "m") { data := [2], links := 3 } .nil)

example : (∀ p ∈ files aTree, p.2.found = true ∧ p.2.failsAt = none ∧ p.2.flushedAt = none)
    ∧ copy 3 aTree = some (.dir (bytes "data") (.file (bytes "a") (.linked [1]) (.dir (bytes "e") .nil .nil))
        (.file (bytes "m") (.own [2]) .nil)) := by
  constructor <;> decide +kernel

end Verif
