import Verif.Props.BedupConc

/-! # C100: what goes wrong, and a run that goes right -/

namespace Verif
open Verif.BedupConc

namespace BedupConc

/-- `.bedup.7` -/
def ext7 : Str := bytes ".bedup.7"
def anna : Str := bytes "anna"
/-- A file of a finished backup, and one of the next backup. -/
def oldFile : Path := (anna, [bytes "1", bytes "x"])
def newFile : Path := (anna, [bytes "2", bytes "y"])

/-- One finished backup with one file. -/
def oneBackup : Server :=
  { at_ := fun p => if p = oldFile then some 0 else none
    content := fun _ => bytes "ab"
    next := 1
    working := fun _ => none
    finishing := fun _ => none
    writing := []
    used := fun c => if c = anna then [bytes "1"] else [] }

theorem oneBackup_fine : Fine oneBackup := by
  refine ⟨?_, ?_, ?_, ?_, ?_⟩
  · intro p hp
    have hp : (if p = oldFile then some 0 else none) ≠ none := hp
    split at hp
    · rename_i e
      subst e
      exact ⟨bytes "1", bytes "x", [], rfl, by decide⟩
    · exact absurd rfl hp
  · rintro c d (h | h) <;> cases h
  · intro p i hp
    have hp : (if p = oldFile then some 0 else none) = some i := hp
    split at hp
    · cases hp; exact Nat.zero_lt_one
    · cases hp
  · intro i hi; cases hi
  · intro p i _ hi; cases hi

theorem oldFile_plain : ¬ isTmp ext7 oldFile := by
  rintro ⟨n, h1, h2⟩
  have h1 : some (bytes "x") = some n := h1
  cases h1
  exact absurd h2 (by decide)

theorem newFile_plain : ¬ isTmp ext7 newFile := by
  rintro ⟨n, h1, h2⟩
  have h1 : some (bytes "y") = some n := h1
  cases h1
  exact absurd h2 (by decide)

/-- Another finished backup with the same data, and a backup that is being made, with a file that is being written. -/
def olderFile : Path := (anna, [bytes "0", bytes "z"])

def underWay : Server :=
  { at_ := fun p => if p = oldFile then some 0 else if p = olderFile then some 1 else if p = newFile then some 2 else none
    content := fun _ => bytes "ab"
    next := 3
    working := fun c => if c = anna then some (bytes "2") else none
    finishing := fun _ => none
    writing := [2]
    used := fun c => if c = anna then [bytes "2", bytes "1", bytes "0"] else [] }

theorem underWay_fine : Fine underWay := by
  have hat : ∀ p i, underWay.at_ p = some i →
      (p = oldFile ∧ i = 0) ∨ (p = olderFile ∧ i = 1) ∨ (p = newFile ∧ i = 2) := by
    intro p i hp
    have hp : (if p = oldFile then some 0 else if p = olderFile then some 1 else if p = newFile then some 2 else none)
      = some i := hp
    split at hp
    · cases hp; exact Or.inl ⟨by assumption, rfl⟩
    · split at hp
      · cases hp; exact Or.inr (Or.inl ⟨by assumption, rfl⟩)
      · split at hp
        · cases hp; exact Or.inr (Or.inr ⟨by assumption, rfl⟩)
        · cases hp
  refine ⟨?_, ?_, ?_, ?_, ?_⟩
  · intro p hp
    cases hi : underWay.at_ p with
    | none => exact absurd hi hp
    | some i =>
      rcases hat p i hi with ⟨rfl, _⟩ | ⟨rfl, _⟩ | ⟨rfl, _⟩
      · exact ⟨_, _, _, rfl, by decide⟩
      · exact ⟨_, _, _, rfl, by decide⟩
      · exact ⟨_, _, _, rfl, by decide⟩
  · rintro c d (h | h)
    · have h : (if c = anna then some (bytes "2") else none) = some d := h
      split at h
      · rename_i e
        subst e
        cases h
        decide
      · cases h
    · cases h
  · intro p i hp
    rcases hat p i hp with ⟨_, rfl⟩ | ⟨_, rfl⟩ | ⟨_, rfl⟩ <;> decide
  · intro i hi
    have hi : i ∈ [2] := hi
    rw [List.mem_singleton] at hi
    subst hi
    decide
  · intro p i hp hi
    have hi : i ∈ [2] := hi
    rw [List.mem_singleton] at hi
    rcases hat p i hp with ⟨_, h⟩ | ⟨_, h⟩ | ⟨rfl, _⟩
    · omega
    · omega
    · exact ⟨_, _, _, rfl, Or.inl (by decide)⟩

theorem olderFile_plain : ¬ isTmp ext7 olderFile := by
  rintro ⟨n, h1, h2⟩
  have h1 : some (bytes "z") = some n := h1
  cases h1
  exact absurd h2 (by decide)

end BedupConc

/-- C100 fails: a backup begins while `bedup` is at the files of the client. `bedup` does not know of it, comes to a file
of the new backup of which a part has been received, and then to a file of a finished backup with the same data. It puts
a link to the new file in the place of the old one. The server goes on to write to the new file: the finished backup
has data now that the file never had. -/
theorem C100_finished_backup_violated : ∃ (s : Server) (as : List Act) (t : Sys) (p : Path) (x y : Str),
    Fine s ∧ ¬ s.inBusy p ∧ s.view p = some x ∧ Run ext7 Any (begin_ s) as t ∧ ¬ isTmp ext7 p ∧
    (as.foldl Server.act s).view p = some x ∧ t.server.view p = some y ∧ y ≠ x := by
  have r := Run.nil (ext := ext7) (ok := Any) (begin_ oneBackup)
  have r := r.does _ _ _ _ (.enter _ anna rfl rfl)
  have r := r.does _ _ _ _ (.readWorking _ anna rfl)
  have r := r.does _ _ _ _ (.readFinishing _ anna rfl)
  have r := r.act _ _ _ (.start anna (bytes "2")) ⟨rfl, rfl, by decide, fun r => rfl⟩ trivial
  have r := r.act _ _ _ (.create newFile) ⟨⟨_, _, _, rfl, Or.inl rfl⟩, by decide⟩ trivial
  have r := r.act _ _ _ (.write 1 (bytes "ab")) (by show 1 ∈ [1]; decide) trivial
  have r := r.does _ _ _ _ (.look _ anna newFile rfl rfl rfl (by decide) (by decide) newFile_plain)
  have r := r.does _ _ _ _ (.remember _ newFile none rfl)
  have r := r.does _ _ _ _ (.look _ anna oldFile rfl rfl rfl (by decide) (by decide) oldFile_plain)
  have r := r.does _ _ _ _ (.openNew _ oldFile 0 rfl (by decide))
  have r := r.does _ _ _ _ (.openOld _ oldFile newFile 0 1 rfl (by decide) (by decide))
  have r := r.does _ _ _ _ (.readNew _ oldFile newFile 0 1 0 rfl)
  have r := r.does _ _ _ _ (.readOld _ oldFile newFile 0 1 0 _ rfl)
  have r := r.does _ _ _ _ (.link _ oldFile newFile 1 (by decide) (by decide) (by decide))
  have r := r.does _ _ _ _ (.rename _ oldFile rfl (by decide))
  have r := r.act _ _ _ (.write 1 (bytes "c")) (by show 1 ∈ [1]; decide) trivial
  refine ⟨oneBackup, _, _, oldFile, bytes "ab", bytes "abc", oneBackup_fine, ?_, by decide, r, oldFile_plain, by decide,
    by decide, by decide⟩
  rintro ⟨d, e, r, _, h | h⟩ <;> cases h

/-- C100 fails: and if `bedup` comes to the file of the finished backup first, it puts a link to that in the place of the
new file, which the server goes on to write to without its having a name any more: the new backup has only the part of
the file that had been received by then. -/
theorem C100_new_backup_violated : ∃ (s : Server) (as : List Act) (t : Sys) (p : Path) (x y : Str),
    Fine s ∧ Run ext7 Any (begin_ s) as t ∧ ¬ isTmp ext7 p ∧
    (as.foldl Server.act s).view p = some x ∧ t.server.view p = some y ∧ y ≠ x := by
  have r := Run.nil (ext := ext7) (ok := Any) (begin_ oneBackup)
  have r := r.does _ _ _ _ (.enter _ anna rfl rfl)
  have r := r.does _ _ _ _ (.readWorking _ anna rfl)
  have r := r.does _ _ _ _ (.readFinishing _ anna rfl)
  have r := r.does _ _ _ _ (.look _ anna oldFile rfl rfl rfl (by decide) (by decide) oldFile_plain)
  have r := r.does _ _ _ _ (.remember _ oldFile none rfl)
  have r := r.act _ _ _ (.start anna (bytes "2")) ⟨rfl, rfl, by decide, fun r => rfl⟩ trivial
  have r := r.act _ _ _ (.create newFile) ⟨⟨_, _, _, rfl, Or.inl rfl⟩, by decide⟩ trivial
  have r := r.act _ _ _ (.write 1 (bytes "ab")) (by show 1 ∈ [1]; decide) trivial
  have r := r.does _ _ _ _ (.look _ anna newFile rfl rfl rfl (by decide) (by decide) newFile_plain)
  have r := r.does _ _ _ _ (.openNew _ newFile 1 rfl (by decide))
  have r := r.does _ _ _ _ (.openOld _ newFile oldFile 1 0 rfl (by decide) (by decide))
  have r := r.does _ _ _ _ (.readNew _ newFile oldFile 1 0 0 rfl)
  have r := r.does _ _ _ _ (.readOld _ newFile oldFile 1 0 0 _ rfl)
  have r := r.does _ _ _ _ (.link _ newFile oldFile 0 (by decide) (by decide) (by decide))
  have r := r.does _ _ _ _ (.rename _ newFile rfl (by decide))
  have r := r.act _ _ _ (.write 1 (bytes "c")) (by show 1 ∈ [1]; decide) trivial
  exact ⟨oneBackup, _, _, newFile, bytes "abc", bytes "ab", oneBackup_fine, r, newFile_plain, by decide, by decide,
    by decide⟩

/-- A run as the theorems want it: a backup is being made when `bedup` comes to the client, goes on to write, is finished
and the next one begins after `bedup` has left. The files of the two older backups are one file in the end. -/
example : ∃ (as : List Act) (t : Sys), Fine underWay ∧ Run ext7 Quiet (begin_ underWay) as t ∧ (∀ a ∈ as, a.keeps) ∧
    underWay.at_ oldFile ≠ underWay.at_ olderFile ∧ t.server.at_ oldFile = t.server.at_ olderFile ∧
    t.server.at_ (tmp ext7 olderFile) = none ∧ t.server.view newFile = some (bytes "abc") ∧
    t.server.view olderFile = some (bytes "ab") ∧ t.server.busy anna (bytes "3") := by
  have r := Run.nil (ext := ext7) (ok := Quiet) (begin_ underWay)
  have r := r.does _ _ _ _ (.enter _ anna rfl rfl)
  have r := r.does _ _ _ _ (.readWorking _ anna rfl)
  have r := r.act _ _ _ (.finishing anna) rfl trivial
  have r := r.does _ _ _ _ (.readFinishing _ anna rfl)
  have r := r.does _ _ _ _ (.look _ anna oldFile rfl rfl rfl (by decide) (by decide) oldFile_plain)
  have r := r.does _ _ _ _ (.remember _ oldFile none rfl)
  have r := r.act _ _ _ (.write 2 (bytes "c")) (by show 2 ∈ [2]; decide) trivial
  have r := r.does _ _ _ _ (.look _ anna olderFile rfl rfl rfl (by decide) (by decide) olderFile_plain)
  have r := r.does _ _ _ _ (.openNew _ olderFile 1 rfl (by decide))
  have r := r.does _ _ _ _ (.openOld _ olderFile oldFile 1 0 rfl (by decide) (by decide))
  have r := r.does _ _ _ _ (.readNew _ olderFile oldFile 1 0 0 rfl)
  have r := r.act _ _ _ (.close 2) trivial trivial
  have r := r.does _ _ _ _ (.readOld _ olderFile oldFile 1 0 0 _ rfl)
  have r := r.act _ _ _ (.finish anna) (by intro d r i _ _; show i ∉ ([] : List Nat); simp) trivial
  have r := r.does _ _ _ _ (.link _ olderFile oldFile 0 (by decide) (by decide) (by decide))
  have r := r.does _ _ _ _ (.rename _ olderFile rfl (by decide))
  have r := r.does _ _ _ _ (.leave _ anna rfl rfl)
  have r := r.act _ _ _ (.start anna (bytes "3")) ⟨by decide, by decide, by decide, fun r => by
    refine (?_ : (_ : Option Nat) = none)
    rfl⟩ ⟨by decide, by decide⟩
  refine ⟨_, _, underWay_fine, r, ?_, by decide, by decide, by decide, by decide, by decide, Or.inl (by decide)⟩
  intro a ha
  simp only [List.nil_append, List.cons_append, List.mem_cons, List.not_mem_nil, or_false] at ha
  rcases ha with rfl | rfl | rfl | rfl | rfl <;> trivial

/-- The file of the backup that is being made is passed over, and after that one is finished it is so still. -/
example : excluded ⟨.inside anna, bytes "2", [], [], .idle⟩ newFile.2 = true := by decide

end Verif
