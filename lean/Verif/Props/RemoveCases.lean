import Verif.Props.RemoveWorks
import Verif.Props.Confine

namespace Verif.RemoveCases
open Confine Remove

/-- What is in a file system that is given by a list, and with the names in it. -/
theorem fits_ofList {l : List (List Name × Node)} {w : World} (ns : List Name) (hw : ∀ q, w.names q = ns)
    (h0 : ofList l [] = some .dir)
    (h : ∀ e ∈ l, (e.1 = [] ∨ ofList l e.1.dropLast = some .dir) ∧
      ∀ c ∈ e.1, (c ≠ [] ∧ slash ∉ c ∧ (0 : Byte) ∉ c) ∧ (isStay c = false ∧ isUp c = false) ∧ c ∈ ns) :
    Fits w (ofList l) := by
  have hm : ∀ p, ofList l p ≠ none → ∃ e ∈ l, e.1 = p := by
    intro p hp
    rcases hx : ofList l p with _ | n
    · exact absurd hx hp
    · exact ⟨(p, n), lookup_mem hx, rfl⟩
  have key : ∀ q n, ofList l (q ++ [n]) ≠ none → ofList l q = some .dir ∧
      (isStay n = false ∧ isUp n = false) ∧ n ∈ ns := by
    intro q n hq
    obtain ⟨e, he, hx⟩ := hm _ hq
    obtain ⟨h1, h2⟩ := h e he
    rw [hx] at h1 h2
    refine ⟨?_, (h2 n (by simp)).2⟩
    rcases h1 with h1 | h1
    · exact absurd h1 (by simp)
    · rwa [List.dropLast_concat] at h1
  refine ⟨⟨h0, fun p c hp => (key p c hp).1, fun p hp c hc => ?_⟩, fun q n hq => (key q n hq).2.1,
    fun q n hq => by rw [hw]; exact (key q n hq).2.2⟩
  obtain ⟨e, he, hx⟩ := hm _ hp
  exact ((h e he).2 c (hx ▸ hc)).1

/-- The server: a client `c` with two backups, a link out of the first one, and things outside. -/
def stored : List (List Name × Node) :=
  [([], .dir), ([bytes "s"], .dir), ([bytes "s", bytes "c"], .dir),
   ([bytes "s", bytes "c", bytes "b1"], .dir),
   ([bytes "s", bytes "c", bytes "b1", bytes "timestamp"], .file 1),
   ([bytes "s", bytes "c", bytes "b1", bytes "data"], .dir),
   ([bytes "s", bytes "c", bytes "b1", bytes "data", bytes "l"], .lnk (bytes "/etc")),
   ([bytes "s", bytes "c", bytes "b1", bytes "data", bytes "t"], .dir),
   ([bytes "s", bytes "c", bytes "b2"], .dir),
   ([bytes "s", bytes "c", bytes "b2", bytes "manifest"], .file 3),
   ([bytes "s", bytes "c", bytes "current"], .lnk (bytes "b2")),
   ([bytes "etc"], .dir), ([bytes "etc", bytes "pw"], .file 4)]

def fs0 : FS := ofList stored

def allNames : List Name :=
  [bytes "s", bytes "c", bytes "timestamp", bytes "data", bytes "l", bytes "t", bytes "b2", bytes "manifest", bytes "current", bytes "current.tmp", bytes "etc", bytes "pw", bytes "deleteme"] ++
  [newName (bytes "c") (bytes "b1"), newName (bytes "c") (bytes "b2")] ++
  (List.range 101).map (suffixed (bytes "b1"))

/-- A system in which no call fails. -/
def calm : World where
  names _ := allNames
  typed _ := true
  fails _ _ := false
  readErr _ := none

def dirs : Dirs := ⟨[bytes "s", bytes "c"], [bytes "s", bytes "c", bytes "deleteme"]⟩

theorem fs0_fits {w : World} (hw : w.names = calm.names) : Fits w fs0 :=
  fits_ofList allNames (fun q => by rw [hw]; rfl) (by decide +kernel) (by decide +kernel)

theorem client_real : RealDir fs0 [bytes "s", bytes "c"] := realDir_take (by decide +kernel) (by decide +kernel)

/-- A target of the right kind. -/
theorem layout {base target : Name} (hb : base = bytes "b1" ∨ base = bytes "b2")
    (ht : (isStay target = false ∧ isUp target = false) ∧ (target ≠ [] ∧ slash ∉ target ∧ (0 : Byte) ∉ target))
    (hm : target ∈ allNames) : Layout calm fs0 dirs base target [bytes "s", bytes "c"] (bytes "deleteme") where
  fits := fs0_fits rfl
  client := client_real
  baseName := by rcases hb with rfl | rfl <;> decide +kernel
  there := by rcases hb with rfl | rfl <;> decide +kernel
  other := by rcases hb with rfl | rfl <;> decide +kernel
  deleteme := rfl
  outer := client_real
  plain := ⟨by decide +kernel, by decide +kernel, by decide +kernel, by decide +kernel, by decide +kernel⟩
  dir := .inl (by decide +kernel)
  apart := by
    refine ⟨by decide +kernel, ?_, by decide +kernel, by decide +kernel, fun hp => ?_⟩
    · rcases hb with rfl | rfl <;> decide +kernel
    · have := hp.length_le
      simp [dirs] at this
  targetName := ⟨ht.1.1, ht.1.2, ht.2⟩
  named := ⟨by decide +kernel, hm, by decide +kernel, by decide +kernel, fun _ _ h => h⟩

/-- The hypotheses of the theorems are met: the newest backup is deleted, and the oldest. -/
theorem layout_b2 : Layout calm fs0 dirs (bytes "b2") (newName (bytes "c") (bytes "b2"))
    [bytes "s", bytes "c"] (bytes "deleteme") :=
  layout (.inr rfl) (by decide +kernel) (by decide +kernel)

theorem layout_b1 : Layout calm fs0 dirs (bytes "b1") (newName (bytes "c") (bytes "b1"))
    [bytes "s", bytes "c"] (bytes "deleteme") :=
  layout (.inl rfl) (by decide +kernel) (by decide +kernel)

theorem layout_moved (k : Nat) (hk : k ≤ 100) :
    Layout calm fs0 dirs (bytes "b1") (suffixed (bytes "b1") k) [bytes "s", bytes "c"] (bytes "deleteme") := by
  have key : ∀ k ∈ List.range 101, ((isStay (suffixed (bytes "b1") k) = false ∧
      isUp (suffixed (bytes "b1") k) = false) ∧ (suffixed (bytes "b1") k ≠ [] ∧
      slash ∉ suffixed (bytes "b1") k ∧ (0 : Byte) ∉ suffixed (bytes "b1") k)) ∧
      suffixed (bytes "b1") k ∈ allNames := by decide +kernel
  have := key k (List.mem_range.mpr (by omega))
  exact layout (.inl rfl) this.1 this.2

example : (deleteBackup calm 9 ⟨fs0, 5, []⟩ dirs (bytes "c") (bytes "b2") true (some (bytes "b1")) true).1 = true ∧
    (deleteBackup calm 9 ⟨fs0, 5, []⟩ dirs (bytes "c") (bytes "b2") true (some (bytes "b1")) true).2.fs
      (dirs.deleteme ++ [bytes "c-b2", bytes "manifest"]) = some (.file 3) ∧
    (deleteBackup calm 9 ⟨fs0, 5, []⟩ dirs (bytes "c") (bytes "b2") true (some (bytes "b1")) true).2.fs
      dirs.current = some (.lnk (bytes "b1")) := by decide +kernel

theorem shallow : Shallow 9 fs0 := by
  intro q hq
  rcases hx : fs0 q with _ | n
  · exact absurd hx hq
  · have : ∀ e ∈ stored, e.1.length < 9 := by decide +kernel
    exact this (q, n) (lookup_mem hx)

/-- Deleting it for good works as well, and there is nothing in the way of what is put aside. -/
example : (deleteBackup calm 14 ⟨fs0, 5, []⟩ dirs (bytes "c") (bytes "b2") true (some (bytes "b1")) false).1 = true :=
  C89_deleted_works calm 14 9 ⟨fs0, 5, []⟩ dirs (bytes "c") (bytes "b2") true (some (bytes "b1"))
    [bytes "s", bytes "c"] (bytes "deleteme") layout_b2 ⟨fun _ _ => rfl, fun _ => rfl⟩
    ⟨.inl (by decide +kernel), fun k => by
      refine Classical.byContradiction fun h => ?_
      have := (fs0_fits (w := calm) rfl).good.tree (dirs.deleteme ++ [newName (bytes "c") (bytes "b2")]) k h
      revert this
      decide +kernel⟩ ⟨bytes "b2", by decide +kernel⟩ (.inl (by decide +kernel)) shallow (by decide +kernel)

example : (deleteBackup calm 9 ⟨fs0, 5, []⟩ dirs (bytes "c") (bytes "b1") false none true).1 = true := by
  decide +kernel

example : (deletemeMove calm ⟨fs0, 5, []⟩ dirs (dirs.client ++ [bytes "b1"]) (bytes "b1")).1 = true ∧
    (deletemeMove calm ⟨fs0, 5, []⟩ dirs (dirs.client ++ [bytes "b1"]) (bytes "b1")).2.fs
      (dirs.deleteme ++ [bytes "b1", bytes "data"]) = some .dir := by
  decide +kernel

theorem names_b1 : Names fs0 [bytes "s", bytes "c", bytes "b1"] [bytes "s", bytes "c"] (bytes "b1") :=
  names_real (d := [bytes "s", bytes "c"]) client_real (by decide +kernel)

/-- Deleting the first backup works, and what the link in it leads to stays. -/
example : (recursiveDelete calm 9 ⟨fs0, 5, []⟩ [bytes "s", bytes "c", bytes "b1"]).1 = .ok ∧
    (recursiveDelete calm 9 ⟨fs0, 5, []⟩ [bytes "s", bytes "c", bytes "b1"]).2.fs [bytes "etc", bytes "pw"] =
      some (.file 4) :=
  ⟨(C89_works calm 9 ⟨fs0, 5, []⟩ _ _ _ names_b1 (fs0_fits rfl) ⟨fun _ _ => rfl, fun _ => rfl⟩ shallow).1,
   (C89_nothing_else calm 9 ⟨fs0, 5, []⟩ _ _ _ names_b1 (fs0_fits rfl) (fun _ => rfl)).1 _ (by decide +kernel)⟩

/-- The empty directory in it is removed, and the one with the link stays. -/
example : Bare fs0 [bytes "s", bytes "c", bytes "b1", bytes "data", bytes "t"] ∧
    ¬ Bare fs0 [bytes "s", bytes "c", bytes "b1", bytes "data"] ∧ (calm.names []).Nodup := by
  refine ⟨fun x hx => ?_, fun h => ?_, by decide +kernel⟩
  · rcases hn : fs0 x with _ | n
    · exact .inl rfl
    · have : ∀ e ∈ stored, [bytes "s", bytes "c", bytes "b1", bytes "data", bytes "t"] <+: e.1 → e.2 = .dir := by
        decide +kernel
      exact .inr (congrArg some (this (x, n) (lookup_mem hn) hx))
  · have := h [bytes "s", bytes "c", bytes "b1", bytes "data", bytes "l"] (by decide +kernel)
    revert this
    decide +kernel

end Verif.RemoveCases

namespace Verif
open Confine Remove RemoveCases

/-- C89 fails: when the call that looks whether a directory is there fails for any reason (an error in
reading from the disk, a path that is too long), the deletion is reported as done, and everything is still
there. -/
theorem C89_unseen_violated : ∃ (w : World) (s : State) (p : List Name),
    (∀ c q, w.fails c q = true → c = .lstat) ∧ (recursiveDelete w 9 s p).1 = .ok ∧
    (recursiveDelete w 9 s p).2.fs p = some .dir :=
  ⟨{ calm with fails := fun c _ => decide (c = .lstat) }, ⟨fs0, 5, []⟩, [bytes "s", bytes "c", bytes "b1"],
    fun _ _ h => of_decide_eq_true h, by decide +kernel, by decide +kernel⟩

/-- C89 fails: when the first look at a symbolic link fails and the second does not, the link is taken for a
directory: everything in the directory it leads to is deleted. -/
theorem C89_link_violated : ∃ (w : World) (s : State) (p : List Name) (t : Str) (out : List Name),
    Reliable { w with fails := fun _ _ => false } ∧ (∀ c q, w.fails c q = true → c = .first) ∧
    s.fs p = some (.lnk t) ∧ ¬ p <+: out ∧ s.fs out = some (.file 4) ∧
    (recursiveDelete w 9 s p).2.fs out = none :=
  ⟨{ calm with fails := fun c _ => decide (c = .first) }, ⟨fs0, 5, []⟩,
    [bytes "s", bytes "c", bytes "b1", bytes "data", bytes "l"], bytes "/etc", [bytes "etc", bytes "pw"],
    ⟨fun _ _ => rfl, fun _ => rfl⟩, fun _ _ h => of_decide_eq_true h, by decide +kernel, by decide +kernel,
    by decide +kernel, by decide +kernel⟩

/-- C89 fails: when one file cannot be deleted, the deletion goes on only in its own directory: the
directories and files that come after that directory are kept, though nothing stands in their way. -/
theorem C89_stops_violated : ∃ (w : World) (s : State) (p x : List Name),
    (∀ c q, w.fails c q = true → c = .unlink ∧ ¬ q <+: x) ∧ p <+: x ∧
    (recursiveDelete w 9 s p).1 ≠ .ok ∧ (recursiveDelete w 9 s p).2.fs x = some (.file 1) :=
  ⟨{ calm with fails := fun c q => decide (c = .unlink ∧ q = [bytes "s", bytes "c", bytes "b2", bytes "manifest"]) },
    ⟨fs0, 5, []⟩, [bytes "s", bytes "c"], [bytes "s", bytes "c", bytes "b1", bytes "timestamp"],
    fun _ _ h => by
      have := of_decide_eq_true h
      rw [this.2]
      exact ⟨this.1, by decide +kernel⟩,
    by decide +kernel, by decide +kernel, by decide +kernel⟩

/-- The name of a client, of 254 bytes. -/
def RemoveCases.longName : Str := List.replicate 254 99

/-- C89 fails: the name under which a backup is put aside is cut off. With a client name that is long enough,
two backups get the same name, and the second cannot be deleted while the first is there. -/
theorem C89_long_name_violated : ∃ (w : World) (s : State) (d : Dirs) (cname b1 b2 : Str),
    Reliable w ∧ cname.length < 256 ∧ b1 ≠ b2 ∧
    (deleteBackup w 9 s d cname b1 false none true).1 = true ∧
    (deleteBackup w 9 (deleteBackup w 9 s d cname b1 false none true).2 d cname b2 true none true).1 = false ∧
    (deleteBackup w 9 s d (bytes "c") b1 false none true).1 = true ∧
    (deleteBackup w 9 (deleteBackup w 9 s d (bytes "c") b1 false none true).2 d (bytes "c") b2 true none true).1 =
      true :=
  ⟨calm, ⟨fs0, 5, []⟩, dirs, longName, bytes "b1", bytes "b2", ⟨fun _ _ => rfl, fun _ => rfl⟩, by decide +kernel,
    by decide +kernel, by decide +kernel, by decide +kernel, by decide +kernel, by decide +kernel⟩

end Verif
