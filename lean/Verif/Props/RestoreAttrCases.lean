import Verif.Props.RestoreAttr

/-!
# C91: cases, and where it fails
-/

namespace Verif.RestoreAttrCases
open Verif RestoreAttr

/-- A clock, and a user. -/
def world (fails : Nat → Bool) : World := ⟨fails, fun n => (1000 + n, 7), 0, 0, 0o755⟩

/-- Nothing but the top directory. -/
def empty : S :=
  { dent := fun p => if p = [] then some 0 else none
    node := fun _ => ⟨.dir, 0, 0, 0o755, (1, 2), (1, 2)⟩
    fresh := 1 }

def ab : Path := [bytes "a", bytes "b"]
def ac : Path := [bytes "a", bytes "c"]

def family (p : Path) : Path := if p = ac then ab else p

/-- A program that runs as its owner, and the directory it is in. -/
def attr (p : Path) : Stat :=
  if p = ab then ⟨.file, 10, 20, 0o4755, 500, 600⟩ else ⟨.dir, 30, 40, 0o2770, 300, 400⟩

def stream : List Entry :=
  [⟨.metadata, [bytes "a"], attr [bytes "a"]⟩, ⟨.file, ab, attr ab⟩, ⟨.metadata, ab, attr ab⟩, ⟨.hardlink ab, ac, attr ab⟩,
    ⟨.dir, [bytes "a"], attr [bytes "a"]⟩]

theorem empty_good : Good family empty := by
  refine ⟨?_, ?_, rfl, ?_⟩
  · intro p i h
    change (if p = [] then some 0 else none) = some i at h
    split at h
    · cases h; exact Nat.one_pos
    · cases h
  · intro p h hp
    change (if p = [] then some 0 else none) ≠ none at h
    rw [if_neg hp] at h
    exact absurd rfl h
  · intro p q i h1 h2
    change (if p = [] then some 0 else none) = some i at h1
    change (if q = [] then some 0 else none) = some i at h2
    split at h1
    · split at h2
      · rename_i a b; exact .inl (a.trans b.symm)
      · cases h2
    · cases h1

theorem stream_links : ∀ e ∈ stream, ∀ t, e.what = .hardlink t → family e.path = family t := by
  intro e he t ht
  rcases List.mem_cons.mp he with rfl | he
  · cases ht
  rcases List.mem_cons.mp he with rfl | he
  · cases ht
  rcases List.mem_cons.mp he with rfl | he
  · cases ht
  rcases List.mem_cons.mp he with rfl | he
  · cases ht; decide +kernel
  rcases List.mem_cons.mp he with rfl | he
  · cases ht
  · cases he

theorem stream_ok : Stream family attr stream :=
  ⟨by decide +kernel, stream_links, by decide +kernel, by decide +kernel⟩

/-- Everything works when no call fails. -/
theorem stream_works : (restoreAll (world fun _ => false) empty stream).1.map (·.2) = [true, true, true, true, true] := by
  decide +kernel

/-- C91_attributes applies. -/
example : ∀ e ∈ stream, e.what ≠ .metadata → Restored (restoreAll (world fun _ => false) empty stream).2 e :=
  fun e he hm => C91_attributes _ family attr stream empty empty_good stream_ok e he hm (by
    intro x hx _
    have : x.2 ∈ (restoreAll (world fun _ => false) empty stream).1.map (·.2) := List.mem_map.mpr ⟨x, hx, rfl⟩
    rw [stream_works] at this
    revert this
    cases x.2 <;> decide)

/-- Whatever is not restored stays, though everything fails. -/
example : (restoreAll (world fun _ => true) empty [⟨.file, ab, attr ab⟩]).2.dent [] = some 0 := rfl

end Verif.RestoreAttrCases

namespace Verif
open RestoreAttr RestoreAttrCases

/-- C91 fails: for somebody who is not root and restores the files of somebody else, `lchown` is refused
(src/attribs.c:319), and then neither the mode nor the times of a file are set, although these calls would be
allowed: it is left with the mode 0600 and the time of the restore; from the second file on there is not even a
warning (src/attribs.c:335-337). -/
theorem C91_not_root_violated :
    let s := (restoreAll (world fun n => n = 4 ∨ n = 5) empty [⟨.file, ab, attr ab⟩]).2
    (s.dent ab).map (fun i => ((s.node i).mode, (s.node i).mtime)) = some (0o600, (1003, 7)) := by
  decide +kernel

/-- C91 fails: if there is another file where a fifo or a device is restored, it is taken for what is to be
restored (src/client/restore.c:282, 313): it stays a plain file, gets the owner and the mode of the device and
is counted as restored. Only sockets are checked. -/
theorem C91_special_violated :
    let s := (restoreAll (world fun _ => false) empty [⟨.file, ab, attr ab⟩]).2
    let st : Stat := ⟨.special, 0, 0, 0o666, 1, 1⟩
    let o := restoreAll (world fun _ => false) s [⟨.special, ab, st⟩]
    o.1 = [(⟨.special, ab, st⟩, true)] ∧ (o.2.dent ab).map (fun i => (o.2.node i).kind) = some .file := by
  decide +kernel

/-- C91 fails: a directory that is sent before what is in it gets the time of the restore; the server sends
directories last because of that (C31). -/
theorem C91_directory_first_violated :
    let o := restoreAll (world fun _ => false) empty [⟨.dir, [bytes "a"], attr [bytes "a"]⟩, ⟨.file, ab, attr ab⟩]
    o.1.map (·.2) = [true, true] ∧ (o.2.dent [bytes "a"]).map (fun i => (o.2.node i).mtime) ≠ some (400, 0) := by
  decide +kernel

end Verif
