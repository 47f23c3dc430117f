import Verif.Props.ListClient

/-!
# C88: cases
-/

namespace Verif.ListClient
open Verif Verif.Iobuf Verif.Attribs

theorem loop_prefix (style : Style) (clock : Int → Str) (extra : Str) (rest : List Rec) :
    ∀ (n : Nat) (ms : List Rec) (s : Ls), ms.length ≤ n →
      (clientLoop style clock extra s ms).1 <+: (clientLoop style clock extra s (ms ++ rest)).1 := by
  intro n
  induction n with
  | zero =>
    intro ms s h
    have : ms = [] := List.length_eq_zero_iff.mp (Nat.le_zero.mp h)
    rw [this, clientLoop.eq_def]
    exact List.nil_prefix
  | succ n ih =>
    intro ms s h
    cases ms with
    | nil => rw [clientLoop.eq_def]; exact List.nil_prefix
    | cons m ms =>
      rw [List.length_cons] at h
      rw [clientLoop.eq_def, List.cons_append, clientLoop.eq_def _ _ _ s (m :: (ms ++ rest))]
      simp only
      split
      · exact List.prefix_refl _
      · split
        · exact (List.prefix_append_right_inj _).mpr (ih ms s (by omega))
        · split
          · exact List.nil_prefix
          · cases decode noAttr m.buf with
            | none => exact List.nil_prefix
            | some a =>
              simp only
              cases ms with
              | nil => exact List.nil_prefix
              | cons p ms =>
                rw [List.length_cons] at h
                simp only [List.cons_append]
                split
                · cases item style clock s a p none with
                  | none => exact List.nil_prefix
                  | some r => exact (List.prefix_append_right_inj _).mpr (ih ms r.2 (by omega))
                · split
                  · cases ms with
                    | nil => exact List.nil_prefix
                    | cons k ms =>
                      rw [List.length_cons] at h
                      simp only [List.cons_append]
                      split
                      · exact List.nil_prefix
                      · cases item style clock s a p (some k) with
                        | none => exact List.nil_prefix
                        | some r => exact (List.prefix_append_right_inj _).mpr (ih ms r.2 (by omega))
                  · exact ih ms s (by omega)

/-- A file of 5 bytes, readable by all. -/
def exAttr : Attr := ⟨1, 2, 33188, 1, 1000, 100, 0, 5, 4096, 8, 0, 0, 0, 0, -1, 0, 0, 1⟩

def exClock : Int → Str := fun _ => bytes "1970-01-01 00:00:00"

def exEnts : List Ent :=
  [⟨.directory, bytes "/a", { exAttr with mode := 16877 }, []⟩, ⟨.metadata, bytes "/a", { exAttr with mode := 16877 }, []⟩,
   ⟨.file, bytes "/a/b", exAttr, []⟩, ⟨.softLink, bytes "/a/c/l", { exAttr with mode := 41471 }, bytes "/b"⟩]

def exBu : Request.Bu := ⟨⟨3, bytes "0000003 2026-01-01 00:00:00"⟩, true⟩

def exDesc : Request.Bu → Str := fun _ => bytes " (deletable)"

/-- The entries of the cases are good ones. -/
theorem exGood : ∀ e ∈ exEnts, e.Good := by
  intro e he
  simp only [exEnts, List.mem_cons, List.not_mem_nil, or_false] at he
  rcases he with rfl | rfl | rfl | rfl <;>
    (refine ⟨by decide, by decide, by decide +kernel, by decide +kernel, ?_⟩
     constructor <;> first | decide | (unfold U64; decide) | (unfold U32; decide) | (unfold S64; decide) | (unfold S32; decide))

example : Short exClock := fun _ => (by decide +kernel : (bytes "1970-01-01 00:00:00").length ≤ 26)
example : NoNul (exBu.bak.timestamp ++ exDesc exBu) := by decide +kernel

/-- A long listing. -/
example : client .long exClock none none
      (answer exDesc (fun _ => contents none (fun _ => true) [] exEnts) (.contents [exBu])) =
    (lines [bytes "Backup: 0000003 2026-01-01 00:00:00 (deletable)",
      bytes "drwxr-xr-x  1  1000   100       5 1970-01-01 00:00:00 /a",
      bytes "-rw-r--r--  1  1000   100       5 1970-01-01 00:00:00 /a/b",
      bytes "lrwxrwxrwx  1  1000   100       5 1970-01-01 00:00:00 /a/c/l -> /b"], .ok) := by decide +kernel

/-- The conditions of `C88_restore` on order hold of these entries. -/
example : exEnts.Pairwise (fun a b => PathCmp.pathcmp a.path b.path ≤ 0) ∧
    (visible exEnts).Pairwise (fun a b => PathCmp.pathcmp a.path b.path < 0) ∧
    ∀ e ∈ exEnts, ∃ e' ∈ visible exEnts, e'.path = e.path := by
  refine ⟨by decide +kernel, by decide +kernel, by decide +kernel⟩

/-- A directory. -/
example : client .short exClock (some (bytes "/a")) none
      (answer exDesc (fun _ => contents (some (bytes "/a")) (fun _ => true) (bytes "secret") exEnts)
        (.contents [exBu])) =
    (lines [bytes "Backup: 0000003 2026-01-01 00:00:00 (deletable)", bytes "Listing directory: /a", bytes ".",
      bytes "b", bytes "c"], .ok) := by decide +kernel

end Verif.ListClient

namespace Verif
open Verif.Iobuf Verif.Attribs Verif.ListClient

/-- C88: when the connection is lost, what was printed is the beginning of what should have been. -/
theorem C88_cut (style : Style) (clock : Int → Str) (bd rt : Option Str) (ms : List Rec) (k : Nat) :
    (client style clock bd rt (ms.take k)).1 <+: (client style clock bd rt ms).1 := by
  have := loop_prefix style clock (extraLines bd rt) (ms.drop k) _ (ms.take k) {} (Nat.le_refl _)
  rw [List.take_append_drop] at this
  exact this

/-- C88 fails: a listing that was cut off, because the connection was lost or because the server could not read its
manifest, ends with "List finished ok" and success like a whole one. -/
theorem C88_cut_violated :
    let all := answer exDesc (fun _ => contents none (fun _ => true) [] exEnts) (.contents [exBu])
    (client .short exClock none none (all.take 5)).2 = .ok ∧
      (client .short exClock none none (all.take 5)).1 ≠ (client .short exClock none none all).1 := by
  decide +kernel

/-- C88 fails: when a directory is listed, the server sends as many bytes for a name as the whole path is long,
from a shorter piece of memory, so that what happens to lie behind it goes to the client. -/
theorem C88_memory_violated :
    readsBehind (bytes "/a") (bytes "/a/b") = true ∧
    sentPath (bytes "secret") (bytes "/a") (bytes "/a/b") = bytes "b" ++ [0] ++ bytes "se" := by decide +kernel

/-- C88 fails: for the same reason a parseable listing of a directory cannot be read back. -/
theorem C88_parseable_violated :
    (readAll (client .parseable exClock (some (bytes "/a")) none
      (answer exDesc (fun _ => contents (some (bytes "/a")) (fun _ => true) (bytes "secret") exEnts)
        (.contents [exBu]))).1).1.map (·.buf) ≠ [bytes ".", bytes "b", bytes "c"] := by decide +kernel

/-- C88 fails: a long listing shows a directory as a link, if the first entry in it is one. -/
theorem C88_arrow_violated :
    client .long exClock (some (bytes "/a")) none
      (contents (some (bytes "/a")) (fun _ => true) (bytes "secret") (exEnts.drop 3)) =
    (lines [bytes "drwxrwxrwx  1  1000   100       5 1970-01-01 00:00:00 c -> /b"], .ok) := by decide +kernel

/-- C88 fails: the first path of a long listing being empty, the client writes to a buffer that is not there. -/
theorem C88_empty_violated :
    (client .long exClock none none [⟨Cmd.attribs.toByte, (encode exAttr).getD []⟩, ⟨Cmd.file.toByte, []⟩]).2 = .crash := by
  decide +kernel

/-- C88 fails: a file with a line break in its name looks like two files, except in a parseable listing. -/
theorem C88_lines_violated :
    (client .short exClock none none (contents none (fun _ => true) []
      [⟨.file, bytes "/a\n/b", exAttr, []⟩])) =
    (client .short exClock none none (contents none (fun _ => true) []
      [⟨.file, bytes "/a", exAttr, []⟩, ⟨.file, bytes "/b", exAttr, []⟩])) := by decide +kernel

end Verif
