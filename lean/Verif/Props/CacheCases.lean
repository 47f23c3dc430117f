import Verif.Props.Cache

/-!
# C80: cases, and what goes wrong
-/

namespace Verif
open Verif.Cache

/-- A record of a directory. -/
def exCDir (p : String) (m : UInt32) : Entry := ⟨.directory, bytes p, [], ⟨m, [7]⟩⟩
/-- A record of a regular file. -/
def exCFile (p : String) (m : UInt32) : Entry := ⟨.file, bytes p, [], ⟨m, [9]⟩⟩

/-- A backup of everything: directories come before what is in them. -/
def exCAll : List Entry :=
  [exCDir "/" 0x41ED, exCDir "/etc" 0x41ED, exCFile "/etc/passwd" 0x81A4, exCDir "/etc/ssh" 0x41C0,
   exCFile "/etc/ssh/key" 0x8180, ⟨.softLink, bytes "/lib", bytes "usr/lib", ⟨0xA1FF, [3]⟩⟩]

/-- A backup with `include=/home/me`: `/` and `/home` are not records of it. -/
def exCHome : List Entry :=
  [exCDir "/home/me" 0x41ED, exCFile "/home/me/notes" 0x81A4]

/-- A backup with `include=/home/me/notes`. -/
def exCOne : List Entry := [exCFile "/home/me/notes" 0x81A4]

private theorem good_of (c : Str) (h : (c ≠ [] ∧ slash ∉ c ∧ (0 : Byte) ∉ c)) : GoodName c := h

/-- C80: a backup of everything is in order. -/
theorem exCAll_inOrder : InOrder false exCAll := by
  refine ⟨?_, by decide⟩
  intro e he _
  refine ⟨components e.path, ?_⟩
  simp only [exCAll, List.mem_cons, List.not_mem_nil, or_false] at he
  rcases he with rfl | rfl | rfl | rfl | rfl | rfl <;>
    exact ⟨fun c hc => good_of c (by revert c; decide), by decide⟩

/-- C80: and so is one of part of a file system. -/
theorem exCHome_inOrder : InOrder false exCHome := by
  refine ⟨?_, by decide⟩
  intro e he _
  refine ⟨components e.path, ?_⟩
  simp only [exCHome, List.mem_cons, List.not_mem_nil, or_false] at he
  rcases he with rfl | rfl <;>
    exact ⟨fun c hc => good_of c (by revert c; decide), by decide⟩

/-- C80: and one of a single file. -/
theorem exCOne_inOrder : InOrder false exCOne := by
  refine ⟨?_, by decide⟩
  intro e he _
  refine ⟨components e.path, ?_⟩
  simp only [exCOne, List.mem_cons, List.not_mem_nil, or_false] at he
  subst he
  exact ⟨fun c hc => good_of c (by revert c; decide), by decide⟩

/-- C80: and one of drives. -/
def exCDrives : List Entry := [exCDir "C:/Users" 0x41ED, exCFile "C:/Users/x" 0x81A4, exCDir "D:" 0x41ED]

theorem exCDrives_inOrder : InOrder true exCDrives := by
  refine ⟨?_, by decide⟩
  intro e he _
  refine ⟨components e.path, ?_⟩
  simp only [exCDrives, List.mem_cons, List.not_mem_nil, or_false] at he
  rcases he with rfl | rfl | rfl <;>
    exact ⟨fun c hc => good_of c (by revert c; decide), by decide⟩

/-- C80: what is in `/etc`, as it is in the backup. -/
example : lookup (load exCAll) (bytes "/etc") =
    [⟨bytes "passwd", [], ⟨0x81A4, [9]⟩⟩, ⟨bytes "ssh", [], ⟨0x41C0, [7]⟩⟩] := by decide
/-- C80: what is in `/`. -/
example : lookup (load exCAll) (bytes "/") =
    [⟨bytes "etc", [], ⟨0x41ED, [7]⟩⟩, ⟨bytes "lib", bytes "usr/lib", ⟨0xA1FF, [3]⟩⟩] := by decide
/-- C80: the beginning. -/
example : lookup (load exCAll) [] = [⟨bytes "/", [], ⟨0x41ED, [7]⟩⟩] := by decide
/-- C80: the drives. -/
example : (lookup (load exCDrives) []).map Shown.name = [bytes "C:", bytes "D:"] := by decide
/-- C80: a directory that holds something of the backup. -/
example : Holds exCAll [bytes "etc", bytes "ssh"] :=
  Or.inr ⟨exCFile "/etc/ssh/key" 0x8180, by decide, by decide, by decide⟩
/-- C80: the way to a file. -/
example : Is [bytes "etc", bytes "ssh"] (bytes "key") (exCFile "/etc/ssh/key" 0x8180) ∧
    ∀ p, p ≠ [] → p <+: [bytes "etc", bytes "ssh"] → ∃ a ∈ exCAll, isShown a = true ∧ components a.path = p := by
  refine ⟨by unfold Is; decide, ?_⟩
  rintro p hp hpre
  have : p = [] ∨ p = [bytes "etc"] ∨ p = [bytes "etc", bytes "ssh"] := by
    obtain ⟨r, hr⟩ := hpre
    match p, hr with
    | [], _ => exact Or.inl rfl
    | [x], hr => simp at hr; simp [hr.1]
    | [x, y], hr => simp at hr; simp [hr.1, hr.2.1]
    | x :: y :: z :: w, hr => simp at hr
  rcases this with rfl | rfl | rfl
  · exact absurd rfl hp
  · exact ⟨exCDir "/etc" 0x41ED, by decide, by decide, by decide⟩
  · exact ⟨exCDir "/etc/ssh" 0x41C0, by decide, by decide, by decide⟩

/-- C80 fails: a directory that is not in the backup is not shown as empty, nor is it an error. The names
that are not there are passed over: whoever asks for `/gone/etc`, or `/etc/gone`, is shown what is in
`/etc`. (cache.c:219-229) -/
theorem C80_absent_violated :
    ∃ es browse other, InOrder false es ∧ ¬ Holds es (components browse) ∧ components browse ≠ components other ∧
      lookup (load es) browse = lookup (load es) other ∧ lookup (load es) browse ≠ [] :=
  ⟨exCAll, bytes "/gone/etc", bytes "/etc", exCAll_inOrder, by
    rintro (h | ⟨e, he, _, hp⟩)
    · exact absurd h (by decide)
    · revert hp
      simp only [exCAll, List.mem_cons, List.not_mem_nil, or_false] at he
      rcases he with rfl | rfl | rfl | rfl | rfl | rfl <;> decide, by decide, by decide, by decide⟩

/-- C80 fails: `sb->statp.st_mode&=S_IFDIR` is meant to set the directory flag, and clears everything
else instead. Of a backup of the file `/home/me/notes` alone, the directories `/home` and `/home/me` are
shown with mode 0, which is not a directory, so that they cannot be opened in a browser; and so is the
file itself. (cache.c:153-163) -/
theorem C80_mode_violated :
    ∃ es e d n, InOrder false es ∧ e ∈ es ∧ Is d n e ∧ e.st.mode = 0x81A4 ∧
      (∀ browse, browse ∈ [bytes "/", bytes "/home", bytes "/home/me"] →
        (lookup (load es) browse).map (fun s => s.st.mode) = [0]) :=
  ⟨exCOne, exCFile "/home/me/notes" 0x81A4, [bytes "home", bytes "me"], bytes "notes", exCOne_inOrder,
    by decide, by unfold Is; decide, by decide, by decide⟩

/-- C80 fails: a directory whose parents are not in the backup, which is what `include=/home/me` gives, is
shown without its permissions, although they are in the manifest. -/
theorem C80_included_violated :
    ∃ es e d n, InOrder false es ∧ e ∈ es ∧ Is d n e ∧
      lookup (load es) (bytes "/home") = [⟨n, e.link, { e.st with mode := 0x4000 }⟩] ∧ e.st.mode = 0x41ED ∧
      components (bytes "/home") = d :=
  ⟨exCHome, exCDir "/home/me" 0x41ED, [bytes "home"], bytes "me", exCHome_inOrder, by decide,
    by unfold Is; decide, by decide, by decide, by decide⟩

/-- C80 fails: what is remembered is found by the name of the client and the number of the backup, and is
never looked at again. When a backup is deleted and another one gets its number, which is what happens when
the last backup is deleted, the files of the deleted backup go on being shown as those of the new one.
(cache.c:176-183) -/
theorem C80_stale_violated :
    ∃ q q' : Question, q.client = q'.client ∧ q.bno = q'.bno ∧ q.browse = q'.browse ∧
      q.file = .whole exCAll ∧ q'.file = .whole exCHome ∧
      (answers none [q, q'])[1]? = some (some (lookup (load exCAll) q'.browse)) ∧
      lookup (load exCAll) q'.browse ≠ lookup (load exCHome) q'.browse :=
  ⟨⟨bytes "c", 7, .whole exCAll, bytes "/"⟩, ⟨bytes "c", 7, .whole exCHome, bytes "/"⟩, rfl, rfl, rfl, rfl, rfl,
    by decide, by decide⟩

/-- C80 fails: `/` is shown with what is said about the first record, whatever that is. -/
theorem C80_root_violated :
    ∃ es, InOrder false es ∧ lookup (load es) [] = [⟨[slash], [], ⟨0x81A4, [9]⟩⟩] ∧
      (⟨0x81A4, [9]⟩ : Stat).isDir = false :=
  ⟨exCOne, exCOne_inOrder, by decide, by decide⟩

/-- C80: histories. -/
example : ∀ q ∈ [(⟨bytes "c", 7, .whole exCAll, bytes "/etc"⟩ : Question), ⟨bytes "d", 7, .missing, bytes "/"⟩,
    ⟨bytes "c", 7, .broken [], bytes "/"⟩, ⟨bytes "d", 7, .whole exCHome, bytes "*"⟩],
    q.file = .missing ∨ (∃ es, q.file = .broken es) ∨
      q.file = .whole ((fun c _ => if c = bytes "c" then exCAll else exCHome : Str → Nat → List Entry) q.client q.bno) := by
  intro q hq
  simp only [List.mem_cons, List.not_mem_nil, or_false] at hq
  rcases hq with rfl | rfl | rfl | rfl
  · exact Or.inr (Or.inr rfl)
  · exact Or.inl rfl
  · exact Or.inr (Or.inl ⟨_, rfl⟩)
  · exact Or.inr (Or.inr rfl)

end Verif
