import Verif.Props.Phase1
import Verif.Props.Manifest

/-!
# C95: cases
-/

namespace Verif
open Phase1 Strlist Attribs Find

namespace Phase1Cases

/-- A file: its path, what `lstat` says, what is in it, and where it leads to. -/
structure Row where
  path : Str
  attr : Attr
  dir : Dir
  target : Option Str

/-- A file system that is a table. The type of the file system of a directory is its device. -/
def world (rows : List Row) : World where
  lstat p := (rows.find? (fun r => decide (r.path = p))).map Row.attr
  readlink p := (rows.find? (fun r => decide (r.path = p))).bind Row.target
  entries p := ((rows.find? (fun r => decide (r.path = p))).map Row.dir).getD .noOpen
  fstype p := (rows.find? (fun r => decide (r.path = p))).map (fun r => r.attr.dev)
  extra p _ := decide (p = bytes "/d/a")

/-- Settings: nothing but the directory. -/
def cfg : Cfg where
  find := ⟨[], [], [], [], [⟨bytes "/d", 1⟩], 0, 0⟩
  logic _ _ := false
  crossAll := false
  fschgdir := []
  allFifos := false
  fifos := []
  allBlockdevs := false
  blockdevs := []
  nobackup := [bytes ".nobackup"]
  excfs := []
  incfs := []
  excom := [bytes "gz"]
  compression := 9
  raises := true
  encrypted := false

def starts : List Elem := [⟨bytes "/d", 1⟩]

/-- `mode` is the kind of the file. -/
def attr (dev ino kind nlink size : Int) : Attr :=
  ⟨dev, ino, kind * 4096 + 0o644, nlink, 1000, 100, 0, size, 4096, 8, 5, 6, 7, 0, 0, 0, 0, 0⟩

/-- A directory with a file that has two names, a symbolic link and a fifo. -/
def rows : List Row :=
  [⟨bytes "/d", attr 1 10 4 2 4096, .names [bytes "l", bytes "b.gz", bytes "a", bytes "p"], none⟩,
   ⟨bytes "/d/a", attr 1 11 8 2 500, .noOpen, none⟩,
   ⟨bytes "/d/b.gz", attr 1 11 8 2 500, .noOpen, none⟩,
   ⟨bytes "/d/l", attr 1 12 10 1 1, .noOpen, some (bytes "a")⟩,
   ⟨bytes "/d/p", attr 1 13 1 1 0, .noOpen, none⟩]

/-- The names of a table are in it. -/
def Closed (c : Cfg) (rows : List Row) (starts : List Elem) : Prop :=
  (∀ s ∈ starts, s.path ∈ rows.map Row.path) ∧ (∀ x ∈ c.find.incexcdir, x.path ∈ rows.map Row.path) ∧
  ∀ r ∈ rows, match r.dir with
    | .names l => ∀ n ∈ l, Scan.dirPrefix r.path ++ n ∈ rows.map Row.path
    | _ => True

instance (c : Cfg) (rows : List Row) (starts : List Elem) : Decidable (Closed c rows starts) := by
  unfold Closed
  have : ∀ r : Row, Decidable (match r.dir with
    | .names l => ∀ n ∈ l, Scan.dirPrefix r.path ++ n ∈ rows.map Row.path
    | _ => True) := by
    intro r
    cases r.dir <;> infer_instance
  infer_instance

theorem reached_table {c : Cfg} {rows : List Row} {starts : List Elem} (h : Closed c rows starts) {p : Str} {par : Int}
    {top : Bool} (hr : Reached c (world rows) starts p par top) : p ∈ rows.map Row.path := by
  cases hr with
  | start hs _ => exact h.1 _ hs
  | @child d _ _ a l n _ _ _ _ _ he hn hq =>
    rcases hq with ⟨_, rfl⟩ | ⟨_, x, hx, _, _, rfl⟩
    · have he' : ((rows.find? (fun r => decide (r.path = d))).map Row.dir).getD .noOpen = .names l := he
      cases hf : rows.find? (fun r => decide (r.path = d)) with
      | none => rw [hf] at he'; cases he'
      | some r =>
        rw [hf] at he'
        have hd : r.path = d := by simpa using List.find?_some hf
        have := h.2.2 r (List.mem_of_find?_eq_some hf)
        rw [show r.dir = .names l from he'] at this
        rw [← hd]
        exact this n hn
    · exact h.2.1 x hx

theorem present_table {c : Cfg} {rows : List Row} {starts : List Elem} (h : Closed c rows starts) :
    Present c (world rows) starts := by
  intro p par top hr hn
  obtain ⟨r, hm, rfl⟩ := List.mem_map.mp (reached_table h hr)
  have hn' : (rows.find? (fun x => decide (x.path = r.path))).map Row.attr = none := hn
  rw [Option.map_eq_none_iff, List.find?_eq_none] at hn'
  exact hn' r hm (by simp)

theorem attr_range {dev ino kind nlink size : Int} (h : 0 ≤ dev ∧ dev < 1000 ∧ 0 ≤ ino ∧ ino < 1000 ∧ 0 ≤ kind ∧
    kind < 16 ∧ 0 ≤ nlink ∧ nlink < 1000 ∧ 0 ≤ size ∧ size < 10000) : (attr dev ino kind nlink size).InRange := by
  obtain ⟨h1, h2, h3, h4, h5, h6, h7, h8, h9, h10⟩ := h
  unfold attr
  exact {
    dev := by unfold U64; dsimp only; omega
    ino := by unfold U64; dsimp only; omega
    mode := by unfold U32; dsimp only; omega
    nlink := by unfold U64; dsimp only; omega
    uid := by unfold U32; dsimp only; omega
    gid := by unfold U32; dsimp only; omega
    rdev := by unfold U64; dsimp only; omega
    size := by unfold S64; dsimp only; omega
    blksize := by unfold S64; dsimp only; omega
    blocks := by unfold S64; dsimp only; omega
    atime := by unfold S64; dsimp only; omega
    mtime := by unfold S64; dsimp only; omega
    ctime := by unfold S64; dsimp only; omega
    winattr := by unfold U64; dsimp only; omega
    compression := by unfold S32; dsimp only; omega
    encryption := by unfold S32; dsimp only; omega
    salt := by unfold U64; dsimp only; omega
    useWinapi := Or.inl rfl }

theorem rows_attr {p : Str} {a : Attr} (h : (world rows).lstat p = some a) : a.InRange := by
  obtain ⟨r, hr, rfl⟩ := Option.map_eq_some_iff.mp (show (rows.find? (fun r => decide (r.path = p))).map Row.attr = some a from h)
  have hm := List.mem_of_find?_eq_some hr
  simp only [rows, List.mem_cons, List.not_mem_nil, or_false] at hm
  rcases hm with rfl | rfl | rfl | rfl | rfl <;> exact attr_range (by decide)

/-- `C95_entries_partial`, `C95_complete_partial`, `C95_list` and `C95_no_list` are about this directory. -/
example : Present cfg (world rows) starts := present_table (by decide +kernel)

example : Sayable cfg (world rows) starts where
  path p par top h := by
    obtain ⟨r, hr, rfl⟩ := List.mem_map.mp (reached_table (by decide +kernel) h)
    have : ∀ r ∈ rows, 0 ∉ r.path ∧ PathCmp.hasDotComponent r.path = false ∧ r.path.length ≤ 65535 := by decide +kernel
    exact ⟨(this r hr).1, dotFree_of_check (this r hr).2.1, (this r hr).2.2⟩
  attr _ _ h := rows_attr h
  target p t h := by
    obtain ⟨r, hr, ht⟩ := Option.bind_eq_some_iff.mp
      (show (rows.find? (fun r => decide (r.path = p))).bind Row.target = some t from h)
    have : ∀ r ∈ rows, (r.target.getD []).length ≤ 65535 := by decide +kernel
    have := this r (List.mem_of_find?_eq_some hr)
    rw [ht] at this
    exact this
  compression := by decide

/-- What is told of it. -/
example : (client cfg (world rows) 5 starts St.init).ret = .ok ∧
    (client cfg (world rows) 5 starts St.init).out =
      [.entry .directory (Described cfg (attr 1 10 4 2 4096) 9) (bytes "/d") none,
       .entry .file (Described cfg (attr 1 11 8 2 500) 9) (bytes "/d/a") none,
       .entry .metadata (Described cfg (attr 1 11 8 2 500) 9) (bytes "/d/a") none,
       .entry .hardLink (Described cfg (attr 1 11 8 2 500) 9) (bytes "/d/b.gz") (some (bytes "/d/a")),
       .entry .softLink (Described cfg (attr 1 12 10 1 1) 9) (bytes "/d/l") (some (bytes "a")),
       .entry .special (Described cfg (attr 1 13 1 1 0) 9) (bytes "/d/p") none] := by decide +kernel

/-- With a bound that is too small the walk says so. -/
example : (client cfg (world rows) 1 starts St.init).ret = .deep := by decide +kernel

/-- `C95_complete_partial`: a file is to be looked at, and wanted. -/
example : Reached cfg (world rows) starts (bytes "/d/b.gz") 1 false ∧
    LetThrough cfg (bytes "/d/b.gz") (Seen cfg (bytes "/d/b.gz") (attr 1 11 8 2 500)) false := by
  refine ⟨?_, by decide +kernel, rfl, fun _ => by decide +kernel⟩
  have hs : Reached cfg (world rows) starts (bytes "/d") (-1) true :=
    .start (s := ⟨bytes "/d", 1⟩) (List.mem_singleton.mpr rfl) (by decide)
  refine Reached.child (a := attr 1 10 4 2 4096) (n := bytes "b.gz")
    (l := [bytes "l", bytes "b.gz", bytes "a", bytes "p"]) hs (by decide +kernel) (by decide +kernel) ?_
    (by decide +kernel) (by decide +kernel) (Or.inl ⟨by decide +kernel, by decide +kernel⟩)
  exact ⟨by decide +kernel, fun _ => ⟨⟨1, by decide +kernel, by decide +kernel, Or.inl rfl⟩, Or.inl rfl⟩⟩

/-- A directory that cannot be opened, and one where another file system begins. -/
def rowsWarn : List Row :=
  [⟨bytes "/d", attr 1 10 4 2 4096, .names [bytes "m", bytes "s"], none⟩,
   ⟨bytes "/d/m", attr 2 2 4 2 4096, .names [bytes "x"], none⟩,
   ⟨bytes "/d/s", attr 1 11 4 2 4096, .noOpen, none⟩]

/-- `C95_directories_partial` and `C95_raises` are about such directories. -/
example : (client { cfg with raises := false } (world rowsWarn) 5 starts St.init).ret = .ok ∧
    (client { cfg with raises := false } (world rowsWarn) 5 starts St.init).out =
      [.entry .directory (Described cfg (attr 1 10 4 2 4096) 9) (bytes "/d") none,
       .entry .directory (Described cfg (attr 2 2 4 2 4096) 9) (bytes "/d/m") none,
       .warn .noFsChange (bytes "/d/m"),
       .entry .directory (Described cfg (attr 1 11 4 2 4096) 9) (bytes "/d/s") none,
       .warn .noOpen (bytes "/d/s")] ∧
    (client cfg (world rowsWarn) 5 starts St.init).ret = .fail := by decide +kernel

/-- A name in the directory is that of a file that has gone. -/
def rowsGone : List Row :=
  [⟨bytes "/d", attr 1 10 4 2 4096, .names [bytes "a", bytes "b"], none⟩,
   ⟨bytes "/d/a", attr 1 11 8 2 500, .noOpen, none⟩]

/-- Of two names of a file only the second has the right ending, and a name between them is that of a file that has
gone. -/
def rowsLost : List Row :=
  [⟨bytes "/d", attr 1 10 4 2 4096, .names [bytes "a.y", bytes "b.x", bytes "c.x"], none⟩,
   ⟨bytes "/d/a.y", attr 1 11 8 2 500, .noOpen, none⟩,
   ⟨bytes "/d/c.x", attr 1 11 8 2 500, .noOpen, none⟩]

/-- Only files with this ending. -/
def cfgExt : Cfg := { cfg with find := { cfg.find with incext := [bytes "x"] }, raises := false }

/-- A directory on a file system that is not wanted. -/
def rowsFs : List Row :=
  [⟨bytes "/d", attr 1 10 4 2 4096, .names [bytes "m"], none⟩,
   ⟨bytes "/d/m", attr 2 2 4 2 4096, .names [], none⟩]

end Phase1Cases

open Phase1Cases

/-- C95 fails: a file that has gone when it is looked at, after its name was read from the directory, is listed as a
hard link to the file before it, if that has several names. What `lstat` said of the file before is still there, and
is looked at. There is no warning, and a restore makes a link that never was. -/
theorem C95_vanished_violated : ∃ c w fuel starts, (client c w fuel starts St.init).ret = .ok ∧
    w.lstat (bytes "/d/b") = none ∧
    (client c w fuel starts St.init).out.filter (fun e => decide (e.path = bytes "/d/b")) =
      [.entry .hardLink (Described cfg (attr 1 11 8 2 500) 9) (bytes "/d/b") (some (bytes "/d/a"))] :=
  ⟨cfg, world rowsGone, 5, starts, by decide +kernel, by decide +kernel, by decide +kernel⟩

/-- C95 fails: a file is listed as a hard link to one that is not in the list, so that its data are not in the backup:
with `include_ext`, when there is a name of the same file that is not included, and after that the name of a file that
has gone. The latter is remembered as a name of the former. -/
theorem C95_lost_violated : ∃ c w fuel starts, (client c w fuel starts St.init).ret = .ok ∧
    Ev.entry .hardLink (Described cfg (attr 1 11 8 2 500) 9) (bytes "/d/c.x") (some (bytes "/d/b.x")) ∈
      (client c w fuel starts St.init).out ∧
    ∀ e ∈ (client c w fuel starts St.init).out, Main e → e.path ≠ bytes "/d/b.x" :=
  ⟨cfgExt, world rowsLost, 5, starts, by decide +kernel, by decide +kernel, by decide +kernel⟩

/-- C95 fails: a directory on a file system of a type that is not wanted is listed twice. -/
theorem C95_twice_violated : ∃ c w fuel starts, (client c w fuel starts St.init).ret = .ok ∧
    (client c w fuel starts St.init).out.filter (fun e => decide (e.path = bytes "/d/m")) =
      [.entry .directory (Described cfg (attr 2 2 4 2 4096) 9) (bytes "/d/m") none,
       .entry .directory (Described cfg (attr 2 2 4 2 4096) 9) (bytes "/d/m") none] :=
  ⟨{ cfg with excfs := [2] }, world rowsFs, 5, starts, by decide +kernel, by decide +kernel⟩

/-- C95 fails: with `include_ext`, a directory that cannot be opened is left out without a word, even if every problem
is to raise an error: the warning goes the same way as an entry would, and a directory does not have the right
ending. -/
theorem C95_unopened_violated : ∃ c w fuel starts, c.raises = true ∧ (client c w fuel starts St.init).ret = .ok ∧
    w.entries (bytes "/d/s") = .noOpen ∧ Reached c w starts (bytes "/d/s") 1 false ∧
    ∀ e ∈ (client c w fuel starts St.init).out, e.path ≠ bytes "/d/s" := by
  refine ⟨{ cfgExt with raises := true, crossAll := true }, world rowsWarn, 5, starts, rfl, by decide +kernel,
    by decide +kernel, ?_, by decide +kernel⟩
  have hs : Reached { cfgExt with raises := true, crossAll := true } (world rowsWarn) starts (bytes "/d") (-1) true :=
    .start (s := ⟨bytes "/d", 1⟩) (List.mem_singleton.mpr rfl) (by decide)
  refine Reached.child (a := attr 1 10 4 2 4096) (n := bytes "s") (l := [bytes "m", bytes "s"]) hs (by decide +kernel)
    (by decide +kernel) ?_ (by decide +kernel) (by decide +kernel) (Or.inl ⟨by decide +kernel, by decide +kernel⟩)
  exact ⟨by decide +kernel, fun _ => ⟨⟨1, by decide +kernel, by decide +kernel, Or.inl rfl⟩, Or.inl rfl⟩⟩

end Verif
