import Verif.Lemmas.ConfFiles

/-!
# C101: the settings are those of the lines of the files, in order

The specification is `Verif.Spec.ConfFiles`: the lines that a file stands for, with each line `. pattern` replaced by
the lines of the files that it names.
-/

namespace Verif

open ConfFiles Confs

/-- What the program reads from a file: it is accepted just if the file stands for some lines and each of them is
fine, and the settings are then those of these lines one after the other. -/
theorem C101_lines_partial {d : Disk} (ht : Tidy d) (env : Env) (n : Nat) (path : Str) (c c' : Confs) :
    loadFile d env n path c = .done true c' ↔ ∃ ls, FileLines d n path ls ∧ parsePairs env c ls = .ok c' :=
  loadFile_reads ht env n path c c'

namespace ConfFiles

theorem FilesLines.all_plain {R : Str → List Str → Prop} (h : ∀ p ls, R p ls → ∀ l ∈ ls, ¬ bytes ". " <+: l)
    {ps ls : List Str} (hf : FilesLines R ps ls) : ∀ l ∈ ls, ¬ bytes ". " <+: l := by
  induction hf with
  | nil => intro l hl; cases hl
  | cons hr _ ih =>
    intro l hl
    rcases List.mem_append.1 hl with hl | hl
    · exact h _ _ hr l hl
    · exact ih l hl

theorem LinesLines.all_plain {d : Disk} {R : Str → List Str → Prop} (h : ∀ p ls, R p ls → ∀ l ∈ ls, ¬ bytes ". " <+: l)
    {path : Str} {ls out : List Str} (hf : LinesLines d R path ls out) : ∀ l ∈ out, ¬ bytes ". " <+: l := by
  induction hf with
  | nil => intro l hl; cases hl
  | plain hp _ ih =>
    intro l hl
    rcases List.mem_cons.1 hl with rfl | hl
    · exact hp
    · exact ih l hl
  | includes _ _ hfs _ ih =>
    intro l hl
    rcases List.mem_append.1 hl with hl | hl
    · exact hfs.all_plain h l hl
    · exact ih l hl

theorem FileLines.all_plain {d : Disk} {n : Nat} {path : Str} {ls : List Str} (h : FileLines d n path ls) :
    ∀ l ∈ ls, ¬ bytes ". " <+: l := by
  induction n generalizing path ls with
  | zero => cases h
  | succ n ih =>
    obtain ⟨b, ms, -, -, h⟩ := h
    exact h.all_plain (fun p ls hr => ih hr)

theorem loadLines_plain (env : Env) (c : Confs) {ls : List Str} (h : ∀ l ∈ ls, ¬ bytes ". " <+: l) :
    loadLines env c ls = parsePairs env c ls := by
  induction ls generalizing c with
  | nil => rfl
  | cons l ls ih =>
    simp only [loadLines, parsePairs, parseLine]
    rw [if_neg (by rw [List.isPrefixOf_iff_prefix]; exact h l (by simp))]
    congr 1
    funext c
    exact ih c (fun m hm => h m (by simp [hm]))

theorem FilesLines.unique {R R' : Str → List Str → Prop} (h : ∀ p ls ms, R p ls → R' p ms → ls = ms)
    {ps ls ms : List Str} (hf : FilesLines R ps ls) (hg : FilesLines R' ps ms) : ls = ms := by
  induction hf generalizing ms with
  | nil => cases hg; rfl
  | cons hr _ ih =>
    cases hg with
    | cons hr' hg => rw [h _ _ _ hr hr', ih hg]

theorem LinesLines.unique {d : Disk} {R R' : Str → List Str → Prop} (h : ∀ p ls ms, R p ls → R' p ms → ls = ms)
    {path : Str} {ls out out' : List Str} (hf : LinesLines d R path ls out) (hg : LinesLines d R' path ls out') :
    out = out' := by
  induction hf generalizing out' with
  | nil => cases hg; rfl
  | plain hp _ ih =>
    cases hg with
    | plain _ hg => rw [ih hg]
    | includes => exact absurd (List.prefix_append _ _) hp
  | @includes name p ls out outs hn _ hfs _ ih =>
    generalize hl : bytes ". " ++ name = l at hg
    cases hg with
    | plain hp => exact absurd (hl ▸ List.prefix_append _ _) hp
    | @includes name' p' _ out2 outs2 hn' _ hfs' hg =>
      have := List.append_cancel_left hl
      subst this
      have hp : p = p' := hn.pattern.symm.trans hn'.pattern
      subst hp
      rw [hfs.unique h hfs', ih hg]

end ConfFiles

/-- A file stands for not more than one list of lines. -/
theorem C101_unique {d : Disk} {n m : Nat} {path : Str} {ls ms : List Str} (h : FileLines d n path ls)
    (h' : FileLines d m path ms) : ls = ms := by
  induction n generalizing m path ls ms with
  | zero => cases h
  | succ n ih =>
    cases m with
    | zero => cases h'
    | succ m =>
      obtain ⟨b, l1, hb, ht, h⟩ := h
      obtain ⟨b', l2, hb', ht', h'⟩ := h'
      rw [hb] at hb'
      injection hb' with hb'
      subst hb'
      rw [ht.unique ht'] at h
      exact LinesLines.unique (R := FileLines d n) (R' := FileLines d m) (fun p a b ha hb => ih ha hb) h h'

/-- The file that a program is started with: its settings are those of C73 for the lines that the file stands for. -/
theorem C101_started_partial {d : Disk} (ht : Tidy d) (env : Env) (n : Nat) (path : Str) (c : Confs) :
    load d env n path = .ok c ↔ ∃ ls, FileLines d n path ls ∧ loadGlobal env path ls = .ok c := by
  unfold load loadGlobal
  constructor
  · intro h
    split at h
    · cases h
    · cases h
    · rename_i c1 h1
      obtain ⟨ls, hf, hp⟩ := (C101_lines_partial ht env n path _ c1).1 h1
      refine ⟨ls, hf, ?_⟩
      rw [loadLines_plain env _ hf.all_plain, hp]
      exact h
  · rintro ⟨ls, hf, h⟩
    rw [loadLines_plain env _ hf.all_plain] at h
    obtain ⟨c1, h1, h⟩ := Out.bind_ok h
    rw [(C101_lines_partial ht env n path _ c1).2 ⟨ls, hf, h1⟩]
    exact h

/-- A file that would stand for lines without end is refused: `S` is a set of files each of which includes one of
them, such as a file that includes itself. -/
theorem C101_endless_partial {d : Disk} (ht : Tidy d) (env : Env) (S : Str → Prop)
    (hS : ∀ p, S p → ∃ b ls name q r, d.file p = some b ∧ Text ls b ∧ (bytes ". " ++ name) ∈ ls ∧ Named p name q ∧
      r ∈ d.glob q ∧ S r)
    (n : Nat) {path : Str} (hp : S path) (c c' : Confs) : loadFile d env n path c ≠ .done true c' := by
  intro h
  obtain ⟨ls, hf, -⟩ := (C101_lines_partial ht env n path c c').1 h
  clear h
  induction n generalizing path ls with
  | zero => cases hf
  | succ n ih =>
    obtain ⟨b, ms, hb, htx, hf⟩ := hf
    obtain ⟨b', ms', name, q, r, hb', htx', hm, hn, hr, hSr⟩ := hS path hp
    rw [hb] at hb'
    injection hb' with hb'
    subst hb'
    rw [htx'.unique htx] at hm
    clear htx htx' hb
    have key : ∃ out, FileLines d n r out := by
      induction hf with
      | nil => cases hm
      | plain hpre _ ih2 =>
        rcases List.mem_cons.1 hm with rfl | hm
        · exact absurd (List.prefix_append _ _) hpre
        · exact ih2 hm
      | @includes name' p' ls out outs hn' _ hfs _ ih2 =>
        rcases List.mem_cons.1 hm with hm | hm
        · have := List.append_cancel_left hm
          subst this
          have hq : q = p' := hn.pattern.symm.trans hn'.pattern
          subst hq
          clear ih2 hn hn' hm
          generalize d.glob q = ps at hr hfs
          induction hfs with
          | nil => cases hr
          | cons hr1 _ ih3 =>
            rcases List.mem_cons.1 hr with rfl | hr
            · exact ⟨_, hr1⟩
            · exact ih3 hr
        · exact ih2 hm
    obtain ⟨out, ho⟩ := key
    exact ih hSr out ho

/-! ### Examples -/

namespace ConfFiles

/-- A disk of these files. A pattern matches the file of that name. -/
def disk (fs : List (Str × Str)) : Disk :=
  ⟨fun p => (fs.find? (fun f => f.1 = p)).map Prod.snd,
    fun p => if p = bytes "/etc/burp/conf.d/*" then (fs.map Prod.fst).filter (fun f => (bytes "/etc/burp/conf.d/").isPrefixOf f)
      else (fs.map Prod.fst).filter (fun f => f = p)⟩

/-- Nothing outside but the files, and no options on the command line. -/
def plainEnv : Env := ⟨fun _ => none, fun _ => [], fun v => v == bytes "0", fun _ => 0, []⟩

/-- A file that includes all files of a directory, one of which includes another one. -/
def nested : Disk := disk [
  (bytes "/etc/burp/burp.conf", bytes "mode = client\nserver = one\n. conf.d/*\npassword = two\n"),
  (bytes "/etc/burp/conf.d/a", bytes "server = three\n. /etc/burp/more\n"),
  (bytes "/etc/burp/conf.d/b", bytes "# nothing\ncname = four"),
  (bytes "/etc/burp/more", bytes "cname = five\npassword = six\n")]

/-- The files of an example are tidy. -/
theorem tidy_disk {fs : List (Str × Str)}
    (h : ∀ f ∈ fs, (0 : Byte) ∉ f.2 ∧ (∃ ls, Text ls f.2 ∧ ∀ l ∈ ls, l.length < 4095) ∧
      ∃ dir base, f.1 = dir ++ slash :: base ∧ slash ∉ base ∧ dir ≠ []) : Tidy (disk fs) := by
  intro p b hb
  simp only [disk, Option.map_eq_some_iff] at hb
  obtain ⟨f, hf, rfl⟩ := hb
  have hm := List.mem_of_find?_eq_some hf
  have he := List.find?_some hf
  simp only [decide_eq_true_eq] at he
  obtain ⟨h0, ⟨ls, ht, hs⟩, hd⟩ := h f hm
  refine ⟨h0, ls, ht, fun l hl => ⟨hs l hl, fun _ _ _ _ => ?_⟩⟩
  rw [← he]
  exact hd

theorem nested_tidy : Tidy nested := by
  apply tidy_disk
  intro f hf
  simp only [List.mem_cons, List.not_mem_nil, or_false] at hf
  rcases hf with rfl | rfl | rfl | rfl
  · exact ⟨by decide, ⟨[bytes "mode = client", bytes "server = one", bytes ". conf.d/*", bytes "password = two"],
      ⟨by decide, .inl (by decide)⟩, by decide⟩, bytes "/etc/burp", bytes "burp.conf", by decide, by decide, by decide⟩
  · exact ⟨by decide, ⟨[bytes "server = three", bytes ". /etc/burp/more"], ⟨by decide, .inl (by decide)⟩, by decide⟩,
      bytes "/etc/burp/conf.d", bytes "a", by decide, by decide, by decide⟩
  · exact ⟨by decide, ⟨[bytes "# nothing", bytes "cname = four"],
      ⟨by decide, .inr ⟨[bytes "# nothing"], bytes "cname = four", by decide, by decide, by decide⟩⟩, by decide⟩,
      bytes "/etc/burp/conf.d", bytes "b", by decide, by decide, by decide⟩
  · exact ⟨by decide, ⟨[bytes "cname = five", bytes "password = six"], ⟨by decide, .inl (by decide)⟩, by decide⟩,
      bytes "/etc/burp", bytes "more", by decide, by decide, by decide⟩

/-- A property of what is read. -/
def ofLoad {α : Type} (r : Res) (f : Confs → α) : Option α := match r with
  | .done true c => some (f c)
  | _ => none

example : ofLoad (loadFile nested plainEnv 3 (bytes "/etc/burp/burp.conf") init)
    (fun c => (getStr c .SERVER, getStr c .CNAME, getStr c .PASSWORD)) =
    some (some (bytes "three"), some (bytes "four"), some (bytes "two")) := by decide +kernel

/-- With one more file open at the same time than there can be. -/
example : ofLoad (loadFile nested plainEnv 2 (bytes "/etc/burp/burp.conf") init) (fun c => getStr c .SERVER) = none := by
  decide +kernel

/-- A file that includes itself meets the conditions of `C101_endless_partial`. -/
def endless : Disk := disk [(bytes "/etc/burp/burp.conf", bytes "server = one\n. burp.conf\n")]

example : Tidy endless ∧ ∀ n c c', loadFile endless plainEnv n (bytes "/etc/burp/burp.conf") c ≠ .done true c' := by
  have ht : Tidy endless := by
    apply tidy_disk
    intro f hf
    simp only [List.mem_cons, List.not_mem_nil, or_false] at hf
    subst hf
    exact ⟨by decide, ⟨[bytes "server = one", bytes ". burp.conf"], ⟨by decide, .inl (by decide)⟩, by decide⟩,
      bytes "/etc/burp", bytes "burp.conf", by decide, by decide, by decide⟩
  refine ⟨ht, fun n c c' => C101_endless_partial ht plainEnv (· = bytes "/etc/burp/burp.conf") ?_ n rfl c c'⟩
  rintro p rfl
  exact ⟨_, [bytes "server = one", bytes ". burp.conf"], bytes "burp.conf", bytes "/etc/burp/burp.conf", _, rfl,
    ⟨by decide, .inl (by decide)⟩, by decide,
    .relative (bytes "/etc/burp") (bytes "burp.conf") (bytes "burp.conf") (by decide) (by decide) (by decide)
      (by decide) (by decide), by decide +kernel, rfl⟩

theorem pieces_full {l : Str} (h : newline ∉ l) {room : Nat} (hr : l.length = room + 1) (cur rest : Str) :
    pieces (room + 1) cur (l ++ rest) = (cur ++ l) :: pieces 4095 [] rest := by
  induction l generalizing cur room with
  | nil => simp at hr
  | cons x xs ih =>
    have hx : x ≠ newline := fun e => h (by simp [e])
    have hxs : newline ∉ xs := fun m => h (by simp [m])
    simp only [List.length_cons] at hr
    simp only [List.cons_append, pieces]
    cases room with
    | zero =>
      have : xs = [] := List.eq_nil_of_length_eq_zero (by omega)
      subst this
      simp
    | succ r =>
      rw [if_neg (by rintro (e | e); exact hx e; omega), Nat.add_sub_cancel, ih hxs (by omega)]
      simp

/-- A long comment. -/
def comment : Str := 35 :: List.replicate 4094 120 ++ bytes "server = evil"

end ConfFiles

/-- C101 fails: a line of 4095 bytes or more is read as several lines. A comment can set the name of the server. -/
theorem C101_long_violated : ∃ (d : Disk) (path : Str), d.file path = some comment ∧ Text [comment] comment ∧
    comment.head? = some 35 ∧ ofLoad (loadFile d plainEnv 1 path init) (fun c => getStr c .SERVER) =
      some (some (bytes "evil")) := by
  refine ⟨⟨fun _ => some comment, fun _ => []⟩, [], rfl, ⟨?_, .inr ⟨[], comment, rfl, ?_, by simp⟩⟩, rfl, ?_⟩
  · intro l hl
    simp only [List.mem_singleton] at hl
    subst hl
    unfold comment
    simp only [List.cons_append, List.mem_cons, List.mem_append, List.mem_replicate, not_or]
    exact ⟨by decide, fun h => absurd h.2 (by decide), by decide⟩
  · exact List.cons_ne_nil _ _
  · unfold loadFile
    simp only
    have hp : pieces 4095 [] comment = [35 :: List.replicate 4094 120, bytes "server = evil"] := by
      unfold comment
      rw [pieces_full (room := 4094) ?_ ?_]
      · rw [List.nil_append]
        congr 1
      · simp only [List.mem_cons, List.mem_replicate, not_or]
        exact ⟨by decide, fun h => absurd h.2 (by decide)⟩
      · simp only [List.length_cons, List.length_replicate]
    rw [hp]
    have h1 (d : Disk) (ld : Str → Confs → Res) (c : Confs) :
        line d plainEnv ld [] (35 :: List.replicate 4094 120) c = .done true c := by
      rw [line_plain]
      · have : ConfLine.getPair (35 :: List.replicate 4094 120) = .blank := by
          unfold ConfLine.getPair
          rw [List.dropWhile_cons_of_neg (by decide)]
          simp
        simp only [parsePair, this]
      · simp only [List.mem_cons, List.mem_replicate, not_or]
        exact ⟨by decide, fun h => absurd h.2 (by decide)⟩
      · rintro ⟨t, ht⟩
        have e : bytes ". " = [46, 32] := by decide
        rw [e, List.cons_append] at ht
        injection ht with ht
        exact absurd ht (by decide)
    simp only [linesLoop, h1]
    decide +kernel

/-- C101 fails: a file in the root directory that includes another one by a relative name does not include the one
beside it, but one in the directory that the program was started in. -/
theorem C101_root_violated :
    ofLoad (loadFile (disk [(bytes "/burp.conf", bytes ". extra\n"), (bytes "/extra", bytes "server = right\n"),
      (bytes "extra", bytes "server = wrong\n")]) plainEnv 9 (bytes "/burp.conf") init) (fun c => getStr c .SERVER) =
      some (some (bytes "wrong")) := by decide +kernel

/-- C101 fails: a program that is told to use a file in the directory that it was started in, by the name of that
file alone, does not find those that the file includes by relative names. -/
theorem C101_name_violated :
    ofLoad (loadFile (disk [(bytes "./burp.conf", bytes ". extra\n"), (bytes "burp.conf", bytes ". extra\n"),
      (bytes "./extra", bytes "server = right\n"), (bytes "extra", bytes "server = right\n")]) plainEnv 9
      (bytes "burp.conf") init) (fun c => getStr c .SERVER) = none ∧
    ofLoad (loadFile (disk [(bytes "./burp.conf", bytes ". extra\n"), (bytes "burp.conf", bytes ". extra\n"),
      (bytes "./extra", bytes "server = right\n"), (bytes "extra", bytes "server = right\n")]) plainEnv 9
      (bytes "./burp.conf") init) (fun c => getStr c .SERVER) = some (some (bytes "right")) := by
  constructor <;> decide +kernel

end Verif
