import Verif.Lemmas.ListClient
import Verif.Props.Browse
import Verif.Props.Restore

/-!
# C88: what a listing shows
-/

namespace Verif.ListClient
open Verif Verif.Iobuf Verif.Attribs

theorem client_name (style : Style) (clock : Int → Str) (extra : Str) (s : Ls) (desc : Request.Bu → Str)
    (b : Request.Bu) (hb : NoNul (b.bak.timestamp ++ desc b)) (rest : List Rec) :
    clientLoop style clock extra s (nameMsg desc b :: rest) =
      ((if style = .parseable then [] else bytes "Backup: " ++ (b.bak.timestamp ++ desc b) ++ [newline] ++ extra) ++
        (clientLoop style clock extra s rest).1, (clientLoop style clock extra s rest).2) := by
  rw [clientLoop.eq_def]
  unfold nameMsg
  simp only
  rw [if_neg (by decide), if_pos trivial, Sbuf.cstr_noNul hb]

theorem header_eq (style : Style) (desc : Request.Bu → Str) (rt : Option Str) (b : Request.Bu) :
    header style desc rt b = if style = .parseable then []
      else bytes "Backup: " ++ (b.bak.timestamp ++ desc b) ++ [newline] ++ extraLines none rt := by
  unfold header extraLines
  cases rt <;> simp [lines]

theorem line_eq (style : Style) (clock : Int → Str) {e : Ent} (h : e.Good) :
    Shape.line style clock ⟨e.cmd, e.attr, e.path, e.link⟩ = lineOf style clock e := by
  unfold Shape.line lineOf longLine
  cases style <;> simp only [Sbuf.cstr_noNul h.path]
  rfl

theorem inside_eq {style : Style} {clock : Int → Str} (hc : Short clock) (extra : Str) (regex : Str → Bool)
    (heap : Str) (es : List Ent) (hg : ∀ e ∈ es, e.Good) (rest : List Rec) {s : Ls} (hs : s.Ok) :
    ∃ s', s'.Ok ∧ clientLoop style clock extra s (contents none regex heap es ++ rest) =
      (lines (((visible es).filter fun e => regex e.path).map (lineOf style clock)) ++
        (clientLoop style clock extra s' rest).1, (clientLoop style clock extra s' rest).2) := by
  unfold contents
  rw [contents_shapes, shapes_plain]
  simp only [Bool.false_and, Bool.false_eq_true, if_false, List.append_nil]
  obtain ⟨s', hs', h⟩ := client_shapes (style := style) hc extra
    (((visible es).filter fun e => regex e.path).map fun e => (⟨e.cmd, e.attr, e.path, e.link⟩ : Shape))
    (by
      intro x hx
      obtain ⟨e, he, rfl⟩ := List.mem_map.mp hx
      have h1 := List.mem_filter.mp (List.mem_filter.mp he).1
      exact shape_ok (hg e h1.1) (by simpa using h1.2)) rest hs
  refine ⟨s', hs', ?_⟩
  rw [h, List.map_map]
  congr 2
  congr 1
  apply List.map_congr_left
  intro e he
  have h1 := List.mem_filter.mp (List.mem_filter.mp he).1
  exact line_eq style clock (hg e h1.1)

theorem many_eq {style : Style} {clock : Int → Str} (hc : Short clock) (rt : Option Str) (regex : Str → Bool)
    (heap : Str) (desc : Request.Bu → Str) (ents : Request.Bu → List Ent) (l : List Request.Bu)
    (hn : ∀ b ∈ l, NoNul (b.bak.timestamp ++ desc b)) (hg : ∀ b ∈ l, ∀ e ∈ ents b, e.Good) :
    ∀ {s : Ls}, s.Ok → clientLoop style clock (extraLines none rt) s
        (l.flatMap fun b => nameMsg desc b :: contents none regex heap (ents b)) =
      (l.flatMap fun b => header style desc rt b ++
        lines (((visible (ents b)).filter fun e => regex e.path).map (lineOf style clock)), .ok) := by
  induction l with
  | nil => intro s _; rw [List.flatMap_nil, clientLoop.eq_def]; rfl
  | cons b l ih =>
    intro s hs
    rw [List.flatMap_cons, List.cons_append, client_name _ _ _ _ _ _ (hn b (by simp))]
    obtain ⟨s', hs', h⟩ := inside_eq (style := style) hc (extraLines none rt) regex heap (ents b) (hg b (by simp))
      (l.flatMap fun b => nameMsg desc b :: contents none regex heap (ents b)) hs
    rw [h, ih (fun x hx => hn x (by simp [hx])) (fun x hx => hg x (by simp [hx])) hs', List.flatMap_cons, header_eq]
    simp

theorem init_ok : Ls.Ok {} := ⟨by decide, by decide⟩

end Verif.ListClient

namespace Verif
open Verif.Iobuf Verif.Attribs Verif.ListClient

/-- C88: a listing without contents shows a line for each backup, and nothing else. -/
theorem C88_names (style : Style) (hst : style ≠ .parseable) (clock : Int → Str) (desc : Request.Bu → Str)
    (inside : Request.Bu → List Rec) (l : List Request.Bu) (hn : ∀ b ∈ l, NoNul (b.bak.timestamp ++ desc b)) :
    client style clock none none (answer desc inside (.names l)) =
      (lines (l.map fun b => bytes "Backup: " ++ b.bak.timestamp ++ desc b), .ok) := by
  show clientLoop style clock (extraLines none none) {} (l.map (nameMsg desc)) = _
  generalize ({} : Ls) = s
  induction l with
  | nil => rw [List.map_nil, clientLoop.eq_def]; rfl
  | cons b l ih =>
    rw [List.map_cons, client_name _ _ _ _ _ _ (hn b (by simp)), ih (fun x hx => hn x (by simp [hx])), if_neg hst,
      List.map_cons, lines_cons]
    simp [extraLines]

/-- C88: a client without backups is told so, and that is no error; a backup that does not exist is an error. -/
theorem C88_nothing (style : Style) (clock : Int → Str) (bd rt : Option Str) (desc : Request.Bu → Str)
    (inside : Request.Bu → List Rec) :
    (client style clock bd rt (answer desc inside .noBackups)).2 = .ok ∧
    (client style clock bd rt (answer desc inside .notFound)).2 = .failed ∧
    (style ≠ .parseable → (client style clock bd rt (answer desc inside .noBackups)).1 = lines [bytes "no backups"] ∧
      (client style clock bd rt (answer desc inside .notFound)).1 = lines [bytes "backup not found"]) := by
  have h1 : cstr (bytes "no backups") = bytes "no backups" := by decide +kernel
  have h2 : cstr (bytes "backup not found") = bytes "backup not found" := by decide +kernel
  have h3 : bytes "backup not found" ≠ bytes "no backups" := by decide +kernel
  unfold client answer
  rw [clientLoop.eq_def, clientLoop.eq_def]
  refine ⟨?_, ?_, fun hs => ⟨?_, ?_⟩⟩
  · simp [h1]
  · simp [h2, h3]
  · simp [h1, hs, lines]
  · simp [h2, hs, lines]

/-- C88: a listing of contents shows, for each backup, its name and then each entry that matches, once, in
order, and ends well. This is so for short, long, and parseable listings. -/
theorem C88_contents (style : Style) (clock : Int → Str) (hc : Short clock) (rt : Option Str) (regex : Str → Bool)
    (heap : Str) (desc : Request.Bu → Str) (ents : Request.Bu → List Ent) (l : List Request.Bu)
    (hn : ∀ b ∈ l, NoNul (b.bak.timestamp ++ desc b)) (hg : ∀ b ∈ l, ∀ e ∈ ents b, e.Good) :
    client style clock none rt (answer desc (fun b => contents none regex heap (ents b)) (.contents l)) =
      (l.flatMap fun b => header style desc rt b ++
        lines (((visible (ents b)).filter fun e => regex e.path).map (lineOf style clock)), .ok) :=
  many_eq hc rt regex heap desc ents l hn hg init_ok

/-- C88: what a parseable listing prints is read back as the paths that were listed, with nothing more, also
if there are line breaks in them. -/
theorem C88_parseable (clock : Int → Str) (hc : Short clock) (rt : Option Str) (regex : Str → Bool)
    (heap : Str) (desc : Request.Bu → Str) (ents : Request.Bu → List Ent) (l : List Request.Bu)
    (hn : ∀ b ∈ l, NoNul (b.bak.timestamp ++ desc b)) (hg : ∀ b ∈ l, ∀ e ∈ ents b, e.Good)
    (hl : ∀ b ∈ l, ∀ e ∈ ents b, e.path.length ≤ 65535) :
    readAll (client .parseable clock none rt
        (answer desc (fun b => contents none regex heap (ents b)) (.contents l))).1 =
      ((l.flatMap fun b => ((visible (ents b)).filter fun e => regex e.path).map fun e => ⟨Cmd.file.toByte, e.path⟩),
        true) := by
  rw [C88_contents .parseable clock hc rt regex heap desc ents l hn hg]
  have e : (l.flatMap fun b => header .parseable desc rt b ++
        lines (((visible (ents b)).filter fun e => regex e.path).map (lineOf .parseable clock))) =
      ((l.flatMap fun b => ((visible (ents b)).filter fun e => regex e.path).map
        fun e => (⟨Cmd.file.toByte, e.path⟩ : Rec)).map enc).flatten := by
    clear hl hg hn
    induction l with
    | nil => rfl
    | cons b l ih =>
      rw [List.flatMap_cons, List.flatMap_cons, ih, List.map_append, List.flatten_append]
      congr 1
      unfold header lines
      rw [if_pos rfl, List.nil_append, List.map_map, List.map_map]
      congr 1
  have hok : ∀ r ∈ (l.flatMap fun b => ((visible (ents b)).filter fun e => regex e.path).map
      fun e => (⟨Cmd.file.toByte, e.path⟩ : Rec)), r.Ok := by
    intro r hr
    obtain ⟨b, hb, hr⟩ := List.mem_flatMap.mp hr
    obtain ⟨e, he, rfl⟩ := List.mem_map.mp hr
    have h1 := List.mem_filter.mp (List.mem_filter.mp he).1
    exact ⟨show Cmd.file.toByte ≠ 0 by decide, hl b hb e h1.1⟩
  have := readAll_encs hok []
  rw [List.append_nil] at this
  rw [e, this, readAll_nil]
  simp

/-- The entry as a restore sees it. -/
def ListClient.Ent.stored (e : ListClient.Ent) : Restore.Ent :=
  ⟨e.cmd, e.path, isDir e.attr.mode, e.attr.dev.toNat, e.attr.ino.toNat, []⟩

/-- C88: restoring with the list that a parseable listing of a backup with a regular expression printed is the
same as restoring with the regular expression. The backup is one whose entries are in order, each path once, with
metadata only for what is there. -/
theorem C88_restore (clock : Int → Str) (hc : Short clock) (rt : Option Str) (regex : Str → Bool) (heap : Str)
    (desc : Request.Bu → Str) (b : Request.Bu) (es : List ListClient.Ent) (hn : NoNul (b.bak.timestamp ++ desc b))
    (hg : ∀ e ∈ es, e.Good) (hl : ∀ e ∈ es, e.path.length ≤ 65535)
    (ho : es.Pairwise fun a b => PathCmp.pathcmp a.path b.path ≤ 0)
    (hs : (visible es).Pairwise fun a b => PathCmp.pathcmp a.path b.path < 0)
    (hm : ∀ e ∈ es, ∃ e' ∈ visible es, e'.path = e.path)
    (q : Restore.Request) (hq1 : q.regex = none) (hq2 : q.list = none) :
    let printed := (client .parseable clock none rt
      (answer desc (fun _ => contents none regex heap es) (.contents [b]))).1
    let fromList := { q with list := some ((readAll printed).1.map (·.buf), !(readAll printed).2) }
    let direct := { q with regex := some regex }
    ((Restore.actualRestore fromList (es.map ListClient.Ent.stored)).map Prod.fst).Perm
      ((Restore.actualRestore direct (es.map ListClient.Ent.stored)).map Prod.fst) := by
  intro printed fromList direct
  have hp := C88_parseable clock hc rt regex heap desc (fun _ => es) [b] (by simpa using hn) (by simpa using hg)
    (by simpa using hl)
  have hrd : readAll printed =
      (((visible es).filter fun e => regex e.path).map fun e => ⟨Cmd.file.toByte, e.path⟩, true) := by
    show readAll (client .parseable clock none rt
      (answer desc (fun _ => contents none regex heap es) (.contents [b]))).1 = _
    rw [hp]; simp
  have hpaths : (readAll printed).1.map (·.buf) = ((visible es).filter fun e => regex e.path).map (·.path) := by
    rw [hrd, List.map_map]; rfl
  have hnn : ∀ e ∈ es.map ListClient.Ent.stored, NoNul e.path := by
    intro e he
    obtain ⟨x, hx, rfl⟩ := List.mem_map.mp he
    exact (hg x hx).path
  have hord : PathOrdered (es.map ListClient.Ent.stored) := by
    unfold PathOrdered
    rw [List.pairwise_map]
    exact ho
  have hgood1 : GoodRequest fromList := by
    intro l bad h
    have h : some ((readAll printed).1.map (·.buf), !(readAll printed).2) = some (l, bad) := h
    injection h with h
    injection h with ha hb
    rw [← ha, ← hb, hpaths, hrd]
    refine ⟨rfl, ?_⟩
    rw [List.pairwise_map]
    exact hs.sublist List.filter_sublist
  have hgood2 : GoodRequest direct := by
    intro l bad h
    have h : q.list = some (l, bad) := h
    rw [hq2] at h; cases h
  have h1 := C33_selection fromList _ hnn hgood1 hord
  have h2 := C33_selection direct _ hnn hgood2 hord
  have he : chosen fromList (es.map ListClient.Ent.stored) = chosen direct (es.map ListClient.Ent.stored) := by
    unfold chosen
    apply List.filter_congr
    intro e he
    apply decide_eq_decide.mpr
    obtain ⟨x, hx, rfl⟩ := List.mem_map.mp he
    obtain ⟨x', hx', hxp⟩ := hm x hx
    have key : x.path ∈ (readAll printed).1.map (·.buf) ↔ regex x.path = true := by
      rw [hpaths, List.mem_map]
      constructor
      · rintro ⟨y, hy, hyp⟩
        have := (List.mem_filter.mp hy).2
        rw [← hyp]
        exact this
      · intro hr
        exact ⟨x', List.mem_filter.mpr ⟨hx', by rw [hxp]; exact hr⟩, hxp⟩
    constructor
    · rintro ⟨a1, a2, a3, -⟩
      refine ⟨a1, fun l bad h => ?_, a3, fun r h => ?_⟩
      · have h : q.list = some (l, bad) := h
        rw [hq2] at h; cases h
      · have h : some regex = some r := h
        injection h with h
        rw [← h]
        exact key.1 (a2 _ _ rfl)
    · rintro ⟨a1, -, a3, a4⟩
      refine ⟨a1, fun l bad h => ?_, a3, fun r h => ?_⟩
      · have h : some ((readAll printed).1.map (·.buf), !(readAll printed).2) = some (l, bad) := h
        injection h with h
        injection h with ha hb
        rw [← ha]
        exact key.2 (a4 _ rfl)
      · have h : q.regex = some r := h
        rw [hq1] at h; cases h
  rw [← he] at h2
  exact h1.trans h2.symm

/-- C88: in a directory, a short listing shows the names that C44 speaks of, whatever lies in the memory of the
server; and it ends with an error if there is no such directory. -/
theorem C88_directory (clock : Int → Str) (hc : Short clock) (d : Str) (regex : Str → Bool) (heap : Str)
    (desc : Request.Bu → Str) (b : Request.Bu) (es : List ListClient.Ent) (hn : NoNul (b.bak.timestamp ++ desc b))
    (hg : ∀ e ∈ es, e.Good) :
    client .short clock (some d) none
        (answer desc (fun _ => contents (some d) regex heap es) (.contents [b])) =
      (lines ([bytes "Backup: " ++ b.bak.timestamp ++ desc b, bytes "Listing directory: " ++ d] ++
          listedNames (some d) regex (es.map ListClient.Ent.seen)),
        if (Browse.listManifest (some d) regex (es.map ListClient.Ent.seen)).2 then .failed else .ok) := by
  obtain ⟨h1, h2, h3⟩ := shapes_dir d regex heap es hg none
  unfold client answer
  simp only [List.flatMap_cons, List.flatMap_nil, List.append_nil]
  rw [client_name _ _ _ _ _ _ hn]
  unfold contents
  rw [contents_shapes]
  simp only
  obtain ⟨s', -, h⟩ := client_shapes (style := .short) hc (extraLines (some d) none) _ h3
    (if (!d.isEmpty && (shapesLoop (some d) regex heap none es).2.isNone) = true then
      [⟨Cmd.error.toByte, bytes "directory not found"⟩] else []) (s := {}) init_ok
  rw [h]
  have hl : (shapesLoop (some d) regex heap none es).1.map (Shape.line .short clock) =
      listedNames (some d) regex (es.map ListClient.Ent.seen) := by
    unfold listedNames Browse.listManifest
    exact h1
  have he : (!d.isEmpty && (shapesLoop (some d) regex heap none es).2.isNone) =
      (Browse.listManifest (some d) regex (es.map ListClient.Ent.seen)).2 := by
    unfold Browse.listManifest
    rw [h2]
  rw [hl, he, lines_append]
  have hend : clientLoop .short clock (extraLines (some d) none) s'
      (if (Browse.listManifest (some d) regex (es.map ListClient.Ent.seen)).2 = true then
        [⟨Cmd.error.toByte, bytes "directory not found"⟩] else []) =
      ([], if (Browse.listManifest (some d) regex (es.map ListClient.Ent.seen)).2 then .failed else .ok) := by
    by_cases hx : (Browse.listManifest (some d) regex (es.map ListClient.Ent.seen)).2 = true
    · rw [if_pos hx, if_pos hx, clientLoop.eq_def]
      simp only
      rw [if_neg (by decide), if_neg (by decide), if_pos (by decide)]
    · rw [if_neg hx, if_neg hx, clientLoop.eq_def]
  rw [hend]
  simp [lines, extraLines]

/-- The type of a file, of the sixteen there can be. -/
theorem type_cases (m : Int) : ∃ t ∈ [0, 1, 2, 3, 4, 5, 6, 7, 8, 9, 10, 11, 12, 13, 14, 15], m / 4096 % 16 = (t : Int) := by
  have h1 := Int.emod_nonneg (m / 4096) (show (16 : Int) ≠ 0 by decide)
  have h2 := Int.emod_lt_of_pos (m / 4096) (show (0 : Int) < 16 by decide)
  refine ⟨m / 4096 % 16, ?_, rfl⟩
  simp only [List.mem_cons, List.not_mem_nil, or_false]
  omega

theorem kind_same (m m' : Int) : kindChar m = kindChar m' ↔
    ∀ t ∈ letters.map (·.1), m / 4096 % 16 = t ↔ m' / 4096 % 16 = t := by
  obtain ⟨t, ht, e⟩ := type_cases m
  obtain ⟨t', ht', e'⟩ := type_cases m'
  unfold kindChar
  simp only [e, e']
  clear e e'
  revert t t'
  decide +kernel

theorem bit_same (m m' : Int) (k : Nat) : bit m k = bit m' k ↔ m / 2 ^ k % 2 = m' / 2 ^ k % 2 := by
  unfold bit
  have h1 := Int.emod_two_eq (m / 2 ^ k)
  have h2 := Int.emod_two_eq (m' / 2 ^ k)
  rcases h1 with h1 | h1 <;> rcases h2 with h2 | h2 <;> simp [h1, h2]

/-- C88: what a long listing shows of the mode is all of it: the kind, and every bit of the permissions. -/
theorem C88_mode (m m' : Int) : encodeMode m = encodeMode m' ↔ SameMode m m' := by
  have hf : ∀ (x y : Bool) (c : Byte), c ≠ 45 → (flagChar x c = flagChar y c ↔ x = y) := by
    intro x y c hc
    unfold flagChar
    cases x <;> cases y <;> simp [hc, hc.symm]
  have hs : ∀ x o x' o' : Bool, execChar x o 115 83 = execChar x' o' 115 83 ↔ x = x' ∧ o = o' := by decide
  have ht : ∀ x o x' o' : Bool, execChar x o 116 84 = execChar x' o' 116 84 ↔ x = x' ∧ o = o' := by decide
  unfold encodeMode SameMode
  simp only [← kind_same, ← bit_same]
  simp only [List.cons.injEq, and_true, hf _ _ 114 (by decide), hf _ _ 119 (by decide), hs, ht]
  constructor
  · rintro ⟨h0, h8, h7, ⟨h6, h11⟩, h5, h4, ⟨h3, h10⟩, h2, h1, h00, h9⟩
    refine ⟨h0, fun k hk => ?_⟩
    match k, hk with
    | 0, _ => exact h00
    | 1, _ => exact h1
    | 2, _ => exact h2
    | 3, _ => exact h3
    | 4, _ => exact h4
    | 5, _ => exact h5
    | 6, _ => exact h6
    | 7, _ => exact h7
    | 8, _ => exact h8
    | 9, _ => exact h9
    | 10, _ => exact h10
    | 11, _ => exact h11
    | k + 12, h => omega
  · rintro ⟨h0, h⟩
    exact ⟨h0, h 8 (by decide), h 7 (by decide), ⟨h 6 (by decide), h 11 (by decide)⟩, h 5 (by decide),
      h 4 (by decide), ⟨h 3 (by decide), h 10 (by decide)⟩, h 2 (by decide), h 1 (by decide), h 0 (by decide),
      h 9 (by decide)⟩

/-- C88: the first character of a long listing is the letter for the type of the file, a dash if there is
none, and an entry that stands for a directory shows as one, with the permissions it has. -/
theorem C88_kind (m : Int) :
    (∀ p ∈ letters, m / 4096 % 16 = p.1 → (encodeMode m)[0]? = some (UInt8.ofNat p.2.toNat)) ∧
    (m / 4096 % 16 ∉ letters.map (·.1) → (encodeMode m)[0]? = some 45) ∧
    (ListClient.isDir m = true ↔ m / 4096 % 16 = 4) ∧
    ListClient.isDir (fakeMode m) = true ∧ encodeMode (fakeMode m) = 100 :: (encodeMode m).tail := by
  have h0 : (encodeMode m)[0]? = some (kindChar m) := rfl
  have hk : ∀ m, (∀ p ∈ letters, m / 4096 % 16 = p.1 → kindChar m = UInt8.ofNat p.2.toNat) ∧
      (m / 4096 % 16 ∉ letters.map (·.1) → kindChar m = 45) := by
    intro m
    obtain ⟨t, ht, e⟩ := type_cases m
    unfold kindChar
    simp only [e]
    clear e
    revert t
    decide +kernel
  have hd : ∀ m, ListClient.isDir m = true ↔ m / 4096 % 16 = 4 := fun m => by
    unfold ListClient.isDir
    rw [decide_eq_true_iff]
  have hf : fakeMode m / 4096 % 16 = 4 ∧ ∀ k < 12, fakeMode m / 2 ^ k % 2 = m / 2 ^ k % 2 := by
    unfold fakeMode
    split
    · exact ⟨(hd m).mp (by assumption), fun _ _ => rfl⟩
    · refine ⟨by omega, fun k hk => ?_⟩
      match k, hk with
      | 0, _ => omega
      | 1, _ => omega
      | 2, _ => omega
      | 3, _ => omega
      | 4, _ => omega
      | 5, _ => omega
      | 6, _ => omega
      | 7, _ => omega
      | 8, _ => omega
      | 9, _ => omega
      | 10, _ => omega
      | 11, _ => omega
      | k + 12, h => omega
  refine ⟨fun p hp e => by rw [h0, (hk m).1 p hp e], fun hn => by rw [h0, (hk m).2 hn], hd m, (hd _).mpr hf.1, ?_⟩
  have hb : ∀ k < 12, bit (fakeMode m) k = bit m k := fun k h => (bit_same _ _ k).mpr (hf.2 k h)
  have h100 : kindChar (fakeMode m) = 100 := (hk (fakeMode m)).1 (4, 'd') (by decide +kernel) hf.1
  unfold encodeMode
  rw [h100, hb 8 (by decide), hb 7 (by decide), hb 6 (by decide), hb 11 (by decide), hb 5 (by decide),
    hb 4 (by decide), hb 3 (by decide), hb 10 (by decide), hb 2 (by decide), hb 1 (by decide), hb 0 (by decide),
    hb 9 (by decide), List.tail_cons]

end Verif
