import Verif.Model.Find
import Verif.Spec.Timer
import Verif.Props.PathCmp

/-!
# C41, C46 and C61: which files are included, which are hard links, and extensions
-/

namespace Verif
open Verif.Find Verif.PathCmp

/-- `d` contains `p`: it is `p`, `p` lies beneath it, or it ends with a separator and `p` goes on from
there. -/
def Contains (d p : Str) : Prop := Under d p ∨ (d.getLast? = some slash ∧ ∃ y, y ≠ [] ∧ p = d ++ y)

theorem contains_prefix {d p : Str} (h : Contains d p) : d <+: p := by
  rcases h with (rfl | ⟨y, rfl⟩) | ⟨_, y, _, rfl⟩
  · exact List.prefix_refl _
  · exact List.prefix_append _ _
  · exact List.prefix_append _ _

theorem pathcmp_prefix (a : Str) (c : Byte) (r : Str) : pathcmp a (a ++ c :: r) < 0 := by
  induction a with
  | nil => simp [pathcmp]
  | cons x a ih => simpa [pathcmp] using ih

theorem bestDir_post (fname : Str) (post : List Strlist.Elem) (v : Nat) (best : Option Strlist.Elem)
    (h : ∀ e ∈ post, isSubdir e.path fname < v) : bestDir fname post v best = best := by
  induction post with
  | nil => rfl
  | cons e post ih =>
    have := h e (by simp)
    rw [bestDir, if_neg (by omega)]
    exact ih (fun x hx => h x (by simp [hx]))

theorem bestDir_eq (fname : Str) (pre post : List Strlist.Elem) (d : Strlist.Elem) :
    ∀ (longest : Nat) (best : Option Strlist.Elem), longest ≤ isSubdir d.path fname →
    (∀ e ∈ pre, isSubdir e.path fname ≤ isSubdir d.path fname) →
    (∀ e ∈ post, isSubdir e.path fname < isSubdir d.path fname) →
    bestDir fname (pre ++ d :: post) longest best = some d := by
  induction pre with
  | nil =>
    intro longest best h1 _ h3
    rw [List.nil_append, bestDir, if_pos h1]
    exact bestDir_post _ _ _ _ h3
  | cons e pre ih =>
    intro longest best h1 h2 h3
    rw [List.cons_append, bestDir]
    split
    · exact ih _ _ (h2 e (by simp)) (fun x hx => h2 x (by simp [hx])) h3
    · exact ih _ _ h1 (fun x hx => h2 x (by simp [hx])) h3

/-- The lists that have nothing to do with directories do not speak against the file. -/
def NotFiltered (c : Conf) (fname : Str) : Prop :=
  inExcludeExt c.excext fname = false ∧ (∀ r ∈ c.excreg, r fname = false) ∧
    (c.increg = [] ∨ ∃ r ∈ c.increg, r fname = true)

theorem filter_test (c : Conf) (fname : Str) :
    (inExcludeExt c.excext fname || inExcludeRegex c.excreg fname || !inIncludeRegex c.increg fname) = false ↔
      NotFiltered c fname := by
  unfold NotFiltered inExcludeRegex inIncludeRegex
  simp only [Bool.or_eq_false_iff, List.any_eq_false, Bool.not_eq_false', Bool.or_eq_true, List.isEmpty_iff,
    List.any_eq_true, Bool.not_eq_true, and_assoc]

/-- C41: a file in one of the configured directories is included or excluded as the longest of the
configured directories that contain it says, unless an extension or a regular expression excludes it. The
list of directories is sorted and has no path twice, as `finalise_incexc_dirs` makes it. -/
theorem C41_longest_partial (c : Conf) (fname : Str) (d : Strlist.Elem)
    (hs : c.incexcdir.Pairwise (fun a b => pathcmp a.path b.path < 0))
    (hn : ∀ e ∈ c.incexcdir, NoNul e.path) (hf : NoNul fname)
    (hd : d ∈ c.incexcdir) (hc : Contains d.path fname)
    (hl : ∀ e ∈ c.incexcdir, Contains e.path fname → e.path.length ≤ d.path.length) :
    isIncludedNoIncext c fname = true ↔ NotFiltered c fname ∧ d.flag ≠ 0 := by
  have best : bestDir fname c.incexcdir 0 none = some d := by
    obtain ⟨pre, post, he⟩ := List.append_of_mem hd
    rw [he]
    rw [he] at hs hn hl
    have hv := C06_is_subdir_value d.path fname (hn d (by simp)) hf
      ((C06_is_subdir_exact _ _ (hn d (by simp)) hf).2 hc)
    have pref : ∀ e ∈ pre ++ d :: post, isSubdir e.path fname ≠ 0 → e.path <+: d.path := by
      intro e hem h0
      have h1 := (C06_is_subdir_exact _ _ (hn e hem) hf).1 h0
      exact List.prefix_of_prefix_length_le (contains_prefix h1) (contains_prefix hc) (hl e hem h1)
    apply bestDir_eq
    · omega
    · intro e hem
      have hem' : e ∈ pre ++ d :: post := by simp [hem]
      by_cases h0 : isSubdir e.path fname = 0
      · omega
      · rw [C06_is_subdir_value _ _ (hn e hem') hf h0, hv]
        have := (pref e hem' h0).sublist.count_le slash
        omega
    · intro e hem
      have hem' : e ∈ pre ++ d :: post := by simp [hem]
      by_cases h0 : isSubdir e.path fname = 0
      · omega
      · exfalso
        obtain ⟨r, hr⟩ := pref e hem' h0
        have hlt : pathcmp d.path e.path < 0 := by
          have := (List.pairwise_append.1 hs).2.1
          exact (List.pairwise_cons.1 this).1 e hem
        rw [← hr] at hlt
        cases r with
        | nil =>
          rw [List.append_nil] at hlt
          have := pathcmp_self e.path
          omega
        | cons x r =>
          have h1 := pathcmp_prefix e.path x r
          have h2 := pathcmp_antisymm e.path (e.path ++ x :: r)
          omega
  unfold isIncludedNoIncext
  rw [best]
  by_cases h : NotFiltered c fname
  · rw [(filter_test c fname).2 h]
    simp [h]
  · have : (inExcludeExt c.excext fname || inExcludeRegex c.excreg fname || !inIncludeRegex c.increg fname) = true := by
      rw [← Bool.not_eq_false, filter_test]; exact h
    rw [this]
    simp [h]

/-- C41: not so for a file that none of the directories contains: that is decided by the last directory of
the list, which has nothing to do with it. -/
theorem C41_no_directory_violated :
    ∃ (c : Conf) (fname : Str), (∀ e ∈ c.incexcdir, isSubdir e.path fname = 0) ∧
      isIncludedNoIncext c fname = true :=
  ⟨⟨[], [], [], [], [⟨bytes "/home", 1⟩], 0, 0⟩, bytes "/etc/passwd", by decide, by decide⟩

/-- An instance: a directory excluded, one beneath it included again. -/
def exConf : Conf :=
  ⟨[], [bytes "iso"], [], [], [⟨bytes "/", 1⟩, ⟨bytes "/var", 0⟩, ⟨bytes "/var/lib", 1⟩], 0, 0⟩

example : isIncludedNoIncext exConf (bytes "/var/lib/x") = true ∧ isIncludedNoIncext exConf (bytes "/var/y") = false ∧
    isIncludedNoIncext exConf (bytes "/variable") = true ∧
    isIncludedNoIncext exConf (bytes "/var/lib/x.ISO") = false := by decide

example : exConf.incexcdir.Pairwise (fun a b => pathcmp a.path b.path < 0) ∧
    Contains (bytes "/var/lib") (bytes "/var/lib/x") ∧ NotFiltered exConf (bytes "/var/lib/x") := by
  refine ⟨by decide, Or.inl (Or.inr ⟨bytes "x", by decide⟩), ?_⟩
  refine ⟨by decide, by simp [exConf], Or.inl rfl⟩

/-! ### Extensions -/

/-- The extension of a file name, the part after its last dot, is in the list, without regard to case. -/
def HasExt (exts : List Str) (fname : Str) : Prop :=
  ∃ pre suf, fname = pre ++ dot :: suf ∧ dot ∉ suf ∧ ∃ e ∈ exts, SameName e suf

theorem sameCase_iff (a b : Str) : sameCase a b = true ↔ SameName a b := by
  unfold sameCase SameName
  have : (Auth.toLower : Byte → Byte) = lower := rfl
  rw [this, decide_eq_true_eq]

theorem maxExt_ge (exts : List Str) (e : Str) (h : e ∈ exts) : e.length < maxExt exts := by
  have key : ∀ (exts : List Str) (m : Nat),
      m ≤ exts.foldl (fun m e => if e.length > m then e.length else m) m ∧
      ∀ e ∈ exts, e.length ≤ exts.foldl (fun m e => if e.length > m then e.length else m) m := by
    intro exts
    induction exts with
    | nil => simp
    | cons x exts ih =>
      intro m
      rw [List.foldl_cons]
      obtain ⟨h1, h2⟩ := ih (if x.length > m then x.length else m)
      have h3 : m ≤ (if x.length > m then x.length else m) ∧ x.length ≤ (if x.length > m then x.length else m) := by
        split <;> omega
      refine ⟨by omega, ?_⟩
      intro e he
      rcases List.mem_cons.1 he with rfl | he
      · omega
      · exact h2 e he
  have := (key exts 0).2 e h
  unfold maxExt
  omega

theorem extLoop_iff (exts : List Str) : ∀ (left : Nat) (rev suf : Str), dot ∉ suf →
    (∀ e ∈ exts, e.length < left + suf.length) →
    (extLoop exts left rev suf = true ↔ HasExt exts (rev.reverse ++ suf)) := by
  intro left
  induction left with
  | zero =>
    intro rev suf hs hl
    rw [extLoop]
    constructor
    · intro h; exact absurd h (by decide)
    · rintro ⟨pre, s, he, hd, e, hee, hsame⟩
      exfalso
      have h1 := hl e hee
      have h2 : e.length = s.length := by
        have := congrArg List.length hsame
        simpa using this
      -- the dot is not in `suf`, so `s` is at least as long
      have h3 : suf.length ≤ s.length := by
        rcases Nat.lt_or_ge s.length suf.length with h | h
        · exfalso
          have h4 : dot :: s <:+ suf := by
            apply List.suffix_of_suffix_length_le (l₃ := rev.reverse ++ suf)
            · rw [he]; exact List.suffix_append _ _
            · exact List.suffix_append _ _
            · simp; omega
          exact hs (h4.subset (by simp))
        · exact h
      omega
  | succ left ih =>
    intro rev suf hs hl
    cases rev with
    | nil =>
      rw [extLoop]
      constructor
      · intro h; exact absurd h (by decide)
      · rintro ⟨pre, s, he, _⟩
        exfalso
        apply hs
        simp only [List.reverse_nil, List.nil_append] at he
        rw [he]; simp
    | cons c rev =>
      rw [extLoop]
      by_cases hc : c = dot
      · rw [if_neg (by simp [hc])]
        subst hc
        rw [List.any_eq_true]
        constructor
        · rintro ⟨e, he, hh⟩
          exact ⟨rev.reverse, suf, by simp, hs, e, he, (sameCase_iff e suf).1 hh⟩
        · rintro ⟨pre, s, he, hd, e, hee, hsame⟩
          have : s = suf := by
            rw [List.reverse_cons, List.append_assoc, List.singleton_append] at he
            rcases List.append_eq_append_iff.1 he with ⟨a, h1, h2⟩ | ⟨a, h1, h2⟩
            · cases a with
              | nil => simpa using h2.symm
              | cons y a =>
                simp only [List.cons_append, List.cons.injEq] at h2
                exfalso; apply hs; rw [h2.2]; simp
            · cases a with
              | nil => simpa using h2
              | cons y a =>
                simp only [List.cons_append, List.cons.injEq] at h2
                exfalso; apply hd; rw [h2.2]; simp
          subst this
          exact ⟨e, hee, (sameCase_iff e s).2 hsame⟩
      · rw [if_pos hc, ih rev (c :: suf) (by simp [Ne.symm hc, hs])]
        · simp
        · intro e he
          have := hl e he
          simp only [List.length_cons]; omega

theorem extLoop_hasExt (exts : List Str) (fname : Str) :
    extLoop exts (maxExt exts) fname.reverse [] = true ↔ HasExt exts fname := by
  have := extLoop_iff exts (maxExt exts) fname.reverse [] (by simp)
    (fun e he => by simpa using maxExt_ge exts e he)
  simpa using this

/-- C61: `include_ext` lets a file through exactly when the list is empty or has the extension of the
file. -/
theorem C61_include_ext (exts : List Str) (fname : Str) :
    inIncludeExt exts fname = true ↔ exts = [] ∨ HasExt exts fname := by
  unfold inIncludeExt
  cases exts with
  | nil => simp
  | cons e es => simpa using extLoop_hasExt (e :: es) fname

/-- C61: `exclude_ext` leaves a file out exactly when the list has the extension of the file. -/
theorem C61_exclude_ext (exts : List Str) (fname : Str) :
    inExcludeExt exts fname = true ↔ HasExt exts fname := by
  unfold inExcludeExt
  cases exts with
  | nil => simp [HasExt]
  | cons e es => simpa using extLoop_hasExt (e :: es) fname

/-- C41 and C61 together: whether a file that was found is included. Directories and files named by the
user need not have one of the extensions of `include_ext`, anything found beneath them must. -/
theorem C41_included_partial (c : Conf) (fname : Str) (top : Bool) (d : Strlist.Elem)
    (hs : c.incexcdir.Pairwise (fun a b => pathcmp a.path b.path < 0))
    (hn : ∀ e ∈ c.incexcdir, NoNul e.path) (hf : NoNul fname)
    (hd : d ∈ c.incexcdir) (hc : Contains d.path fname)
    (hl : ∀ e ∈ c.incexcdir, Contains e.path fname → e.path.length ≤ d.path.length) :
    isIncluded c fname top = true ↔
      (top = true ∨ c.incext = [] ∨ HasExt c.incext fname) ∧ NotFiltered c fname ∧ d.flag ≠ 0 := by
  rw [← C41_longest_partial c fname d hs hn hf hd hc hl, ← C61_include_ext]
  unfold isIncluded
  cases top <;> cases inIncludeExt c.incext fname <;> simp

/-- C61: `exclude_comp` turns compression off exactly for the files with one of the extensions. -/
theorem C61_exclude_comp (exts : List Str) (fname : Str) (level : Nat) :
    (HasExt exts fname → inExcludeComp exts fname level = 0) ∧
    (¬ HasExt exts fname → inExcludeComp exts fname level = level) := by
  unfold inExcludeComp
  rw [← extLoop_hasExt]
  cases exts with
  | nil => simp [extLoop_hasExt, HasExt]
  | cons e es =>
    by_cases hl : level = 0
    · simp [hl]
    · simp only [hl, List.isEmpty_cons, Bool.false_eq_true, or_self, if_false]
      constructor <;> intro h <;> simp [h]

example : HasExt [bytes "gz", bytes "mp3"] (bytes "/a.d/b.MP3") ∧ ¬ HasExt [bytes "gz"] (bytes "/a.gz/b") := by
  refine ⟨⟨bytes "/a.d/b", bytes "MP3", by decide, by decide, bytes "mp3", by decide, by unfold SameName; decide⟩, ?_⟩
  rw [← C61_exclude_ext]
  decide

/-- An extension with a dot in it, such as `tar.gz`, is the extension of no file. -/
example : inExcludeExt [bytes "tar.gz"] (bytes "/x.tar.gz") = false := by decide

/-! ### Hard links -/

/-- The file passes all filters. -/
def Passes (c : Conf) (logic : Str → Stat → Bool) (e : Str × Stat × Bool) : Bool :=
  isIncluded c e.1 e.2.2 && !logic e.1 e.2.1 && (decide (e.2.1.kind ≠ .reg) || sizeMatch c e.2.1.size)

/-- The file passes all filters, is no directory or symbolic link, and has further names. -/
def Linkable (c : Conf) (logic : Str → Stat → Bool) (e : Str × Stat × Bool) : Bool :=
  Passes c logic e && decide (e.2.1.nlink > 1) && decide (e.2.1.kind ≠ .dir) && decide (e.2.1.kind ≠ .lnk)

/-- Device and inode. -/
def Identity (e : Str × Stat × Bool) : Nat × Nat := (e.2.1.dev, e.2.1.ino)

/-- The first of some files that may be linked to and has a given identity. -/
def firstName (c : Conf) (logic : Str → Stat → Bool) (es : List (Str × Stat × Bool)) (id : Nat × Nat) : Option Str :=
  (es.find? (fun f => Linkable c logic f && decide (Identity f = id))).map (fun f => f.1)

/-- What should become of a file that is found after `before`. -/
def shouldSend (c : Conf) (logic : Str → Stat → Bool) (before : List (Str × Stat × Bool)) (e : Str × Stat × Bool) : Sent :=
  if Passes c logic e = false then .not
  else if Linkable c logic e = false then .plain
  else match firstName c logic before (Identity e) with
    | none => .plain
    | some n => if n = e.1 then .not else .hardlink n

theorem linkableKind_iff (k : Kind) : linkableKind k = (decide (k ≠ .dir) && decide (k ≠ .lnk)) := by
  cases k <;> rfl

/-- The table holds the first name of every identity seen so far. -/
def TableFor (c : Conf) (logic : Str → Stat → Bool) (before : List (Str × Stat × Bool)) (h : LinkHash) : Prop :=
  ∀ dev ino, (linkSearch h dev ino).map (fun l => l.name) = firstName c logic before (dev, ino)

theorem linkAdd_search (h : LinkHash) (fname : Str) (dev ino d i : Nat) :
    linkSearch (linkAdd h fname dev ino) d i =
      if d = dev ∧ i = ino then some ⟨fname, ino, dev⟩ else linkSearch h d i := by
  unfold linkSearch linkAdd
  by_cases hh : d = dev ∧ i = ino
  · obtain ⟨rfl, rfl⟩ := hh
    simp
  · rw [if_neg hh]
    by_cases hb : getHash d i = getHash dev ino
    · rw [if_pos hb, List.find?_cons]
      have : (decide (ino = i) && decide (dev = d)) = false := by
        simp only [Bool.and_eq_false_iff, decide_eq_false_iff_not]
        by_cases h1 : ino = i
        · exact Or.inr (fun h2 => hh ⟨h2.symm, h1.symm⟩)
        · exact Or.inl h1
      simp [this]
    · rw [if_neg hb]

theorem firstName_snoc (c : Conf) (logic : Str → Stat → Bool) (before : List (Str × Stat × Bool))
    (e : Str × Stat × Bool) (id : Nat × Nat) :
    firstName c logic (before ++ [e]) id = match firstName c logic before id with
      | some n => some n
      | none => if Linkable c logic e && decide (Identity e = id) then some e.1 else none := by
  unfold firstName
  rw [List.find?_append]
  cases h : before.find? (fun f => Linkable c logic f && decide (Identity f = id)) with
  | some f => simp
  | none =>
    simp only [Option.map_none, Option.none_or, List.find?_singleton]
    split <;> simp

theorem sendFile_eq (c : Conf) (logic : Str → Stat → Bool) (before : List (Str × Stat × Bool)) (h : LinkHash)
    (e : Str × Stat × Bool) (ht : TableFor c logic before h) :
    (sendFile c logic h e.1 e.2.1 e.2.2).2 = shouldSend c logic before e ∧
    TableFor c logic (before ++ [e]) (sendFile c logic h e.1 e.2.1 e.2.2).1 := by
  have same : Linkable c logic e = false → TableFor c logic (before ++ [e]) h := by
    intro hl dev ino
    rw [ht, firstName_snoc, hl]
    cases firstName c logic before (dev, ino) <;> simp
  have hpass : Passes c logic e = (!(!isIncluded c e.1 e.2.2 || logic e.1 e.2.1) &&
      !(decide (e.2.1.kind = .reg) && !sizeMatch c e.2.1.size)) := by
    unfold Passes
    by_cases hk : e.2.1.kind = .reg <;> simp [hk]
  unfold sendFile
  by_cases h1 : (!isIncluded c e.1 e.2.2 || logic e.1 e.2.1) = true
  · rw [if_pos h1]
    have hp : Passes c logic e = false := by rw [hpass, h1]; rfl
    have hl : Linkable c logic e = false := by simp [Linkable, hp]
    exact ⟨by simp [shouldSend, hp], same hl⟩
  rw [if_neg h1]
  by_cases h2 : (decide (e.2.1.kind = .reg) && !sizeMatch c e.2.1.size) = true
  · rw [if_pos h2]
    have hp : Passes c logic e = false := by rw [hpass, h2]; simp
    have hl : Linkable c logic e = false := by simp [Linkable, hp]
    exact ⟨by simp [shouldSend, hp], same hl⟩
  rw [if_neg h2]
  have hp : Passes c logic e = true := by
    rw [hpass]; simp only [Bool.not_eq_true] at h1 h2; rw [h1, h2]; rfl
  have hlk : Linkable c logic e = (decide (e.2.1.nlink > 1) && linkableKind e.2.1.kind) := by
    unfold Linkable; rw [hp, linkableKind_iff]; simp [Bool.and_assoc]
  rw [← hlk]
  by_cases hl : Linkable c logic e = true
  · rw [if_pos hl]
    have hid := ht e.2.1.dev e.2.1.ino
    have hident : Identity e = (e.2.1.dev, e.2.1.ino) := rfl
    cases hs : linkSearch h e.2.1.dev e.2.1.ino with
    | some lp =>
      rw [hs, Option.map_some] at hid
      have tab : TableFor c logic (before ++ [e]) h := by
        intro dev ino
        rw [ht, firstName_snoc]
        cases hf : firstName c logic before (dev, ino) with
        | some n => rfl
        | none =>
          have : ¬ Identity e = (dev, ino) := by
            intro hh
            rw [hident] at hh
            rw [← hh, ← hid] at hf
            exact absurd hf (by simp)
          simp [this]
      by_cases hn : lp.name = e.1
      · simp only [if_pos hn]
        exact ⟨by simp [shouldSend, hp, hl, hident, ← hid, hn], tab⟩
      · simp only [if_neg hn]
        exact ⟨by simp [shouldSend, hp, hl, hident, ← hid, hn], tab⟩
    | none =>
      rw [hs, Option.map_none] at hid
      refine ⟨by simp [shouldSend, hp, hl, hident, ← hid], ?_⟩
      intro dev ino
      rw [linkAdd_search, firstName_snoc, hl, hident]
      by_cases hh : dev = e.2.1.dev ∧ ino = e.2.1.ino
      · obtain ⟨rfl, rfl⟩ := hh
        rw [← hid]
        simp
      · rw [if_neg hh, ht]
        have : ¬ (e.2.1.dev, e.2.1.ino) = (dev, ino) := by
          intro h; rw [Prod.mk.injEq] at h; exact hh ⟨h.1.symm, h.2.symm⟩
        cases firstName c logic before (dev, ino) <;> simp [this]
  · rw [if_neg hl]
    have hl := Bool.not_eq_true _ ▸ hl
    exact ⟨by simp [shouldSend, hp, hl], same hl⟩

/-- C46: in a scan of any length, a file is sent as a hard link exactly when an earlier file that was
looked at has the same device and inode, and then to the path at which that was seen first; the same path
is not sent again. -/
theorem C46_scan (c : Conf) (logic : Str → Stat → Bool) (es : List (Str × Stat × Bool)) :
    (sendAll c logic (fun _ => []) es).length = es.length ∧
    ∀ i (h : i < es.length),
      (sendAll c logic (fun _ => []) es)[i]? = some (shouldSend c logic (es.take i) es[i]) := by
  have key : ∀ (es before : List (Str × Stat × Bool)) (h : LinkHash), TableFor c logic before h →
      (sendAll c logic h es).length = es.length ∧
      ∀ i (hi : i < es.length),
        (sendAll c logic h es)[i]? = some (shouldSend c logic (before ++ es.take i) es[i]) := by
    intro es
    induction es with
    | nil => intro before h _; exact ⟨rfl, fun i hi => absurd hi (by simp)⟩
    | cons e es ih =>
      intro before h ht
      obtain ⟨h1, h2⟩ := sendFile_eq c logic before h e ht
      obtain ⟨g1, g2⟩ := ih (before ++ [e]) _ h2
      have e1 : sendAll c logic h (e :: es) =
          (sendFile c logic h e.1 e.2.1 e.2.2).2 :: sendAll c logic (sendFile c logic h e.1 e.2.1 e.2.2).1 es := by
        obtain ⟨f, st, top⟩ := e
        rfl
      rw [e1]
      refine ⟨by simp [g1], ?_⟩
      intro i hi
      cases i with
      | zero => simp [h1]
      | succ i =>
        have := g2 i (by simpa using hi)
        simpa using this
  have := key es [] (fun _ => []) (by intro dev ino; simp [linkSearch, firstName])
  simpa using this

/-- C46: a hard link always leads to a path that was sent for itself before, for the same file. -/
theorem C46_target_sent (c : Conf) (logic : Str → Stat → Bool) (es : List (Str × Stat × Bool)) (i : Nat)
    (h : i < es.length) (n : Str)
    (hs : (sendAll c logic (fun _ => []) es)[i]? = some (.hardlink n)) :
    ∃ j, ∃ hj : j < i, es[j].1 = n ∧ Identity es[j] = Identity es[i] ∧
      (sendAll c logic (fun _ => []) es)[j]? = some .plain := by
  rw [(C46_scan c logic es).2 i h] at hs
  have hs := Option.some.inj hs
  unfold shouldSend at hs
  split at hs
  · exact absurd hs (by simp)
  split at hs
  · exact absurd hs (by simp)
  split at hs
  · exact absurd hs (by simp)
  rename_i m hm
  split at hs
  · exact absurd hs (by simp)
  have hmn : m = n := by simpa using hs
  subst hmn
  unfold firstName at hm
  obtain ⟨f, hf, hfn⟩ := Option.map_eq_some_iff.1 hm
  obtain ⟨hp, as, bs, hab, hno⟩ := List.find?_eq_some_iff_append.1 hf
  have hlen : as.length < i := by
    have := congrArg List.length hab
    simp only [List.length_take, List.length_append, List.length_cons] at this
    omega
  have hget : es[as.length] = f := by
    have h1 : (es.take i)[as.length]? = some f := by rw [hab]; simp
    rw [List.getElem?_take, if_pos hlen] at h1
    rw [List.getElem?_eq_getElem (by omega)] at h1
    exact Option.some.inj h1
  have htake : es.take as.length = as := by
    have : (es.take i).take as.length = as := by rw [hab]; simp
    rwa [List.take_take, Nat.min_eq_left (by omega)] at this
  simp only [Bool.and_eq_true, decide_eq_true_eq] at hp
  refine ⟨as.length, hlen, ?_, ?_, ?_⟩
  · rw [hget]; exact hfn
  · rw [hget]; exact hp.2
  · rw [(C46_scan c logic es).2 as.length (by omega), hget, htake]
    have hpass : Passes c logic f = true := by
      have := hp.1; unfold Linkable at this; simp only [Bool.and_eq_true] at this; exact this.1.1.1
    have hnone : firstName c logic as (Identity f) = none := by
      unfold firstName
      rw [List.find?_eq_none.2]
      · rfl
      · intro x hx
        have := hno x hx
        rw [hp.2]
        rw [Bool.not_eq_true, ← Bool.not_eq_true']
        exact this
    simp [shouldSend, hpass, hp.1, hnone]

/-- Two names of a file, and another file on another device with the same inode. -/
def exFound : List (Str × Stat × Bool) :=
  [(bytes "/a", ⟨.reg, 2, 1, 70, 5⟩, false), (bytes "/b", ⟨.reg, 2, 2, 70, 5⟩, false),
   (bytes "/c", ⟨.reg, 2, 1, 70, 5⟩, false), (bytes "/d", ⟨.dir, 2, 1, 70, 5⟩, false)]

example : sendAll exConf (fun _ _ => false) (fun _ => []) exFound = [.plain, .plain, .hardlink (bytes "/a"), .plain] := by
  decide

/-! ### Sizes -/

/-- The size is within the limits, of which 0 stands for none. -/
def WithinLimits (c : Conf) (size : Nat) : Prop :=
  (c.minSize = 0 ∨ c.minSize ≤ size) ∧ (c.maxSize = 0 ∨ size ≤ c.maxSize)

theorem sizeMatch_iff (c : Conf) (size : Nat) : sizeMatch c size = true ↔ WithinLimits c size := by
  unfold sizeMatch WithinLimits
  simp only [Bool.and_eq_true, Bool.not_eq_true', Bool.and_eq_false_iff, decide_eq_false_iff_not, ne_eq,
    Classical.not_not, Nat.not_lt, gt_iff_lt]

/-- C63: a regular file whose size is outside the limits is not sent; otherwise the limits make no
difference. -/
theorem C63_size_limits (c : Conf) (logic : Str → Stat → Bool) (h : LinkHash) (fname : Str) (st : Stat) (top : Bool) :
    (st.kind = .reg → ¬ WithinLimits c st.size → sendFile c logic h fname st top = (h, .not)) ∧
    (st.kind ≠ .reg ∨ WithinLimits c st.size →
      sendFile c logic h fname st top = sendFile { c with minSize := 0, maxSize := 0 } logic h fname st top) := by
  have h0 : ∀ n, sizeMatch { c with minSize := 0, maxSize := 0 } n = true := by simp [sizeMatch]
  have hi : isIncluded { c with minSize := 0, maxSize := 0 } fname top = isIncluded c fname top := rfl
  constructor
  · intro hk hw
    rw [← sizeMatch_iff] at hw
    unfold sendFile
    split
    · rfl
    · rw [if_pos (by simp [hk, hw])]
  · intro hw
    unfold sendFile
    rw [hi, h0]
    split
    · rfl
    · have e : (decide (st.kind = .reg) && !sizeMatch c st.size) = false := by
        rcases hw with hw | hw
        · simp [hw]
        · simp [(sizeMatch_iff _ _).2 hw]
      simp only [e, Bool.not_true, Bool.and_false]

example : ¬ WithinLimits ⟨[], [], [], [], [], 10, 0⟩ 9 ∧ WithinLimits ⟨[], [], [], [], [], 10, 20⟩ 20 := by
  unfold WithinLimits; decide

end Verif
