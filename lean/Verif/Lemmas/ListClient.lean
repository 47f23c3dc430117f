import Verif.Spec.ListClient
import Verif.Lemmas.Iobuf
import Verif.Lemmas.Sbuf
import Verif.Props.Attribs
import Verif.Props.CntrStr

/-!
# Lemmas for C88
-/

namespace Verif.ListClient
open Verif Verif.Iobuf Verif.Attribs

theorem lines_cons (s : Str) (l : List Str) : lines (s :: l) = s ++ [newline] ++ lines l := by simp [lines]

theorem lines_append (a b : List Str) : lines (a ++ b) = lines a ++ lines b := by simp [lines]

/-! ### The buffer -/

theorem grow_ge (need len : Nat) (h : 0 < len) : need ≤ grow need len := by
  induction hd : need - len using Nat.strongRecOn generalizing len with
  | _ k ih =>
    rw [grow]
    split
    · rename_i hc
      exact ih (need - len * 2) (by omega) (len * 2) (by omega) rfl
    · rename_i hc; omega

theorem grow_le (need len : Nat) : len ≤ grow need len := by
  induction hd : need - len using Nat.strongRecOn generalizing len with
  | _ k ih =>
    rw [grow]
    split
    · rename_i hc
      have := ih (need - len * 2) (by omega) (len * 2) rfl
      omega
    · exact Nat.le_refl _

theorem grow_same {need len : Nat} (h : ¬ need > len) : grow need len = len := by
  rw [grow, if_neg (fun k => h k.1)]

/-- The buffer is as large as is written down, and is there when it is larger than at the beginning. -/
def Ls.Ok (s : Ls) : Prop := 128 ≤ s.len ∧ (128 < s.len → s.there = true)

theorem grown_ok {s : Ls} (h : s.Ok) (n : Nat) : (s.grown n).Ok := by
  refine ⟨Nat.le_trans h.1 (grow_le _ _), fun hl => ?_⟩
  show (s.there || decide (n + 128 > s.len)) = true
  by_cases hc : n + 128 > s.len
  · simp [hc]
  · have : (s.grown n).len = s.len := grow_same hc
    rw [this] at hl
    simp [h.2 hl]

theorem grown_there {s : Ls} (h : s.Ok) {n : Nat} (hn : 0 < n) : (s.grown n).there = true := by
  show (s.there || decide (n + 128 > s.len)) = true
  by_cases hc : 128 < s.len
  · simp [h.2 hc]
  · have : n + 128 > s.len := by have := h.1; omega
    simp [this]

theorem showInt_length {n : Int} {k : Nat} (h : n.natAbs < 10 ^ (k + 1)) : (Confs.showInt n).length ≤ k + 2 := by
  have := Cntr.decimal_length n.natAbs k h
  unfold Confs.showInt
  split
  · simp; omega
  · omega

theorem showD_length (x : Int) : (showD x).length ≤ 11 := by
  unfold showD
  apply showInt_length (k := 9)
  unfold castS32 castU32
  have h1 : Int.bmod (x % 2 ^ 32) (2 ^ 32) < (2 ^ 32 + 1) / 2 := Int.bmod_lt (by decide)
  have h2 : -((2 ^ 32 : Nat) / 2 : Int) ≤ Int.bmod (x % 2 ^ 32) (2 ^ 32) := Int.le_bmod (by decide)
  omega

theorem size_length (x : Int) : (Confs.showInt (castU64 x)).length ≤ 20 := by
  unfold castU64
  have h1 : 0 ≤ x % 2 ^ 64 := Int.emod_nonneg _ (by decide)
  have h2 : x % 2 ^ 64 < 2 ^ 64 := Int.emod_lt_of_pos _ (by decide)
  have := Cntr.decimal_length (x % 2 ^ 64).natAbs 19 (by omega)
  unfold Confs.showInt
  rw [if_neg (by omega)]
  exact this

theorem pad_length (n : Nat) (s : Str) : (pad n s).length = max n s.length := by
  unfold pad; simp; omega

theorem ls_length {clock : Int → Str} (hc : Short clock) (a : Attr) (p : Str) :
    (lsToBuf clock a p).length + 1 ≤ p.length + 128 := by
  have h1 := showD_length a.nlink
  have h2 := showD_length a.uid
  have h3 := showD_length a.gid
  have h4 := size_length a.size
  have h5 := hc a.mtime
  unfold lsToBuf
  simp only [List.length_append, List.length_cons, pad_length, encodeMode, List.length_nil]
  omega

/-! ### The loop of the client -/

theorem cstr_le (s : Str) : (cstr s).length ≤ s.length :=
  (List.takeWhile_prefix _).length_le

/-- What a client makes of one entry. -/
structure Shape where
  cmd : Cmd
  attr : Attr
  path : Str
  link : Str

structure Shape.Ok (x : Shape) : Prop where
  kind : x.cmd ∈ [.directory, .file, .encFile, .efsFile, .special, .softLink, .hardLink]
  ne : x.path ≠ []
  link : NoNul x.link
  attr : x.attr.InRange

def Shape.msgs (x : Shape) : List Rec := messages x.cmd x.attr x.path x.link

/-- What is printed for it. -/
def Shape.line (style : Style) (clock : Int → Str) (x : Shape) : Str :=
  match style with
  | .short => cstr x.path
  | .parseable => Cmd.file.toByte :: hex04 x.path.length ++ cstr x.path
  | .long => lsToBuf clock x.attr (cstr x.path) ++ if x.cmd.isLink then bytes " -> " ++ x.link else []

theorem item_ok {style : Style} {clock : Int → Str} (hc : Short clock) {s : Ls} (hs : s.Ok) {x : Shape} (hx : x.Ok) :
    ∃ s', s'.Ok ∧ item style clock s x.attr ⟨x.cmd.toByte, x.path⟩
      (if x.cmd.isLink then some ⟨x.cmd.toByte, x.link⟩ else none) = some (x.line style clock ++ [newline], s') := by
  have hp : 0 < x.path.length := List.length_pos_iff.mpr hx.ne
  cases style with
  | short => exact ⟨s, hs, rfl⟩
  | parseable => exact ⟨s, hs, rfl⟩
  | long =>
    refine ⟨s.grown x.path.length, grown_ok hs _, ?_⟩
    unfold item
    simp only
    have h1 := grown_there hs hp
    have h2 : x.path.length + 128 ≤ (s.grown x.path.length).len := grow_ge _ _ (by have := hs.1; omega)
    have h3 := ls_length hc x.attr (cstr x.path)
    have h4 := cstr_le x.path
    have h5 : (lsToBuf clock x.attr (cstr x.path)).length + 1 ≤ (s.grown x.path.length).len := by omega
    rw [if_pos (by rw [h1, Bool.true_and, decide_eq_true_eq]; exact h5)]
    unfold Shape.line
    cases hl : x.cmd.isLink with
    | true => simp [Verif.Sbuf.cstr_noNul hx.link]
    | false => simp

theorem client_shape {style : Style} {clock : Int → Str} (hc : Short clock) (extra : Str) {s : Ls} (hs : s.Ok)
    {x : Shape} (hx : x.Ok) (rest : List Rec) :
    ∃ s', s'.Ok ∧ clientLoop style clock extra s (x.msgs ++ rest) =
      (x.line style clock ++ [newline] ++ (clientLoop style clock extra s' rest).1,
        (clientLoop style clock extra s' rest).2) := by
  obtain ⟨s', hs', hi⟩ := item_ok (style := style) hc hs hx
  refine ⟨s', hs', ?_⟩
  obtain ⟨t, he, -, hd⟩ := C02_attribs_roundtrip x.attr noAttr hx.attr
  have hk := hx.kind
  have hm : (⟨Cmd.attribs.toByte, (encode x.attr).getD []⟩ : Rec) = ⟨Cmd.attribs.toByte, t⟩ := by rw [he]; rfl
  unfold Shape.msgs messages
  rw [hm]
  cases hl : x.cmd.isLink with
  | false =>
    have hpl : x.cmd.toByte ∈ plainCmds.map Cmd.toByte := by
      revert hk hl
      cases x.cmd <;> decide
    rw [hl] at hi
    simp only [Bool.false_eq_true, if_false, List.append_nil, List.cons_append, List.nil_append] at hi ⊢
    rw [clientLoop]
    rw [if_neg (show ¬ Cmd.attribs.toByte = Cmd.message.toByte by decide),
      if_neg (show ¬ Cmd.attribs.toByte = Cmd.timestamp.toByte by decide),
      if_neg (show ¬ Cmd.attribs.toByte ≠ Cmd.attribs.toByte by decide)]
    simp only [hd, hi]
    rw [if_pos hpl]
  | true =>
    have hpl : x.cmd.toByte ∉ plainCmds.map Cmd.toByte := by
      revert hk hl
      cases x.cmd <;> decide
    have hlk : x.cmd.toByte = Cmd.softLink.toByte ∨ x.cmd.toByte = Cmd.hardLink.toByte := by
      revert hk hl
      cases x.cmd <;> decide
    rw [hl] at hi
    simp only [if_true, List.cons_append, List.nil_append] at hi ⊢
    rw [clientLoop]
    rw [if_neg (show ¬ Cmd.attribs.toByte = Cmd.message.toByte by decide),
      if_neg (show ¬ Cmd.attribs.toByte = Cmd.timestamp.toByte by decide),
      if_neg (show ¬ Cmd.attribs.toByte ≠ Cmd.attribs.toByte by decide)]
    simp only [hd, hi]
    rw [if_neg hpl, if_pos hlk]
    simp

theorem client_shapes {style : Style} {clock : Int → Str} (hc : Short clock) (extra : Str) (xs : List Shape)
    (hx : ∀ x ∈ xs, x.Ok) (rest : List Rec) : ∀ {s : Ls}, s.Ok →
    ∃ s', s'.Ok ∧ clientLoop style clock extra s (xs.flatMap Shape.msgs ++ rest) =
      (lines (xs.map (Shape.line style clock)) ++ (clientLoop style clock extra s' rest).1,
        (clientLoop style clock extra s' rest).2) := by
  induction xs with
  | nil => intro s hs; exact ⟨s, hs, by simp [lines]⟩
  | cons x xs ih =>
    intro s hs
    rw [List.flatMap_cons, List.append_assoc]
    obtain ⟨s1, hs1, h1⟩ := client_shape (style := style) hc extra hs (hx x (by simp)) (xs.flatMap Shape.msgs ++ rest)
    obtain ⟨s2, hs2, h2⟩ := ih (fun y hy => hx y (by simp [hy])) hs1
    refine ⟨s2, hs2, ?_⟩
    rw [h1, h2, List.map_cons, lines_cons]
    simp

/-! ### What the server sends -/

/-- The entries behind the messages. -/
def shapesLoop (browsedir : Option Str) (regex : Str → Bool) (heap : Str) (last : Option Str) :
    List Ent → List Shape × Option Str
  | [] => ([], last)
  | e :: es =>
    if e.cmd.isMetadata then shapesLoop browsedir regex heap last es
    else match browsedir with
      | none =>
        let r := shapesLoop browsedir regex heap last es
        if regex e.path then (⟨e.cmd, e.attr, e.path, e.link⟩ :: r.1, r.2) else r
      | some bd =>
        match Browse.checkBrowsedir bd e.seen last with
        | none => shapesLoop browsedir regex heap last es
        | some e' =>
          let r := shapesLoop browsedir regex heap (some e'.path) es
          let attr := if e'.isDir && !e.seen.isDir then { e.attr with mode := fakeMode e.attr.mode } else e.attr
          if regex e'.path then (⟨e.cmd, attr, sentPath heap bd e.path, e.link⟩ :: r.1, r.2) else r

theorem contents_shapes (bd : Option Str) (regex : Str → Bool) (heap : Str) (es : List Ent) :
    ∀ last, contentsLoop bd regex heap last es =
      ((shapesLoop bd regex heap last es).1.flatMap Shape.msgs, (shapesLoop bd regex heap last es).2) := by
  induction es with
  | nil => intro last; rfl
  | cons e es ih =>
    intro last
    unfold contentsLoop shapesLoop
    by_cases hm : e.cmd.isMetadata = true
    · rw [if_pos hm, if_pos hm]; exact ih last
    · rw [if_neg hm, if_neg hm]
      cases bd with
      | none =>
        simp only [ih last]
        by_cases hr : regex e.path = true
        · rw [if_pos hr, if_pos hr]; rfl
        · rw [if_neg hr, if_neg hr]
      | some d =>
        simp only
        cases hb : Browse.checkBrowsedir d e.seen last with
        | none => simp only; exact ih last
        | some e' =>
          simp only [ih (some e'.path)]
          by_cases hr : regex e'.path = true
          · rw [if_pos hr, if_pos hr]; rfl
          · rw [if_neg hr, if_neg hr]

theorem shapes_plain (regex : Str → Bool) (heap : Str) (es : List Ent) (last : Option Str) :
    shapesLoop none regex heap last es =
      (((visible es).filter fun e => regex e.path).map fun e => ⟨e.cmd, e.attr, e.path, e.link⟩, last) := by
  induction es with
  | nil => rfl
  | cons e es ih =>
    unfold shapesLoop
    by_cases hm : e.cmd.isMetadata = true
    · rw [if_pos hm, ih]; simp [visible, hm]
    · rw [if_neg hm]
      simp only [ih]
      by_cases hr : regex e.path = true
      · rw [if_pos hr]; simp [visible, hm, hr]
      · rw [if_neg hr]; simp [visible, hm, hr]

theorem shape_ok {e : Ent} (h : e.Good) (hm : ¬ e.cmd.isMetadata = true) :
    Shape.Ok ⟨e.cmd, e.attr, e.path, e.link⟩ :=
  ⟨h.kind.resolve_right hm, h.ne, h.link, h.attr⟩

/-! ### Directories -/

theorem stripSlash_none {c : Str} (hc : slash ∉ c) : Browse.stripSlash c = c := by
  unfold Browse.stripSlash
  have : c.reverse.dropWhile (fun x => decide (x ≠ slash)) = [] := by
    rw [← List.append_nil c.reverse, List.dropWhile_append_of_pos]
    · rfl
    · intro x hx
      simp only [decide_eq_true_eq]
      intro e
      rw [e] at hx
      exact hc (List.mem_reverse.mp hx)
  rw [this]

theorem stripSlash_end {w : Str} (hw : w ≠ []) : Browse.stripSlash (w ++ [slash]) = w := by
  unfold Browse.stripSlash
  have : (w ++ [slash]).reverse.dropWhile (fun x => decide (x ≠ slash)) = slash :: w.reverse := by
    rw [List.reverse_append]; simp
  rw [this]
  simp [hw]

theorem split_slash {cp : Str} (h : slash ∈ cp) :
    ∃ y, cp = cp.takeWhile (· ≠ slash) ++ slash :: y := by
  have hr := List.takeWhile_append_dropWhile (p := fun x => decide (x ≠ slash)) (l := cp)
  cases hd : cp.dropWhile (fun x => decide (x ≠ slash)) with
  | nil =>
    exfalso
    rw [hd, List.append_nil] at hr
    rw [← hr] at h
    have : ∀ (l : Str), slash ∉ l.takeWhile (fun x => decide (x ≠ slash)) := by
      intro l
      induction l with
      | nil => simp
      | cons c l ih =>
        rw [List.takeWhile_cons]
        split
        · rename_i hc
          intro hm
          rcases List.mem_cons.mp hm with e | hm
          · rw [← e] at hc; exact absurd hc (by decide)
          · exact ih hm
        · simp
    exact this _ h
  | cons x y =>
    have hx : x = slash := by
      have := List.head?_dropWhile_not (fun x => decide (x ≠ slash)) cp
      rw [hd] at this
      simpa using this
    rw [hd, hx] at hr
    exact ⟨y, hr.symm⟩

theorem takeWhile_noslash (l : Str) : slash ∉ l.takeWhile (fun x => decide (x ≠ slash)) := by
  induction l with
  | nil => simp
  | cons c l ih =>
    rw [List.takeWhile_cons]
    split
    · rename_i hc
      intro hm
      rcases List.mem_cons.mp hm with e | hm
      · rw [← e] at hc; exact absurd hc (by decide)
      · exact ih hm
    · simp

/-- The name that a path has in a directory. -/
def nameIn (bd cp : Str) : Str :=
  Browse.stripSlash (if slash ∈ cp then
    (if bd.length = 0 then cp.takeWhile (· ≠ slash) ++ [slash] else cp.takeWhile (· ≠ slash)) else cp)

theorem set_mid (w t : Str) (x y : Byte) : (w ++ x :: t).set w.length y = w ++ y :: t := by
  rw [List.set_append_right _ _ (Nat.le_refl _)]; simp

theorem copied_eq (bd cp : Str) :
    ∃ t, copied bd cp = nameIn bd cp ++ 0 :: t ∧ (nameIn bd cp).length ≤ cp.length ∧ ∀ c ∈ nameIn bd cp, c ∈ cp := by
  unfold copied nameIn
  by_cases h : slash ∈ cp
  · rw [if_pos h, if_pos h]
    obtain ⟨y, hy⟩ := split_slash h
    generalize hw : cp.takeWhile (fun x => decide (x ≠ slash)) = w at hy ⊢
    have hns : slash ∉ w := by rw [← hw]; exact takeWhile_noslash cp
    by_cases hb : bd.length = 0
    · rw [if_pos hb, if_pos hb]
      simp only
      have h1 : (cp ++ [0]).set (w.length + 1) 0 = w ++ slash :: 0 :: (y ++ [0]).tail := by
        rw [hy]
        have e : w ++ slash :: y ++ [0] = (w ++ [slash]) ++ ((y ++ [0]).head (by simp) :: (y ++ [0]).tail) := by
          rw [List.cons_head_tail]; simp
        rw [e]
        have := set_mid (w ++ [slash]) (y ++ [0]).tail ((y ++ [0]).head (by simp)) 0
        rw [List.length_append, List.length_singleton] at this
        rw [this]
        simp
      rw [h1]
      by_cases hw0 : w = []
      · rw [hw0]
        refine ⟨(y ++ [0]).tail, ?_, ?_, ?_⟩
        · simp [Browse.stripSlash]
        · rw [hy]; simp [Browse.stripSlash, hw0]
        · rw [hy]; intro c hc; simp [Browse.stripSlash] at hc; simp [hc]
      · rw [if_pos (List.length_pos_iff.mpr hw0), stripSlash_end hw0, set_mid]
        refine ⟨_, rfl, ?_, ?_⟩
        · rw [hy]; simp
        · rw [hy]; intro c hc; simp [hc]
    · rw [if_neg hb, if_neg hb, stripSlash_none hns]
      refine ⟨y ++ [0], ?_, ?_, ?_⟩
      · rw [hy, List.append_assoc, List.cons_append, set_mid]
      · rw [hy]; simp
      · rw [hy]; intro c hc; simp [hc]
  · rw [if_neg h, if_neg h, stripSlash_none h]
    exact ⟨[], rfl, Nat.le_refl _, fun c hc => hc⟩

theorem restOf_suffix {bd p rest : Str} (h : Browse.restOf bd p = some rest) : rest <:+ p := by
  unfold Browse.restOf at h
  split at h
  · split at h
    · cases h
    · split at h
      · split at h
        · injection h with h; subst h; exact List.nil_suffix
        · rename_i c cs hd
          split at h
          · cases h
          · injection h with h
            subst h
            have := List.drop_suffix bd.length p
            rw [hd] at this
            exact List.IsSuffix.trans (List.suffix_cons _ _) this
      · injection h with h; subst h; exact List.drop_suffix _ _
  · injection h with h; subst h; exact List.suffix_refl _

theorem sent_name {bd p rest : Str} (hr : Browse.restOf bd p = some rest) (hn : NoNul p) (hp : p ≠ []) (heap : Str) :
    cstr (sentPath heap bd p) = nameIn bd (if rest.isEmpty then [dot] else rest) ∧ sentPath heap bd p ≠ [] := by
  have hpl := List.length_pos_iff.mpr hp
  have hb : behind bd p = if rest.isEmpty then [dot] else rest := by unfold behind; rw [hr]
  rw [← hb]
  obtain ⟨t, h1, h2, h3⟩ := copied_eq bd (behind bd p)
  have hs := restOf_suffix hr
  have hle : (behind bd p).length ≤ p.length := by
    rw [hb]
    split
    · exact hpl
    · exact hs.length_le
  have hnb : NoNul (behind bd p) := by
    rw [hb]
    split
    · decide
    · intro h0
      obtain ⟨u, hu⟩ := hs
      exact hn (by rw [← hu]; exact List.mem_append_right _ h0)
  have hnn : NoNul (nameIn bd (behind bd p)) := fun h0 => hnb (h3 0 h0)
  generalize nameIn bd (behind bd p) = n at h1 h2 hnn
  unfold sentPath
  rw [h1]
  constructor
  · have e : (n ++ 0 :: t ++ heap).take p.length = n ++ (0 :: t ++ heap).take (p.length - n.length) := by
      rw [List.append_assoc, List.take_append, List.take_of_length_le (by omega)]
    rw [e]
    unfold cstr
    rw [List.takeWhile_append_of_pos]
    · cases hk : p.length - n.length with
      | zero => simp
      | succ k => simp
    · intro c hc
      simp only [decide_eq_true_eq]
      intro h0; rw [h0] at hc; exact hnn hc
  · intro h0
    have := congrArg List.length h0
    rw [List.length_take] at this
    simp only [List.length_append, List.length_cons, List.length_nil] at this
    omega

theorem check_rest {bd : Str} {e e' : Browse.Ent} {last : Option Str}
    (h : Browse.checkBrowsedir bd e last = some e') :
    ∃ rest, Browse.restOf bd e.path = some rest ∧ e'.path = nameIn bd (if rest.isEmpty then [dot] else rest) := by
  unfold Browse.checkBrowsedir at h
  cases hr : Browse.restOf bd e.path with
  | none => rw [hr] at h; cases h
  | some rest =>
    rw [hr] at h
    simp only at h
    refine ⟨rest, rfl, ?_⟩
    unfold nameIn
    generalize Browse.stripSlash _ = n at h ⊢
    by_cases hl : last = some n
    · rw [if_pos hl] at h; cases h
    · rw [if_neg hl] at h
      injection h with h
      rw [← h]

theorem fake_range {a : Attr} (h : a.InRange) : Attr.InRange { a with mode := fakeMode a.mode } := by
  refine { h with mode := ?_ }
  have := h.mode
  unfold fakeMode
  split
  · exact this
  · unfold U32 at this ⊢
    simp only
    omega

theorem shapes_dir (d : Str) (regex : Str → Bool) (heap : Str) (es : List Ent) (hg : ∀ e ∈ es, e.Good) :
    ∀ last, (shapesLoop (some d) regex heap last es).1.map (fun x => cstr x.path) =
        (Browse.listLoop (some d) regex last (es.map Ent.seen)).1.map (·.path) ∧
      (shapesLoop (some d) regex heap last es).2 = (Browse.listLoop (some d) regex last (es.map Ent.seen)).2 ∧
      ∀ x ∈ (shapesLoop (some d) regex heap last es).1, x.Ok := by
  induction es with
  | nil => intro last; simp [shapesLoop, Browse.listLoop]
  | cons e es ih =>
    intro last
    have ih := ih (fun x hx => hg x (by simp [hx]))
    have hge := hg e (by simp)
    rw [List.map_cons]
    unfold shapesLoop Browse.listLoop
    have hs : e.seen.cmd = e.cmd := rfl
    rw [hs]
    by_cases hm : e.cmd.isMetadata = true
    · rw [if_pos hm, if_pos hm]; exact ih last
    · rw [if_neg hm, if_neg hm]
      simp only
      cases hb : Browse.checkBrowsedir d e.seen last with
      | none => simp only; exact ih last
      | some e' =>
        simp only
        obtain ⟨rest, hr, hn⟩ := check_rest hb
        obtain ⟨h1, h2⟩ := sent_name hr hge.path hge.ne heap
        obtain ⟨i1, i2, i3⟩ := ih (some e'.path)
        by_cases hx : regex e'.path = true
        · rw [if_pos hx, if_pos hx]
          refine ⟨?_, i2, ?_⟩
          · simp only [List.map_cons]
            rw [i1, hn, ← h1]
            rfl
          · intro x hx
            rcases List.mem_cons.mp hx with rfl | hx
            · refine ⟨hge.kind.resolve_right hm, h2, hge.link, ?_⟩
              simp only
              split
              · exact fake_range hge.attr
              · exact hge.attr
            · exact i3 x hx
        · rw [if_neg hx, if_neg hx]; exact ⟨i1, i2, i3⟩

end Verif.ListClient
