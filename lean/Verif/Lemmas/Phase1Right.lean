import Verif.Lemmas.Phase1Run

/-!
# Entries of the first phase are right
-/

namespace Verif.Phase1
open Verif.Strlist Verif.Attribs Verif.Find

theorem split_append {α : Type} {P : List α → α → Prop} {o o' : List α}
    (h : ∀ pre e post, o = pre ++ e :: post → P pre e)
    (h' : ∀ pre e post, o' = pre ++ e :: post → P (o ++ pre) e) :
    ∀ pre e post, o ++ o' = pre ++ e :: post → P pre e := by
  intro pre e post hx
  rcases List.append_eq_append_iff.mp hx with ⟨x, h1, h2⟩ | ⟨x, h1, h2⟩
  · rw [h1]; exact h' x e post h2
  · cases x with
    | nil =>
      have := h' [] e post h2.symm
      rw [List.append_nil] at h1 this
      rw [h1] at this
      exact this
    | cons y ys =>
      obtain ⟨rfl, rfl⟩ := List.cons.inj h2
      exact h pre _ ys h1

theorem split_one {α : Type} {x e : α} {pre post : List α} (h : [x] = pre ++ e :: post) : pre = [] ∧ e = x := by
  cases pre with
  | nil => exact ⟨rfl, (List.cons.inj h).1.symm⟩
  | cons y ys =>
    have := congrArg List.length h
    simp at this

theorem split_two {α : Type} {x y e : α} {pre post : List α} (h : [x, y] = pre ++ e :: post) :
    (pre = [] ∧ e = x) ∨ (pre = [x] ∧ e = y) := by
  cases pre with
  | nil => exact Or.inl ⟨rfl, (List.cons.inj h).1.symm⟩
  | cons z zs =>
    obtain ⟨rfl, h'⟩ := List.cons.inj h
    obtain ⟨rfl, rfl⟩ := split_one h'
    exact Or.inr ⟨rfl, rfl⟩

theorem blockMode_kind {m : Int} (h : kindOf m = some .lnk) : kindOf (blockMode m) = some .blk := by
  have h10 : m / 4096 % 16 = 10 := by
    unfold kindOf at h
    dsimp only at h
    split at h
    · cases h
    split at h
    · cases h
    split at h
    · assumption
    split at h
    · cases h
    split at h
    · cases h
    split at h
    · cases h
    split at h
    · cases h
    · cases h
  have : blockMode m / 4096 % 16 = 6 := by
    unfold blockMode
    omega
  unfold kindOf
  simp only [this]
  rfl

theorem seen_eq {c : Cfg} {w : World} {f : Str} {a a' : Attr} {ty : FType} (h : TypeFor c w f a a' ty) :
    a' = Seen c f a := by
  unfold Seen
  cases h with
  | device h1 h2 =>
    rw [if_pos ⟨h1, h2⟩]
    rfl
  | reg h1 => rw [if_neg]; rw [h1]; rintro ⟨h, _⟩; cases h
  | link h1 h2 => rw [if_neg]; exact fun h => h2 h.2
  | dir h1 => rw [if_neg]; rw [h1]; rintro ⟨h, _⟩; cases h
  | noFsChange h1 => rw [if_neg]; rw [h1]; rintro ⟨h, _⟩; cases h
  | noOpen h1 => rw [if_neg]; rw [h1]; rintro ⟨h, _⟩; cases h
  | other _ h1 _ => rw [if_neg]; exact fun h => h1 h.1

theorem shareable_iff (a : Attr) :
    Shareable a ↔ (statOf a).nlink > 1 ∧ linkableKind (statOf a).kind = true := by
  unfold Shareable statOf
  dsimp only
  have h1 : a.nlink > 1 ↔ a.nlink.toNat > 1 := by omega
  rw [h1]
  refine and_congr_right (fun _ => ?_)
  cases kindOf a.mode with
  | none => simp [linkableKind]
  | some k => cases k <;> simp [linkableKind]

theorem reads_iff {c : Cfg} {f : Str} {k : Option Kind} :
    ToBeRead c f k ↔ (k = some .blk ∧ readBlockdev c f = true) ∨ (k = some .fifo ∧ readFifo c f = true) := by
  unfold ToBeRead readBlockdev readFifo
  rw [Bool.or_eq_true, Bool.or_eq_true, List.contains_iff_mem, List.contains_iff_mem]

/-- What is told of a file is what it is. -/
theorem shown_of {c : Cfg} {w : World} {f : Str} {a a' : Attr} {ty : FType} {cmd : Cmd} {l : Option Str}
    (h : TypeFor c w f a a' ty) (ht : ty.told c = some (cmd, l)) :
    Shown c w f a cmd l (sentAttr c a' (ty.comp c f)) := by
  cases h with
  | reg h1 => cases ht; exact .file h1
  | device h1 h2 =>
    cases ht
    have := Shown.device (c := c) (w := w) (p := f) (a := a) h1 h2
    rw [← seen_eq (TypeFor.device (w := w) h1 h2)] at this
    exact this
  | link h1 h2 =>
    unfold linkType at ht
    cases hr : w.readlink f with
    | none => rw [hr] at ht; cases ht
    | some t =>
      rw [hr] at ht
      cases ht
      unfold linkType
      rw [hr]
      exact .symlink h1 h2 hr
  | dir h1 => cases ht; exact .dir h1
  | noFsChange => cases ht
  | noOpen => cases ht
  | other h1 h2 h3 =>
    unfold otherType at ht ⊢
    by_cases hb : (decide (kindOf a.mode = some .blk) && readBlockdev c f) = true
    · rw [if_pos hb] at ht ⊢
      cases ht
      rw [Bool.and_eq_true, decide_eq_true_eq] at hb
      exact .read (reads_iff.mpr (Or.inl hb))
    · rw [if_neg hb] at ht ⊢
      by_cases hf : (decide (kindOf a.mode = some .fifo) && readFifo c f) = true
      · rw [if_pos hf] at ht ⊢
        cases ht
        rw [Bool.and_eq_true, decide_eq_true_eq] at hf
        exact .read (reads_iff.mpr (Or.inr hf))
      · rw [if_neg hf] at ht ⊢
        cases ht
        refine .special h1 h3 h2 (fun h => ?_)
        rcases reads_iff.mp h with h | h
        · exact hb (by rw [Bool.and_eq_true, decide_eq_true_eq]; exact h)
        · exact hf (by rw [Bool.and_eq_true, decide_eq_true_eq]; exact h)

theorem letThrough_of {c : Cfg} {f : Str} {a : Attr} {top : Bool} (h1 : isIncluded c.find f top = true)
    (h2 : c.logic f a = false)
    (h3 : (statOf a).kind = .reg → sizeMatch c.find (statOf a).size = true) : LetThrough c f a top := by
  refine ⟨h1, h2, fun hk => h3 ?_⟩
  unfold statOf
  rw [hk]
  rfl

/-- The first name that was told of. -/
theorem firstShare_some {out : List Ev} {d i : Nat} {t : Str} (h : firstShare out d i = some t) :
    ∃ e ∈ out, ∃ b, Plainly t b e ∧ Shareable b ∧ b.dev.toNat = d ∧ b.ino.toNat = i := by
  unfold firstShare at h
  obtain ⟨e, he, hp⟩ := Option.map_eq_some_iff.mp h
  have hm := List.mem_of_find?_eq_some he
  have hq := List.find?_some he
  cases e with
  | warn _ _ => cases hq
  | entry cmd b q l =>
    simp only [Bool.and_eq_true, decide_eq_true_eq] at hq
    obtain ⟨⟨⟨⟨h1, h2⟩, h3⟩, h4⟩, h5⟩ := hq
    have : q = t := hp
    subst this
    exact ⟨_, hm, b, ⟨cmd, l, rfl, ⟨h2, h3⟩, h1⟩, (shareable_iff b).mpr h4, h5⟩

theorem firstShare_absent {out : List Ev} {d i : Nat} (h : firstShare out d i = none) :
    ∀ e ∈ out, ∀ q b, Plainly q b e → Shareable b → ¬ (b.dev.toNat = d ∧ b.ino.toNat = i) := by
  rintro e he q b ⟨cmd, l, rfl, ⟨h2, h3⟩, h1⟩ hs hdi
  unfold firstShare at h
  rw [Option.map_eq_none_iff, List.find?_eq_none] at h
  have := h _ he
  simp only [Bool.and_eq_true, decide_eq_true_eq] at this
  exact this ⟨⟨⟨⟨h1, h2⟩, h3⟩, (shareable_iff b).mp hs⟩, hdi⟩

/-- All entries are right, and their numbers are. -/
def AllRight (c : Cfg) (w : World) (starts : List Elem) (out : List Ev) : Prop :=
  ∀ pre e post, out = pre ++ e :: post → ∀ cmd a p l, e = .entry cmd a p l → Main e →
    Right c w starts pre cmd a p l ∧ 0 ≤ a.dev ∧ 0 ≤ a.ino

theorem allRight_append {c : Cfg} {w : World} {starts : List Elem} {out : List Ev} {a : Attr} {f : Str} {cmd : Cmd}
    {l : Option Str} {n : Nat} (h : AllRight c w starts out)
    (h' : Right c w starts out cmd (sentAttr c a n) f l ∧ 0 ≤ a.dev ∧ 0 ≤ a.ino) :
    AllRight c w starts (out ++ doToServer c w a f cmd l n) := by
  refine split_append h (fun pre e post hx cmd' a' p' l' he hm => ?_)
  unfold doToServer at hx
  split at hx
  · rcases split_two hx with ⟨rfl, h2⟩ | ⟨_, h2⟩
    · rw [he] at h2
      cases h2
      rw [List.append_nil]
      exact h'
    · rw [h2] at hm
      rcases metaSymbol_ne c with h | h
      · exact absurd h hm.1
      · exact absurd h hm.2
  · obtain ⟨rfl, h2⟩ := split_one hx
    rw [he] at h2
    cases h2
    rw [List.append_nil]
    exact h'

theorem step_right {c : Cfg} {w : World} {starts : List Elem} (hnum : ∀ p a, w.lstat p = some a → a.InRange)
    (out : List Ev) (st : St) (k : Call) (hk : CallGood c w starts k) (hh : HashFor out st.hash)
    (h : AllRight c w starts out) : AllRight c w starts (out ++ (k.exec c w st).out) := by
  rcases (call_cases hk hh).2 with ⟨a, a', f, ty, top, par, rfl, hr, hl, ht, hs⟩ | ⟨o, rfl, e, ho⟩ | ⟨r, rfl, e⟩
  · have hse := seen_eq ht
    have hge : 0 ≤ a'.dev ∧ 0 ≤ a'.ino := by
      have hin := hnum f a hl
      have hd := hin.dev.1
      have hi := hin.ino.1
      rw [hse]
      unfold Seen
      split
      · exact ⟨hd, hi⟩
      · exact ⟨hd, hi⟩
    have same : ∀ (n : Nat) (b : Attr), 0 ≤ b.dev → 0 ≤ b.ino →
        (SameFile (sentAttr c a' n) b ↔ b.dev.toNat = a'.dev.toNat ∧ b.ino.toNat = a'.ino.toNat) := by
      intro n b h1 h2
      have e1 : (sentAttr c a' n).dev = a'.dev := rfl
      have e2 : (sentAttr c a' n).ino = a'.ino := rfl
      unfold SameFile
      rw [e1, e2]
      constructor
      · rintro ⟨x, y⟩; rw [x, y]; exact ⟨rfl, rfl⟩
      · rintro ⟨x, y⟩; constructor <;> omega
    have nums : ∀ e ∈ out, ∀ q b, Plainly q b e → 0 ≤ b.dev ∧ 0 ≤ b.ino := by
      rintro e he q b ⟨cmd, l, rfl, hm, _⟩
      obtain ⟨l1, l2, rfl⟩ := List.append_of_mem he
      exact (h l1 _ l2 rfl _ _ _ _ rfl hm).2
    cases hs with
    | none e _ =>
      rw [e, List.append_nil]
      exact h
    | link hfs hne hi hlog hsz hn hkd e =>
      rename_i t
      rw [e]
      refine allRight_append h ⟨⟨par, top, a, hr, hl, ?_, Or.inr ⟨rfl, ?_, ?_, t, rfl, hne, ?_⟩⟩, hge⟩
      · rw [← hse]; exact letThrough_of hi hlog hsz
      · rw [← hse]; rfl
      · exact (shareable_iff _).mpr ⟨hn, hkd⟩
      · obtain ⟨e', he', b, hb, hsb, hd⟩ := firstShare_some hfs
        obtain ⟨h1, h2⟩ := nums e' he' t b hb
        exact ⟨e', he', b, hb, hsb, (same _ b h1 h2).mpr hd⟩
    | told htold hi hlog hsz hfirst e =>
      rw [e]
      refine allRight_append h ⟨⟨par, top, a, hr, hl, ?_, Or.inl ⟨shown_of ht htold, ?_⟩⟩, hge⟩
      · rw [← hse]; exact letThrough_of hi hlog hsz
      · intro hsh e' he' q b hb hsb hsame
        obtain ⟨h1, h2⟩ := nums e' he' q b hb
        exact firstShare_absent (hfirst ((shareable_iff _).mp hsh)) e' he' q b hb hsb ((same _ b h1 h2).mp hsame)
    | warned _ _ _ e =>
      rw [e]
      refine split_append h (fun pre e post hx cmd' a' p' l' he hm => ?_)
      obtain ⟨_, h2⟩ := split_one hx
      rw [he] at h2
      cases h2
  · rw [e]
    refine split_append h (fun pre e post hx cmd' a' p' l' he hm => ?_)
    obtain ⟨pr, q, h2, _⟩ := ho e (by rw [show o = pre ++ e :: post from hx]; simp)
    rw [he] at h2
    cases h2
  · rw [e, List.append_nil]
    exact h

end Verif.Phase1
