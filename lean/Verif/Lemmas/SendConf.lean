import Verif.Spec.SendConf
import Verif.Lemmas.ConfsFinish
import Verif.Props.Confs
import Verif.Props.ConfLine
import Verif.Props.CntrStr

/-!
# Lemmas about sending settings
-/

namespace Verif.Confs
open Verif.Strlist Verif.ConfLine Verif.BackupNumber Verif.Timer
open Verif.Cntr hiding isSpace

theorem all_nodup : Opt.all.Nodup := by
  decide +kernel

/-- What is true of all settings that are sent. -/
def goodSent (o : Opt) : Bool :=
  (match o.info.field with
    | [] => false
    | c :: cs => decide (97 ≤ c ∧ c ≤ 122) && (c :: cs).all (fun b => decide (b ≠ 61 ∧ b ≠ 10 ∧ b ≠ 58) && !isSpace b)) &&
  (match o.info.default with
    | .str none | .int _ | .size _ | .lst [] => true
    | _ => false) &&
  decide (o ≠ .COMPRESSION ∧ o ≠ .SSL_COMPRESSION ∧ o ≠ .RATELIMIT)

theorem sent_good (o : Opt) (h : o.info.flags.incexc = true ∨ o.info.flags.incexcRestore = true) : goodSent o = true := by
  have key : Opt.all.all (fun o => !(o.info.flags.incexc || o.info.flags.incexcRestore) || goodSent o) = true := by
    decide +kernel
  have := List.all_eq_true.mp key o (mem_all o)
  rcases h with h | h <;> simpa [h] using this

theorem goodSent_field {o : Opt} (h : goodSent o = true) :
    GoodField o.info.field ∧ newline ∉ o.info.field ∧ ∀ r, (bytes ". ").isPrefixOf (o.info.field ++ r) = false := by
  unfold goodSent at h
  simp only [Bool.and_eq_true] at h
  obtain ⟨⟨h, -⟩, -⟩ := h
  cases e : o.info.field with
  | nil => rw [e] at h; cases h
  | cons c cs =>
    rw [e] at h
    simp only [Bool.and_eq_true, decide_eq_true_eq, List.all_eq_true, Bool.not_eq_true'] at h
    obtain ⟨⟨h1, h2⟩, h3⟩ := h
    have n1 : c ≠ 35 := by rintro rfl; exact absurd h1 (by decide)
    have n2 : c ≠ 46 := by rintro rfl; exact absurd h1 (by decide)
    refine ⟨⟨by simp, ?_, ?_, ?_⟩, ?_, ?_⟩
    · intro d hd
      simp only [List.head?_cons, Option.some.injEq] at hd
      subst hd
      exact ⟨(h3 c (List.mem_cons_self ..)).2, n1⟩
    · intro d hd
      have := List.mem_of_getLast? hd
      exact ⟨(h3 d this).2, (h3 d this).1.2.2⟩
    · intro hm; exact (h3 _ hm).1.1 rfl
    · intro hm; exact (h3 _ hm).1.2.1 rfl
    · intro r
      rw [List.cons_append]
      have : bytes ". " = [46, 32] := by decide
      rw [this]
      simp [List.isPrefixOf, n2.symm]

theorem goodSent_kind {o : Opt} (h : goodSent o = true) :
    (o.info.default = .str none ∨ (∃ n, o.info.default = .int n) ∨ (∃ n, o.info.default = .size n) ∨ o.isList) ∧
    o ≠ .COMPRESSION ∧ o ≠ .SSL_COMPRESSION ∧ o ≠ .RATELIMIT := by
  unfold goodSent at h
  simp only [Bool.and_eq_true, decide_eq_true_eq] at h
  obtain ⟨⟨-, h⟩, h2⟩ := h
  refine ⟨?_, h2⟩
  split at h
  · rename_i e; exact Or.inl e
  · rename_i e; exact Or.inr (Or.inl ⟨_, e⟩)
  · rename_i e; exact Or.inr (Or.inr (Or.inl ⟨_, e⟩))
  · rename_i e; exact Or.inr (Or.inr (Or.inr e))
  · cases h

theorem loadField_sent (env : Env) (d : Confs) {o : Opt} (h : goodSent o = true) (v : Str) (r : Bool) :
    loadField env d o.info.field v r = (newVal o (d o) v r).map (fun x => set d o x) := by
  have hf := (goodSent_field h).1.1
  obtain ⟨-, n1, n2, n3⟩ := goodSent_kind h
  unfold loadField
  have e1 : o.info.field ≠ bytes "compression" := fun e => n1 (field_inj (p := .COMPRESSION) hf e)
  have e2 : o.info.field ≠ bytes "ssl_compression" := fun e => n2 (field_inj (p := .SSL_COMPRESSION) hf e)
  have e3 : o.info.field ≠ bytes "ratelimit" := fun e => n3 (field_inj (p := .RATELIMIT) hf e)
  rw [if_neg e1, if_neg e2, if_neg e3, find_field o hf]

/-- An element as it arrives. -/
def reflag (o : Opt) (e : Elem) : Elem := ⟨e.path, if o = .INCLUDE then 1 else 0⟩

/-- The value of a setting after another value for it has arrived. -/
def arrive (o : Opt) (old : Val) : Val → Val
  | .str none => old
  | .lst l => .lst (appendLst o (match old with | .lst k => k | _ => []) (l.map (reflag o)))
  | v => v

/-- What is sent for a setting. -/
def sentOne (o : Opt) : Val → List Setting
  | .str none => []
  | .str (some s) => [⟨o.info.field, s, false⟩]
  | .lst l => l.map (fun e => ⟨o.info.field, e.path, false⟩)
  | .int n => [⟨o.info.field, showInt n, false⟩]
  | .size n => [⟨o.info.field, decimal n, false⟩]
  | _ => []

theorem atoi_showInt (n : Int) : atoi (showInt n) = n := by
  unfold showInt
  split
  · rename_i h
    unfold atoi
    rw [List.dropWhile_cons, if_neg (by decide)]
    simp only [decValue_decimal]
    omega
  · rw [atoi_decimal]; omega

theorem getFileSize_decimal {n : Nat} (h : n < 2 ^ 64) : getFileSize (decimal n) = some n := by
  have := number_eq [] [] [] n (by intro c hc; cases hc) (by intro c hc; cases hc) (by simp)
  simp only [List.nil_append, List.append_nil] at this
  unfold getFileSize
  rw [this.2, this.1]
  simp only [Option.some.injEq]
  omega

theorem SameKind.str {v : Val} {s : Option Str} (h : SameKind v (.str s)) : ∃ k, v = .str k := by
  cases v <;> first | exact ⟨_, rfl⟩ | cases h

theorem SameKind.int {v : Val} {s : Int} (h : SameKind v (.int s)) : ∃ k, v = .int k := by
  cases v <;> first | exact ⟨_, rfl⟩ | cases h

theorem SameKind.size {v : Val} {s : Nat} (h : SameKind v (.size s)) : ∃ k, v = .size k := by
  cases v <;> first | exact ⟨_, rfl⟩ | cases h

theorem set_eq_self {d : Confs} {o : Opt} {v : Val} (h : d o = v) : set d o v = d := by
  funext p
  by_cases e : p = o
  · subst e; rw [set_same, h]
  · rw [set_ne _ _ e]

theorem set_set (d : Confs) (o : Opt) (v w : Val) : set (set d o v) o w = set d o w := by
  funext p
  by_cases e : p = o
  · subst e; rw [set_same, set_same]
  · rw [set_ne _ _ e, set_ne _ _ e, set_ne _ _ e]

theorem applyAll_one (env : Env) {d : Confs} {o : Opt} {v : Val} (h : goodSent o = true) (hd : SameKind (d o) o.info.default)
    (hv : SameKind v o.info.default) (hn : ∀ n, v = .size n → n < 2 ^ 64) :
    applyAll env d (sentOne o v) = some (set d o (arrive o (d o) v)) := by
  obtain ⟨hk, -⟩ := goodSent_kind h
  rcases hk with hk | ⟨n, hk⟩ | ⟨n, hk⟩ | hk
  · rw [hk] at hd hv
    obtain ⟨x, hx⟩ := hd.str
    obtain ⟨y, rfl⟩ := hv.str
    cases y with
    | none =>
      simp only [sentOne, applyAll, arrive]
      rw [set_eq_self rfl]
    | some s =>
      simp only [sentOne, applyAll, arrive, loadField_sent env d h, hx, newVal, Option.map_some, Option.bind_some]
  · rw [hk] at hd hv
    obtain ⟨x, hx⟩ := hd.int
    obtain ⟨y, rfl⟩ := hv.int
    simp only [sentOne, applyAll, arrive, loadField_sent env d h, hx, newVal, Option.map_some, Option.bind_some,
      atoi_showInt]
  · rw [hk] at hd hv
    obtain ⟨x, hx⟩ := hd.size
    obtain ⟨y, rfl⟩ := hv.size
    simp only [sentOne, applyAll, arrive, loadField_sent env d h, hx, newVal, Option.map_some, Option.bind_some,
      getFileSize_decimal (hn y rfl)]
  · rw [show o.info.default = .lst [] from hk] at hd hv
    obtain ⟨x, hx⟩ := hd.lst
    obtain ⟨l, rfl⟩ := hv.lst
    simp only [sentOne, arrive, hx]
    clear hn hv hd
    induction l generalizing d x with
    | nil =>
      simp only [List.map_nil, applyAll, appendLst, List.foldl_nil]
      rw [set_eq_self hx]
    | cons e l ih =>
      simp only [List.map_cons, applyAll, loadField_sent env d h, hx, newVal, Option.map_some, Option.bind_some,
        Bool.false_eq_true, if_false]
      have e1 : (⟨e.path, if o.info.field = bytes "include" then 1 else 0⟩ : Elem) = reflag o e := by
        unfold reflag
        by_cases hi : o = .INCLUDE
        · subst hi; rfl
        · rw [if_neg hi, if_neg (fun k => hi ((field_include o).mp k))]
      rw [e1, ih (addTo o x (reflag o e)) (set_same ..), set_set]
      rfl

/-- What is sent for some settings. -/
def sentFor (flag : Flags → Bool) (c : Confs) (ps : List Opt) : List Setting :=
  ps.flatMap (fun o => if flag o.info.flags then sentOne o (c o) else [])

open Classical in
theorem applyAll_sent (env : Env) (flag : Flags → Bool) (hflag : ∀ o : Opt, flag o.info.flags = true → goodSent o = true)
    {c : Confs} (hc : WellKinded c) (hs : Sendable flag c) (ps : List Opt) (hp : ps.Nodup) {d : Confs} (hd : WellKinded d) :
    applyAll env d (sentFor flag c ps) =
      some (fun o => if o ∈ ps ∧ flag o.info.flags = true then arrive o (d o) (c o) else d o) := by
  induction ps generalizing d with
  | nil => simp [sentFor, applyAll]
  | cons p ps ih =>
    rw [List.nodup_cons] at hp
    by_cases hf : flag p.info.flags = true
    · have e1 : sentFor flag c (p :: ps) = sentOne p (c p) ++ sentFor flag c ps := by
        simp [sentFor, hf]
      have hd' : WellKinded (set d p (arrive p (d p) (c p))) := by
        intro o
        by_cases e : o = p
        · subst e
          rw [set_same]
          have h1 := hd o
          have h2 := hc o
          revert h1 h2
          cases c o with
          | str s => cases s <;> intro h1 h2 <;> first | exact h1 | exact h2
          | lst l =>
            intro _ h2
            revert h2
            cases o.info.default <;> intro h2 <;> first | exact h2 | cases h2
          | _ => intro _ h2; exact h2
        · rw [set_ne _ _ e]; exact hd o
      rw [e1, applyAll_append, applyAll_one env (hflag p hf) (hd p) (hc p) (hs p hf).2.2, Option.bind_some,
        ih hp.2 hd']
      congr 1
      funext o
      by_cases e : o = p
      · subst e
        rw [if_neg (fun x => hp.1 x.1), set_same, if_pos ⟨List.mem_cons_self .., hf⟩]
      · rw [set_ne _ _ e]
        have : (o ∈ ps ∧ flag o.info.flags = true) ↔ (o ∈ p :: ps ∧ flag o.info.flags = true) := by
          simp [e]
        simp only [this]
    · have e1 : sentFor flag c (p :: ps) = sentFor flag c ps := by
        simp [sentFor, hf]
      rw [e1, ih hp.2 hd]
      congr 1
      funext o
      have : (o ∈ ps ∧ flag o.info.flags = true) ↔ (o ∈ p :: ps ∧ flag o.info.flags = true) := by
        constructor
        · rintro ⟨h1, h2⟩; exact ⟨List.mem_cons_of_mem _ h1, h2⟩
        · rintro ⟨h1, h2⟩
          rcases List.mem_cons.mp h1 with rfl | h1
          · exact absurd h2 hf
          · exact ⟨h1, h2⟩
      simp only [this]

/-! ### The text of it -/

/-- The line for a setting. -/
def lineOf (s : Setting) : Str := sendLine s.field s.value

theorem doSends_eq (flag : Flags → Bool) (c : Confs) : doSends flag c = (sentFor flag c Opt.all).map lineOf := by
  unfold doSends sentFor
  rw [List.map_flatMap]
  congr 1
  funext o
  split
  · cases h : c o <;> simp [sendOne, sentOne, lineOf]
    rename_i s
    cases s <;> simp [sendOne, sentOne, lineOf]
  · rfl

theorem digit_plain_text (n : Nat) : PlainText (decimal n) := by
  obtain ⟨c, r, e, hc⟩ := decimal_cons n
  refine ⟨(digits_plain n).2.1, c, r, (decimal n).getLast (by rw [e]; simp), e, List.getLast?_eq_some_getLast _, ?_, ?_, ?_, ?_⟩
  · exact (isDigit_plain hc).2.2.2.2.1
  · exact (isDigit_plain ((decimal_digits n).1 _ (List.getLast_mem _))).2.2.2.2.1
  · rintro rfl; exact absurd hc (by decide)
  · rintro rfl; exact absurd hc (by decide)

theorem showInt_plain_text (n : Int) : PlainText (showInt n) := by
  unfold showInt
  split
  · obtain ⟨h, a, m, b, e, hb, h1, h2, -, -⟩ := digit_plain_text n.natAbs
    refine ⟨?_, 45, decimal n.natAbs, b, rfl, ?_, by decide, h2, by decide, by decide⟩
    · rw [List.mem_cons, not_or]; exact ⟨by decide, h⟩
    · rw [e] at hb ⊢
      rw [List.getLast?_cons_cons]; exact hb
  · exact digit_plain_text _

theorem sent_plain {flag : Flags → Bool} (hflag : ∀ o : Opt, flag o.info.flags = true → goodSent o = true)
    {c : Confs} (hs : Sendable flag c) (ps : List Opt) :
    ∀ s ∈ sentFor flag c ps, PlainText s.value ∧ s.reset = false ∧ ∃ o : Opt, goodSent o = true ∧ s.field = o.info.field := by
  intro s h
  unfold sentFor at h
  rw [List.mem_flatMap] at h
  obtain ⟨o, -, h⟩ := h
  split at h
  · rename_i hf
    obtain ⟨s1, s2, s3⟩ := hs o hf
    have key : s.field = o.info.field ∧ s.reset = false ∧ PlainText s.value := by
      cases hc : c o <;> rw [hc] at h
      case str t =>
        cases t with
        | none => cases h
        | some t =>
          simp only [sentOne, List.mem_singleton] at h; subst h
          exact ⟨rfl, rfl, s1 t hc⟩
      case int n =>
        simp only [sentOne, List.mem_singleton] at h; subst h
        exact ⟨rfl, rfl, showInt_plain_text n⟩
      case size n =>
        simp only [sentOne, List.mem_singleton] at h; subst h
        exact ⟨rfl, rfl, digit_plain_text n⟩
      case lst l =>
        simp only [sentOne, List.mem_map] at h
        obtain ⟨e, he, rfl⟩ := h
        exact ⟨rfl, rfl, s2 l hc e he⟩
      all_goals cases h
    exact ⟨key.2.2, key.2.1, o, hflag o hf, key.1⟩
  · cases h

/-- A setting that can be sent. -/
def Fine (s : Setting) : Prop := PlainText s.value ∧ s.reset = false ∧ ∃ o : Opt, goodSent o = true ∧ s.field = o.info.field

theorem Fine.line {s : Setting} (h : Fine s) : lineOf s = s.field ++ (bytes " = " ++ s.value) := by
  obtain ⟨⟨_, a, m, _, e, _⟩, _⟩ := h
  unfold lineOf sendLine Prepend.prependN Prepend.prependLen
  rw [if_neg (by rw [e]; simp)]
  simp

theorem Fine.pair {s : Setting} (h : Fine s) : getPair (lineOf s) = .pair s.field s.value s.reset := by
  rw [h.line]
  obtain ⟨⟨_, hv⟩, hr, o, ho, hf⟩ := h
  have := C52_unquoted [] s.field [32] [32] s.value [] (by intro c hc; cases hc) (hf ▸ (goodSent_field ho).1)
    (by intro c hc; simp at hc; subst hc; decide) (by intro c hc; simp at hc; subst hc; decide)
    (by intro c hc; cases hc) hv
  rw [hr, ← this]
  have : bytes " = " = [32, 61, 32] := by decide
  rw [this]
  simp

theorem Fine.clean {s : Setting} (h : Fine s) : newline ∉ lineOf s ∧ lineOf s ≠ [] ∧ (61 : Byte) ∈ lineOf s ∧
    (bytes ". ").isPrefixOf (lineOf s) = false := by
  rw [h.line]
  obtain ⟨⟨hn, _⟩, _, o, ho, hf⟩ := h
  obtain ⟨h1, h2, h3⟩ := goodSent_field ho
  have e : bytes " = " = [32, 61, 32] := by decide
  refine ⟨?_, ?_, ?_, ?_⟩
  · rw [hf, e]
    simp only [List.mem_append, not_or]
    exact ⟨h2, by decide, hn⟩
  · rw [hf]; intro x; exact h1.1 (List.append_eq_nil_iff.mp x).1
  · rw [e]; simp
  · rw [hf]; exact h3 _

theorem loadLines_fine (env : Env) (d : Confs) {ss : List Setting} (h : ∀ s ∈ ss, Fine s) {d' : Confs}
    (ha : applyAll env d ss = some d') : loadLines env d (ss.map lineOf) = .ok d' := by
  induction ss generalizing d with
  | nil => injection ha with ha; subst ha; rfl
  | cons s ss ih =>
    have hs := h s (List.mem_cons_self ..)
    simp only [applyAll] at ha
    cases e : loadField env d s.field s.value s.reset with
    | none => rw [e] at ha; cases ha
    | some x =>
      rw [e, Option.bind_some] at ha
      simp only [List.map_cons, loadLines, parseLine, parsePair, hs.pair, e, hs.clean.2.2.2, Out.bind]
      exact ih x (fun t ht => h t (List.mem_cons_of_mem _ ht)) ha

/-- Lines joined as they are received. -/
def joinLines : List Str → Str
  | [] => []
  | l :: ls => l ++ (newline :: joinLines ls)

theorem bufLines_word (w cur r : Str) (h : newline ∉ w) : bufLines cur (w ++ r) = bufLines (cur ++ w) r := by
  induction w generalizing cur with
  | nil => simp
  | cons c w ih =>
    rw [List.mem_cons, not_or] at h
    rw [List.cons_append, bufLines, if_neg (Ne.symm h.1), ih _ h.2]
    simp

theorem bufLines_join (ls : List Str) (h : ∀ l ∈ ls, newline ∉ l ∧ l ≠ []) :
    bufLines [] (joinLines ls ++ [newline]) = ls := by
  induction ls with
  | nil => simp [joinLines, bufLines]
  | cons l ls ih =>
    obtain ⟨h1, h2⟩ := h l (List.mem_cons_self ..)
    rw [joinLines, List.append_assoc, bufLines_word _ _ _ h1, List.nil_append, List.cons_append, bufLines, if_pos rfl,
      if_neg h2, ih (fun x hx => h x (List.mem_cons_of_mem _ hx))]

theorem recvLoop_lines (endreq : Str) (acc : Str) (ls rest : List Str) (h : ∀ l ∈ ls, l ≠ endreq ∧ l ≠ []) :
    ∃ r, recvLoop endreq (some acc) (ls ++ endreq :: rest) = some (some r) ∧ r ++ [newline] = acc ++ newline :: joinLines ls := by
  induction ls generalizing acc with
  | nil => exact ⟨acc, by simp [recvLoop], by simp [joinLines]⟩
  | cons l ls ih =>
    obtain ⟨h1, h2⟩ := h l (List.mem_cons_self ..)
    have e : addToIncexc (some acc) l = acc ++ newline :: l := by
      unfold addToIncexc Prepend.prependN Prepend.prependLen
      have : l.isEmpty = false := by cases l <;> simp_all
      simp [this]
    obtain ⟨r, hr, he⟩ := ih (acc ++ newline :: l) (fun x hx => h x (List.mem_cons_of_mem _ hx))
    refine ⟨r, ?_, ?_⟩
    · rw [List.cons_append, recvLoop, if_neg h1, e]; exact hr
    · rw [he]; simp [joinLines]

theorem incexcRecv_lines (endreq : Str) (l : Str) (ls rest : List Str) (h : ∀ x ∈ l :: ls, x ≠ endreq ∧ x ≠ []) :
    incexcRecv endreq (l :: ls ++ endreq :: rest) = some (joinLines (l :: ls) ++ [newline]) := by
  obtain ⟨h1, h2⟩ := h l (List.mem_cons_self ..)
  have e : addToIncexc none l = l := by
    unfold addToIncexc Prepend.prependN Prepend.prependLen
    simp
  obtain ⟨r, hr, he⟩ := recvLoop_lines endreq l ls rest (fun x hx => h x (List.mem_cons_of_mem _ hx))
  unfold incexcRecv
  rw [List.cons_append, recvLoop, if_neg h1, e, hr]
  simp only [Option.map_some, Option.some.injEq]
  unfold addToIncexc Prepend.prependN Prepend.prependLen
  simp only [Option.getD_some, Option.isSome_some, if_true]
  have : ([newline] : Str).isEmpty = false := rfl
  rw [this]
  simp only [Bool.false_eq_true, if_false]
  rw [he, joinLines]

/-- Everything that has been sent arrives. -/
theorem arrives (env : Env) (flag : Flags → Bool) (hflag : ∀ o : Opt, flag o.info.flags = true → goodSent o = true)
    {c : Confs} (hc : WellKinded c) (hs : Sendable flag c) {d : Confs} (hd : WellKinded d) (endreq : Str)
    (he : (61 : Byte) ∉ endreq) (hne : doSends flag c ≠ []) (rest : List Str) :
    ∃ buf, incexcRecv endreq (doSends flag c ++ endreq :: rest) = some buf ∧
      loadBuf env d buf = .ok (fun o => if flag o.info.flags = true then arrive o (d o) (c o) else d o) := by
  have hfine : ∀ s ∈ sentFor flag c Opt.all, Fine s := sent_plain hflag hs Opt.all
  rw [doSends_eq] at hne ⊢
  cases hl : sentFor flag c Opt.all with
  | nil => rw [hl] at hne; exact absurd rfl hne
  | cons s ss =>
    rw [hl] at hfine
    have hx : ∀ x ∈ lineOf s :: ss.map lineOf, x ≠ endreq ∧ x ≠ [] ∧ newline ∉ x := by
      intro x hx
      rw [← List.map_cons, List.mem_map] at hx
      obtain ⟨t, ht, rfl⟩ := hx
      obtain ⟨h1, h2, h3, -⟩ := (hfine t ht).clean
      exact ⟨fun e => he (e ▸ h3), h2, h1⟩
    refine ⟨_, incexcRecv_lines endreq (lineOf s) (ss.map lineOf) rest (fun x hx' => ⟨(hx x hx').1, (hx x hx').2.1⟩), ?_⟩
    unfold loadBuf
    rw [bufLines_join _ (fun x hx' => ⟨(hx x hx').2.2, (hx x hx').2.1⟩)]
    have := applyAll_sent env flag hflag hc hs Opt.all all_nodup hd
    rw [hl] at this
    simp only [mem_all, true_and] at this
    have h2 := loadLines_fine env d hfine this
    rw [List.map_cons] at h2
    simp only
    rw [h2]

/-! ### Lists that arrive -/

theorem addSorted_last {o : Opt} (h : o.info.flags.sorted = true) {l : List Elem} {x : Elem}
    (hf : ∀ y ∈ l, y.flag = x.flag) (hl : ∀ y ∈ l, ¬ PathCmp.pathcmp x.path y.path < 0) : addTo o l x = l ++ [x] := by
  unfold addTo
  rw [if_pos h]
  unfold addSorted
  induction l with
  | nil => rfl
  | cons y l ih =>
    rw [doAdd]
    simp only [Bool.false_and, Bool.false_eq_true, if_false, Bool.true_and]
    rw [if_neg (by simpa using hl y (List.mem_cons_self ..)), if_neg (by
      have := hf y (List.mem_cons_self ..)
      simp only [Bool.and_eq_true, decide_eq_true_eq, not_and]
      intro _; omega)]
    rw [ih (fun z hz => hf z (List.mem_cons_of_mem _ hz)) (fun z hz => hl z (List.mem_cons_of_mem _ hz))]
    rfl

theorem reflag_texts (o : Opt) (l : List Elem) : (l.map (reflag o)).map Elem.path = l.map Elem.path := by
  rw [List.map_map]; rfl

theorem appendLst_sorted {o : Opt} (h : o.info.flags.sorted = true) (a l : List Elem)
    (hl : InOrder ((a ++ l).map Elem.path)) : appendLst o (a.map (reflag o)) (l.map (reflag o)) = (a ++ l).map (reflag o) := by
  induction l generalizing a with
  | nil => simp [appendLst]
  | cons x l ih =>
    unfold appendLst
    rw [List.map_cons, List.foldl_cons]
    have e : addTo o (a.map (reflag o)) (reflag o x) = (a ++ [x]).map (reflag o) := by
      rw [addSorted_last h]
      · simp
      · intro y hy
        rw [List.mem_map] at hy
        obtain ⟨z, _, rfl⟩ := hy
        rfl
      · intro y hy
        rw [List.mem_map] at hy
        obtain ⟨z, hz, rfl⟩ := hy
        unfold InOrder at hl
        rw [List.map_append, List.pairwise_append] at hl
        exact hl.2.2 z.path (List.mem_map_of_mem hz) x.path (by simp)
    rw [e]
    have := ih (a ++ [x]) (by simpa using hl)
    unfold appendLst at this
    rw [this]
    simp

theorem arrive_texts (o : Opt) (l : List Elem) :
    ((appendLst o [] (l.map (reflag o))).map Elem.path).Perm (l.map Elem.path) ∧
    ((o.info.flags.sorted = true → InOrder (l.map Elem.path)) →
      (appendLst o [] (l.map (reflag o))).map Elem.path = l.map Elem.path) := by
  constructor
  · have := (appendLst_perm o [] (l.map (reflag o))).map Elem.path
    rw [List.nil_append, reflag_texts] at this
    exact this
  · intro h
    cases hs : o.info.flags.sorted with
    | false => rw [appendLst_plain hs, List.nil_append, reflag_texts]
    | true =>
      have := appendLst_sorted hs [] l (by simpa using h hs)
      rw [List.map_nil, List.nil_append] at this
      rw [this, reflag_texts]

/-! ### What is worked out afterwards -/

theorem loadField_other {env : Env} {c c' : Confs} {f v : Str} {r : Bool} (h : loadField env c f v r = some c') {o : Opt}
    (ho : f ≠ o.info.field) : c' o = c o := by
  unfold loadField at h
  split at h
  · rename_i e
    obtain ⟨n, _, rfl⟩ := Option.map_eq_some_iff.mp h
    exact set_ne _ _ (by rintro rfl; exact ho e)
  · split at h
    · rename_i e
      obtain ⟨n, _, rfl⟩ := Option.map_eq_some_iff.mp h
      exact set_ne _ _ (by rintro rfl; exact ho e)
    · split at h
      · rename_i e
        split at h
        · cases h
        · cases h; exact set_ne _ _ (by rintro rfl; exact ho e)
      · split at h
        · cases h; rfl
        · rename_i p hp
          have hf := List.find?_some hp
          simp only [decide_eq_true_eq] at hf
          obtain ⟨n, _, rfl⟩ := Option.map_eq_some_iff.mp h
          exact set_ne _ _ (by rintro rfl; exact ho hf.symm)

theorem applyAll_other {env : Env} {c c' : Confs} {ss : List Setting} (h : applyAll env c ss = some c') {o : Opt}
    (ho : ¬ Mentions o.info.field ss) : c' o = c o := by
  induction ss generalizing c with
  | nil => cases h; rfl
  | cons s ss ih =>
    simp only [applyAll] at h
    obtain ⟨x, hx, h⟩ := Option.bind_eq_some_iff.mp h
    rw [ih h (fun ⟨t, ht, e⟩ => ho ⟨t, List.mem_cons_of_mem _ ht, e⟩),
      loadField_other hx (fun e => ho ⟨s, List.mem_cons_self .., e⟩)]

theorem texts_set_same {c : Confs} {o p : Opt} {l : List Elem} (h : l.map Elem.path = texts c o) :
    texts (set c o (.lst l)) p = texts c p := by
  by_cases e : p = o
  · subst e
    unfold texts at h ⊢
    rw [getLst_eq (set_same ..), h]
  · exact texts_eq (set_ne _ _ e)

theorem finFstypes_texts (env : Env) (c : Confs) (o p : Opt) : texts (finFstypes env c o) p = texts c p := by
  apply texts_set_same
  rw [List.map_map]; rfl

theorem setMaxExt_texts (c : Confs) (o p : Opt) : texts (setMaxExt c o) p = texts c p := by
  unfold setMaxExt
  cases e : getLst c o with
  | nil => rfl
  | cons x l =>
    apply texts_set_same
    unfold texts; rw [e]; rfl

theorem doAdd_mem (s u : Bool) (x : Elem) {l : List Elem} {y : Elem} (h : y ∈ l) : y ∈ doAdd s u x l := by
  induction l with
  | nil => cases h
  | cons z l ih =>
    rw [doAdd]
    split
    · exact h
    · split
      · exact List.mem_cons_of_mem _ h
      · split
        · exact List.mem_cons_of_mem _ h
        · rcases List.mem_cons.mp h with rfl | h
          · exact List.mem_cons_self ..
          · exact List.mem_cons_of_mem _ (ih h)

theorem uniq_mem (ps : List Str) (l : List Elem) {y : Elem} (h : y ∈ l) :
    y ∈ ps.foldl (fun l p => Strlist.addSortedUniq l ⟨p, 1⟩) l := by
  induction ps generalizing l with
  | nil => exact h
  | cons p ps ih => exact ih _ (doAdd_mem _ _ _ h)

/-- What is worked out leaves the texts of these lists as they are. -/
theorem finish_texts {env : Env} {c c' : Confs} (h : finish env c = some c') {o : Opt}
    (ho : o ∈ [Opt.EXCFS, .INCFS, .INCEXT, .EXCEXT, .EXCOM, .INCLUDE]) :
    (∀ x ∈ texts c o, x ∈ texts c' o) ∧ (o = .INCLUDE → texts c .INCGLOB = [] → texts c' o = texts c o) ∧
    (o ≠ .INCLUDE → texts c' o = texts c o) := by
  unfold finish at h
  simp only at h
  obtain ⟨c1, h1, h⟩ := Option.bind_eq_some_iff.mp h
  obtain ⟨c2, h2, h⟩ := Option.bind_eq_some_iff.mp h
  obtain ⟨c3, h3, h⟩ := Option.bind_eq_some_iff.mp h
  obtain ⟨c4, h4, h⟩ := Option.bind_eq_some_iff.mp h
  injection h with h
  have hn : o ≠ .INCEXCDIR ∧ o ≠ .FSCHGDIR ∧ o ≠ .STARTDIR ∧ o ≠ .KEEP ∧ o ≠ .LISTEN ∧ o ≠ .LISTEN_STATUS ∧
      o ≠ .PORT_BACKUP ∧ o ≠ .PORT_RESTORE ∧ o ≠ .PORT_VERIFY ∧ o ≠ .PORT_LIST ∧ o ≠ .PORT_DELETE ∧
      o ∉ [Opt.S_SCRIPT_PRE_NOTIFY,
    .S_SCRIPT_POST_NOTIFY, .B_SCRIPT_PRE, .B_SCRIPT_POST, .R_SCRIPT_PRE, .R_SCRIPT_POST, .S_SCRIPT_PRE, .S_SCRIPT_POST,
    .B_SCRIPT_PRE_ARG, .B_SCRIPT_POST_ARG, .R_SCRIPT_PRE_ARG, .R_SCRIPT_POST_ARG, .S_SCRIPT_PRE_ARG,
    .S_SCRIPT_POST_ARG, .S_SCRIPT, .S_SCRIPT_ARG] := by
    simp only [List.mem_cons, List.not_mem_nil, or_false] at ho
    rcases ho with rfl | rfl | rfl | rfl | rfl | rfl <;> decide
  obtain ⟨n1, n2, n3, n4, n5, n6, n7, n8, n9, n10, n11, n12⟩ := hn
  have e5 : c' o = c4 o := by
    rw [← h, finScripts_ne n12]
    split
    · exact finPorts_ne n7 n8 n9 n10 n11
    · rfl
  have e4 : c4 o = c3 o := by
    split at h4
    · split at h4
      · cases h4
      · obtain ⟨d, h5, h6⟩ := Option.bind_eq_some_iff.mp h4
        rw [finMaxChildren_ne h6 n6, finMaxChildren_ne h5 n5]
    · cases h4; rfl
  have e3 : c3 o = c2 o := by
    rw [finKeep_ne h3 n4]; exact set_ne _ _ n2
  have e2 : c2 o = c1 o := finStartDirs_ne h2 n2 n3
  have e1 := finIncexcDirs_ne h1 n1
  have e : texts c' o = texts (if getMode c = .client then finGlob env (setMaxExt (setMaxExt (setMaxExt (finFstypes env (finFstypes env c .EXCFS) .INCFS) .INCEXT) .EXCEXT) .EXCOM) else setMaxExt (setMaxExt (setMaxExt (finFstypes env (finFstypes env c .EXCFS) .INCFS) .INCEXT) .EXCEXT) .EXCOM) o :=
    texts_eq (e5.trans (e4.trans (e3.trans (e2.trans e1))))
  generalize hd : setMaxExt (setMaxExt (setMaxExt (finFstypes env (finFstypes env c .EXCFS) .INCFS) .INCEXT) .EXCEXT) .EXCOM = d at e
  have hd2 : ∀ p, texts d p = texts c p := by
    intro p
    rw [← hd]
    simp only [setMaxExt_texts, finFstypes_texts]
  rw [← hd2 o, ← hd2 .INCGLOB, e]
  split
  · refine ⟨?_, ?_, ?_⟩
    · intro x hx
      by_cases ei : o = .INCLUDE
      · subst ei
        unfold texts finGlob
        rw [getLst_eq (set_same ..)]
        unfold texts at hx
        rw [List.mem_map] at hx ⊢
        obtain ⟨y, hy, rfl⟩ := hx
        exact ⟨y, uniq_mem _ _ hy, rfl⟩
      · rw [show texts (finGlob env d) o = texts d o from texts_eq (set_ne _ _ ei)]; exact hx
    · rintro rfl hg
      unfold texts at hg
      rw [List.map_eq_nil_iff] at hg
      unfold texts finGlob
      rw [getLst_eq (set_same ..), hg]
      rfl
    · intro ei
      exact texts_eq (set_ne _ _ ei)
  · exact ⟨fun x hx => hx, fun _ _ => rfl, fun _ => rfl⟩

/-- What remains of settings that have been received, once everything is worked out. -/
theorem finalise_keeps {env : Env} {d d' : Confs} {cl : List Setting} (h : finalise env d = .ok d')
    (hc : Said env env.cli cl) {o : Opt} (hm : ¬ Mentions o.info.field cl) :
    (o ∉ derived → d' o = d o) ∧
    (o ∈ [Opt.EXCFS, .INCFS, .INCEXT, .EXCEXT, .EXCOM] → texts d' o = texts d o) ∧
    (o = .INCLUDE → ¬ Mentions Opt.INCGLOB.info.field cl → texts d .INCGLOB = [] → texts d' o = texts d o) ∧
    (o = .INCLUDE → ∀ x ∈ texts d o, x ∈ texts d' o) := by
  unfold finalise at h
  obtain ⟨c2, h2, h⟩ := Out.bind_ok h
  obtain ⟨cl', hc', h2⟩ := loadLines_ok h2
  rw [hc'.unique hc] at h2
  have e := applyAll_other h2 hm
  split at h
  · cases h
  · rename_i hf
    cases h
    refine ⟨fun hd => by rw [finish_ne hf hd, e], fun ho => ?_, fun ho hg hn => ?_, fun ho x hx => ?_⟩
    · rw [(finish_texts hf (o := o) (by simp only [List.mem_cons, List.not_mem_nil, or_false] at ho ⊢; rcases ho with h | h | h | h | h <;> simp [h])).2.2 (by rintro rfl; revert ho; decide)]
      exact texts_eq e
    · rw [(finish_texts hf (o := o) (by subst ho; decide)).2.1 ho (by rw [← hn]; exact texts_eq (applyAll_other h2 hg))]
      exact texts_eq e
    · exact (finish_texts hf (o := o) (by subst ho; decide)).1 x (by rw [texts_eq e]; exact hx)

theorem blank_kind {v w : Val} (h : SameKind v w) : SameKind (blank v) w := by
  cases v <;> cases w <;> first | exact h | cases h | exact trivial

theorem freeIncexcs_kind {c : Confs} (h : WellKinded c) : WellKinded (freeIncexcs c) := by
  intro o
  unfold freeIncexcs
  split
  · exact blank_kind (h o)
  · exact h o

theorem doSends_ne (flag : Flags → Bool) (hf : flag Opt.STRIP.info.flags = true) {c : Confs} (hc : WellKinded c) :
    doSends flag c ≠ [] := by
  intro h
  unfold doSends at h
  rw [List.flatMap_eq_nil_iff] at h
  have := h .STRIP (mem_all _)
  rw [if_pos hf] at this
  have k := hc .STRIP
  rw [show Opt.STRIP.info.default = .int 0 from rfl] at k
  obtain ⟨n, hn⟩ := k.int
  rw [hn] at this
  cases this

end Verif.Confs
