import Verif.Lemmas.FindLogic
import Verif.Lemmas.FindLogicText
import Verif.Props.ConfLine

/-!
# C51: logic expressions
-/

namespace Verif
open Logic FindLogic Verif.ConfLine Verif.BackupNumber Verif.Timer

/-! ### From words to tokens -/

theorem logic_nodes_append (env : Env) (a b : List Str) (x y : List Nat) (ha : nodesOf env a = some x)
    (hb : nodesOf env b = some y) : nodesOf env (a ++ b) = some (x ++ y) := by
  induction a generalizing x with
  | nil => cases ha; exact hb
  | cons t ts ih =>
    rw [List.cons_append, nodesOf]
    rw [nodesOf] at ha
    cases ht : strToNode env t with
    | undefined => rw [ht] at ha; cases ha
    | val n =>
      cases hn : nodesOf env ts with
      | none => rw [ht, hn] at ha; cases ha
      | some ns =>
        rw [ht, hn] at ha
        cases ha
        rw [ih ns hn]
        rfl

theorem logic_node_one (env : Env) (t : Str) (n : Nat) (h : strToNode env t = .val n) :
    nodesOf env [t] = some [n] := by simp [nodesOf, h]

theorem strToNode_test (env : Env) (a : Str) (h : IsTest a) : strToNode env a = evalFunc env a := by
  have key : ∃ t, (∃ c u, c :: u = a ∧ (c = 102 ∨ c = 112)) ∧ a = t := by
    refine ⟨a, ?_, rfl⟩
    rcases h with ⟨t, h⟩ | ⟨t, h⟩ | ⟨t, h⟩ | ⟨t, h⟩ <;> rw [← h]
    · exact ⟨102, _, rfl, Or.inl rfl⟩
    · exact ⟨102, _, rfl, Or.inl rfl⟩
    · exact ⟨112, _, rfl, Or.inr rfl⟩
    · exact ⟨102, _, rfl, Or.inl rfl⟩
  obtain ⟨_, ⟨c, u, rfl, hc⟩, _⟩ := key
  have e1 : bytes "and" = [97, 110, 100] := by decide
  have e2 : bytes "or" = [111, 114] := by decide
  have e3 : bytes "(" = [40] := by decide
  have e4 : bytes ")" = [41] := by decide
  have e5 : bytes "not" = [110, 111, 116] := by decide
  unfold strToNode
  rw [e1, e2, e3, e4, e5]
  rcases hc with e | e <;> subst e <;> simp

theorem logic_nodes (env : Env) (ev : Str → Bool) (c : Chain)
    (ht : ∀ a ∈ tests c, IsTest a ∧ evalFunc env a = .val (ev a).toNat) :
    nodesOf env (words c) = some (tokVals ev c) := by
  have hnot : ∀ n, nodesOf env (notWord n) = some (notVal n) := by
    intro n; cases n
    · rfl
    · exact logic_node_one env _ _ (by unfold strToNode; rfl)
  have hl : nodesOf env [bytes "("] = some [LP] := logic_node_one env _ _ (by unfold strToNode; rfl)
  have hr : nodesOf env [bytes ")"] = some [RP] := logic_node_one env _ _ (by unfold strToNode; rfl)
  have hop : ∀ o : Op, nodesOf env [o.word] = some [opVal o] := by
    intro o; cases o <;> exact logic_node_one env _ _ (by unfold strToNode; rfl)
  have htest : ∀ a, IsTest a ∧ evalFunc env a = .val (ev a).toNat → nodesOf env [a] = some [(ev a).toNat] := by
    intro a h
    exact logic_node_one env _ _ (by rw [strToNode_test env a h.1]; exact h.2)
  induction c with
  | test n a => exact logic_nodes_append _ _ _ _ _ (hnot n) (htest a (ht a (by simp [tests])))
  | group n g ih =>
    exact logic_nodes_append _ _ _ _ _ (logic_nodes_append _ _ _ _ _ (logic_nodes_append _ _ _ _ _ (hnot n) hl)
      (ih ht)) hr
  | moreTest c op n a ih =>
    exact logic_nodes_append _ _ _ _ _ (logic_nodes_append _ _ _ _ _ (logic_nodes_append _ _ _ _ _
      (ih (fun a h => ht a (by simp [tests, h]))) (hop op)) (hnot n)) (htest a (ht a (by simp [tests])))
  | moreGroup c op n g ih1 ih2 =>
    exact logic_nodes_append _ _ _ _ _ (logic_nodes_append _ _ _ _ _ (logic_nodes_append _ _ _ _ _
      (logic_nodes_append _ _ _ _ _ (logic_nodes_append _ _ _ _ _
      (ih1 (fun a h => ht a (by simp [tests, h]))) (hop op)) (hnot n)) hl)
      (ih2 (fun a h => ht a (by simp [tests, h])))) hr

theorem logic_words (c : Chain) (ht : ∀ a ∈ tests c, Solid a) : ∀ w ∈ words c, Word w := by
  have hnot : ∀ n, ∀ w ∈ notWord n, Word w := by
    intro n w hw; cases n
    · cases hw
    · rw [notWord] at hw
      simp only [if_true, List.mem_singleton] at hw
      rw [hw]; exact Or.inl (by decide)
  have hl : Word (bytes "(") := Or.inr (Or.inl rfl)
  have hr : Word (bytes ")") := Or.inr (Or.inr rfl)
  have hop : ∀ o : Op, Word o.word := by intro o; cases o <;> exact Or.inl (by decide)
  induction c with
  | test n a =>
    intro w hw
    simp only [words, List.mem_append, List.mem_singleton] at hw
    rcases hw with h | h
    · exact hnot n w h
    · rw [h]; exact Or.inl (ht a (by simp [tests]))
  | group n g ih =>
    intro w hw
    simp only [words, List.mem_append, List.mem_singleton] at hw
    rcases hw with ((h | h) | h) | h
    · exact hnot n w h
    · rw [h]; exact hl
    · exact ih ht w h
    · rw [h]; exact hr
  | moreTest c op n a ih =>
    intro w hw
    simp only [words, List.mem_append, List.mem_singleton] at hw
    rcases hw with ((h | h) | h) | h
    · exact ih (fun a h => ht a (by simp [tests, h])) w h
    · rw [h]; exact hop op
    · exact hnot n w h
    · rw [h]; exact Or.inl (ht a (by simp [tests]))
  | moreGroup c op n g ih1 ih2 =>
    intro w hw
    simp only [words, List.mem_append, List.mem_singleton] at hw
    rcases hw with ((((h | h) | h) | h) | h) | h
    · exact ih1 (fun a h => ht a (by simp [tests, h])) w h
    · rw [h]; exact hop op
    · exact hnot n w h
    · rw [h]; exact hl
    · exact ih2 (fun a h => ht a (by simp [tests, h])) w h
    · rw [h]; exact hr

theorem solid_not_paren {a : Str} (h : Solid a) : a ≠ [40] ∧ a ≠ [41] := by
  constructor <;> (intro e; subst e; revert h; decide)

def isByte (s : Byte) (w : Str) : Bool := decide (w = [s])

theorem logic_balanced (c : Chain) (ht : ∀ a ∈ tests c, Solid a) :
    (words c).countP (isByte 40) = (words c).countP (isByte 41) := by
  have hnot : ∀ n, (notWord n).countP (isByte 40) = 0 ∧
      (notWord n).countP (isByte 41) = 0 := by intro n; cases n <;> decide
  have hl : bytes "(" = [40] := by decide
  have hr : bytes ")" = [41] := by decide
  have hop : ∀ o : Op, o.word ≠ [40] ∧ o.word ≠ [41] := by intro o; cases o <;> decide
  have htest : ∀ a, Solid a → [a].countP (isByte 40) = 0 ∧
      [a].countP (isByte 41) = 0 := by
    intro a h
    have := solid_not_paren h
    simp [isByte, this]
  induction c with
  | test n a =>
    have h1 := hnot n
    have h2 := htest a (ht a (by simp [tests]))
    rw [words, List.countP_append, List.countP_append]; omega
  | group n g ih =>
    have h1 := hnot n
    have h2 := ih ht
    simp only [words, List.countP_append, hl, hr]
    have e1 : [[40]].countP (isByte 40) = 1 := by decide
    have e2 : [[41]].countP (isByte 40) = 0 := by decide
    have e3 : [[40]].countP (isByte 41) = 0 := by decide
    have e4 : [[41]].countP (isByte 41) = 1 := by decide
    omega
  | moreTest c op n a ih =>
    have h1 := hnot n
    have h2 := htest a (ht a (by simp [tests]))
    have h3 := ih (fun a h => ht a (by simp [tests, h]))
    have h4 : [op.word].countP (isByte 40) = 0 := by simp [isByte, hop op]
    have h5 : [op.word].countP (isByte 41) = 0 := by simp [isByte, hop op]
    simp only [words, List.countP_append]; omega
  | moreGroup c op n g ih1 ih2 =>
    have h1 := hnot n
    have h2 := ih1 (fun a h => ht a (by simp [tests, h]))
    have h3 := ih2 (fun a h => ht a (by simp [tests, h]))
    have h4 : [op.word].countP (isByte 40) = 0 := by simp [isByte, hop op]
    have h5 : [op.word].countP (isByte 41) = 0 := by simp [isByte, hop op]
    simp only [words, List.countP_append, hl, hr]
    have e1 : [[40]].countP (isByte 40) = 1 := by decide
    have e2 : [[41]].countP (isByte 40) = 0 := by decide
    have e3 : [[40]].countP (isByte 41) = 0 := by decide
    have e4 : [[41]].countP (isByte 41) = 1 := by decide
    omega

theorem evalExpression_layout (env : Env) (ev : Str → Bool) (c : Chain) (l : List (Nat × Str)) (m df : Nat)
    (hl : l.map Prod.snd = words c) (hs : Spaced l)
    (ht : ∀ a ∈ tests c, Solid a ∧ IsTest a ∧ evalFunc env a = .val (ev a).toNat) (h2 : 2 ≤ (words c).length)
    (hi : InnerLong c) : evalExpression env (layout l m) df =
      if WellPlaced false c then .val (value ev c).toNat else .undefined := by
  have hsol : ∀ a ∈ tests c, Solid a := fun a h => (ht a h).1
  have hw : ∀ p ∈ l, Word p.2 := fun p hp => logic_words c hsol _ (hl ▸ List.mem_map_of_mem hp)
  have hlen : 2 ≤ l.length := by rw [← hl, List.length_map] at h2; exact h2
  have hbal := logic_balanced c hsol
  have key : ∀ s : Byte, (l.filter (fun q => q.2 = [s])).length = (words c).countP (isByte s) := by
    intro s
    rw [← hl, List.countP_eq_length_filter, List.filter_map]
    simp [Function.comp_def, isByte]
  unfold evalExpression
  rw [createTokenList_layout l m hw hs hlen, key, key, hbal]
  simp only [BEq.rfl, Bool.not_true, Bool.false_eq_true, if_false]
  rw [hl, logic_nodes env ev c (fun a h => (ht a h).2)]
  exact evalParsed_chain df ev c hi

/-! ### The property -/

/-- C51, as far as it goes: an expression has the value that its parentheses, its negations and its
operators, from left to right, give it, however it is laid out. What is asked for: blanks and parentheses in
tests are escaped or quoted; it is not a single test; groups within groups have more than one item; and an
outermost group stands at the very beginning, without a negation and with something behind it, or at the
very end, with something in front of it. -/
theorem C51_value_partial (env : Env) (ev : Str → Bool) (c : Chain) (l : List (Nat × Str)) (m df : Nat)
    (hl : l.map Prod.snd = words c) (hs : Spaced l)
    (ht : ∀ a ∈ tests c, Solid a ∧ IsTest a ∧ evalFunc env a = .val (ev a).toNat) (h2 : 2 ≤ (words c).length)
    (hi : InnerLong c) (hp : WellPlaced false c) :
    evalExpression env (layout l m) df = .val (value ev c).toNat := by
  rw [evalExpression_layout env ev c l m df hl hs ht h2 hi, if_pos hp]

/-- C51 does not hold for groups elsewhere: every expression with one in the middle, or that is nothing but a
group, makes the program use memory it has freed. -/
theorem C51_misplaced_violated (env : Env) (ev : Str → Bool) (c : Chain) (l : List (Nat × Str)) (m df : Nat)
    (hl : l.map Prod.snd = words c) (hs : Spaced l)
    (ht : ∀ a ∈ tests c, Solid a ∧ IsTest a ∧ evalFunc env a = .val (ev a).toNat) (h2 : 2 ≤ (words c).length)
    (hi : InnerLong c) (hp : ¬ WellPlaced false c) : evalExpression env (layout l m) df = .undefined := by
  rw [evalExpression_layout env ev c l m df hl hs ht h2 hi, if_neg hp]

/-- C51 does not hold for a single test: it is ignored, whatever it says. -/
theorem C51_single_violated (env : Env) (n m df : Nat) (a : Str) (h : Solid a) :
    evalExpression env (layout [(n, a)] m) df = .val df := by
  unfold evalExpression
  have := createTokenList_single n a m h
  rcases hc : createTokenList (layout [(n, a)] m) with ⟨t, v⟩
  rw [hc] at this
  simp only at this
  subst this
  rfl

/-! ### The tests -/

theorem stripQuotes_writes {v t : Str} (h : Writes v t) : t ≠ [] ∧ t.head? ≠ some 61 ∧
    ∃ s, stripQuotes t = some s ∧ s.getD t = v := by
  rcases h with ⟨rfl, c, hc, h1, h2, h3⟩ | rfl | rfl
  · cases t with
    | nil => cases hc
    | cons d ds =>
      simp only [List.head?_cons, Option.some.injEq] at hc
      subst hc
      refine ⟨by simp, by simpa using h3, none, ?_, rfl⟩
      rw [stripQuotes, if_neg]
      rintro ⟨h | h, _⟩
      · exact h1 h
      · exact h2 h
  · refine ⟨by simp, by simp, some v, ?_, rfl⟩
    rw [stripQuotes, if_pos ⟨Or.inl rfl, by rw [List.getLast?_cons]; simp⟩]
    simp
  · refine ⟨by simp, by simp, some v, ?_, rfl⟩
    rw [stripQuotes, if_pos ⟨Or.inr rfl, by rw [List.getLast?_cons]; simp⟩]
    simp

theorem dropEquals {t : Str} (h : t.head? ≠ some 61) : (61 :: t).dropWhile (· = equals) = t := by
  cases t with
  | nil => rfl
  | cons c cs =>
    have : c ≠ 61 := fun e => h (by rw [e]; rfl)
    simp [equals, this]

theorem mem_extsOf (f e : Str) : e ∈ extsOf f ↔ ∃ a, f = a ++ dot :: e := by
  induction f with
  | nil => simp [extsOf]
  | cons c cs ih =>
    rw [extsOf]
    by_cases h : c = dot
    · rw [if_pos h, List.mem_cons, ih]
      constructor
      · rintro (rfl | ⟨a, ha⟩)
        · exact ⟨[], by rw [h]; rfl⟩
        · exact ⟨c :: a, by rw [ha]; rfl⟩
      · rintro ⟨a, ha⟩
        cases a with
        | nil => left; injection ha with _ h2; exact h2.symm
        | cons b a => right; injection ha with _ h2; exact ⟨a, h2⟩
    · rw [if_neg h, ih]
      constructor
      · rintro ⟨a, ha⟩; exact ⟨c :: a, by rw [ha]; rfl⟩
      · rintro ⟨a, ha⟩
        cases a with
        | nil => injection ha with h1 _; exact absurd h1 h
        | cons b a => injection ha with _ h2; exact ⟨a, h2⟩

/-- The test on the extension: the path ends in a dot and the extension, up to case. -/
theorem C51_ext (env : Env) (v t : Str) (h : Writes v t) : ∃ b : Bool,
    evalFunc env (bytes "file_ext=" ++ t) = .val b.toNat ∧
    (b = true ↔ ∃ a e, env.fname = a ++ dot :: e ∧ e.map Auth.toLower = v.map Auth.toLower) := by
  obtain ⟨h1, h2, s, h3, h4⟩ := stripQuotes_writes h
  have hd : (bytes "file_ext=" ++ t).drop 8 = 61 :: t := rfl
  have ht : (bytes "file_ext=" ++ t).take 8 = bytes "file_ext" := rfl
  refine ⟨(extsOf env.fname).any (fun e => Find.sameCase v e), ?_, ?_⟩
  · unfold evalFunc
    rw [if_pos ht, hd]
    unfold evalFileExt
    simp only [dropEquals h2, h3, h4]
    rw [if_neg (by simpa using h1)]
    cases (extsOf env.fname).any (fun e => Find.sameCase v e) <;> rfl
  · simp only [List.any_eq_true, mem_extsOf, Find.sameCase, decide_eq_true_eq]
    constructor
    · rintro ⟨e, ⟨a, ha⟩, he⟩; exact ⟨a, e, ha, he.symm⟩
    · rintro ⟨a, e, ha, he⟩; exact ⟨e, ⟨a, ha⟩, he.symm⟩

/-- The test on the path: the expression given matches all of it. -/
theorem C51_path (env : Env) (v t : Str) (h : Writes v t) :
    evalFunc env (bytes "path_match=" ++ t) = .val (env.regex v env.fname).toNat := by
  obtain ⟨h1, h2, s, h3, h4⟩ := stripQuotes_writes h
  have hd : (bytes "path_match=" ++ t).drop 10 = 61 :: t := rfl
  have ht8 : ¬ (bytes "path_match=" ++ t).take 8 = bytes "file_ext" := by
    show ¬ bytes "path_mat" = bytes "file_ext"; decide
  have ht10 : ¬ (bytes "path_match=" ++ t).take 10 = bytes "file_match" := by
    show ¬ bytes "path_match" = bytes "file_match"; decide
  have ht : (bytes "path_match=" ++ t).take 10 = bytes "path_match" := rfl
  unfold evalFunc
  rw [if_neg ht8, if_neg ht10, if_pos ht, hd]
  unfold evalPathMatch
  simp only [dropEquals h2, h3, h4]
  rw [if_neg (by simpa using h1)]
  cases env.regex v env.fname <;> rfl

/-- The test on the name: the expression given matches what is behind the last slash. -/
theorem C51_name (env : Env) (v t d n : Str) (h : Writes v t) (hf : env.fname = d ++ slash :: n)
    (hn : slash ∉ n) : evalFunc env (bytes "file_match=" ++ t) = .val (env.regex v n).toNat := by
  obtain ⟨h1, h2, s, h3, h4⟩ := stripQuotes_writes h
  have hd : (bytes "file_match=" ++ t).drop 10 = 61 :: t := rfl
  have ht8 : ¬ (bytes "file_match=" ++ t).take 8 = bytes "file_ext" := by
    show ¬ bytes "file_mat" = bytes "file_ext"; decide
  have ht : (bytes "file_match=" ++ t).take 10 = bytes "file_match" := rfl
  have hlast : lastName env.fname = n := by
    unfold lastName
    rw [hf, List.reverse_append, List.reverse_cons, List.append_assoc,
      List.takeWhile_append_of_pos (by
        intro c hc
        have : c ≠ slash := fun e => hn (e ▸ List.mem_reverse.1 hc)
        simpa using this)]
    simp
  unfold evalFunc
  rw [if_neg ht8, if_pos ht, hd]
  unfold evalFileMatch evalPathMatch
  simp only [dropEquals h2, h3, h4, hlast]
  rw [if_neg (by simpa using h1)]
  cases env.regex v n <;> rfl

theorem sizeOp_split (op : Cmp) (t : Str) (h : ∀ c, t.head? = some c → isSizeOp c = false) :
    (op.word ++ t).takeWhile isSizeOp = op.word ∧ (op.word ++ t).dropWhile isSizeOp = t := by
  have ht : t.takeWhile isSizeOp = [] ∧ t.dropWhile isSizeOp = t := by
    cases t with
    | nil => exact ⟨rfl, rfl⟩
    | cons c cs => have := h c rfl; simp [this]
  have hop : ∀ c ∈ op.word, isSizeOp c = true := by cases op <;> decide
  constructor
  · rw [List.takeWhile_append_of_pos hop, ht.1, List.append_nil]
  · rw [List.dropWhile_append_of_pos hop, ht.2]

/-- The test on the size: it is compared with the number of bytes that the number and its suffix stand for,
if that is below 2^64. -/
theorem C51_size (env : Env) (op : Cmp) (n u : Nat) (suffix t : Str)
    (hs : ∀ c, suffix.head? = some c → isSpace c = false ∧ isDigit c = false)
    (hu : sizeUnit suffix = some u) (hn : n * u < 2 ^ 64) (h : Writes (decimal n ++ suffix) t) :
    evalFunc env (bytes "file_size" ++ op.word ++ t) = .val (decide (op.holds env.size (n * u))).toNat := by
  obtain ⟨h1, h2, s, h3, h4⟩ := stripQuotes_writes h
  have hsize : ConfLine.getFileSize (decimal n ++ suffix) = some (n * u) := by
    have := C60_size_partial [] [] suffix n u (by simp [Blank]) (by simp [Blank]) hs hu hn
    simpa using this
  have hhead : ∀ c, t.head? = some c → isSizeOp c = false := by
    intro c hc
    rcases h with ⟨rfl, _⟩ | rfl | rfl
    · obtain ⟨d, ds, hd, hdig⟩ : ∃ d ds, decimal n = d :: ds ∧ isDigit d = true := by
        have hne := (decimal_digits n).2
        cases hdn : decimal n with
        | nil => exact absurd hdn hne
        | cons d ds => exact ⟨d, ds, rfl, (decimal_digits n).1 d (by rw [hdn]; simp)⟩
      rw [hd] at hc
      simp only [List.cons_append, List.head?_cons, Option.some.injEq] at hc
      subst hc
      unfold isDigit at hdig
      simp only [Bool.and_eq_true, decide_eq_true_eq] at hdig
      have e1 : d ≠ 60 := by intro e; subst e; exact absurd hdig.2 (by decide)
      have e2 : d ≠ 62 := by intro e; subst e; exact absurd hdig.2 (by decide)
      have e3 : d ≠ 61 := by intro e; subst e; exact absurd hdig.2 (by decide)
      simp [isSizeOp, e1, e2, e3, equals]
    · cases hc; rfl
    · cases hc; rfl
  obtain ⟨k1, k2⟩ := sizeOp_split op t hhead
  have hd : (bytes "file_size" ++ op.word ++ t).drop 9 = op.word ++ t := by
    rw [List.append_assoc]; rfl
  have hw : ∃ c r, op.word = c :: r := by cases op <;> exact ⟨_, _, rfl⟩
  obtain ⟨c, r, hcr⟩ := hw
  have ht8 : ¬ (bytes "file_size" ++ op.word ++ t).take 8 = bytes "file_ext" := by
    rw [List.append_assoc]; show ¬ bytes "file_siz" = bytes "file_ext"; decide
  have ht10 : ∀ x : Str, x.length = 10 → x.take 9 ≠ bytes "file_size" →
      ¬ (bytes "file_size" ++ op.word ++ t).take 10 = x := by
    intro x hx h9 e
    apply h9
    rw [← e, List.take_take, List.append_assoc]
    rfl
  have ht : (bytes "file_size" ++ op.word ++ t).take 9 = bytes "file_size" := by
    rw [List.append_assoc]; rfl
  unfold evalFunc
  rw [if_neg ht8, if_neg (ht10 _ (by decide) (by decide)), if_neg (ht10 _ (by decide) (by decide)), if_pos ht, hd]
  unfold evalFileSize
  simp only [k1, k2, h3, h4, hsize, Option.getD_some]
  rw [if_neg (by rw [hcr]; simp)]
  cases op
  all_goals
    first
    | (show Res.val (if env.size < n * u then 1 else 0) = _; by_cases hh : env.size < n * u <;> simp [Cmp.holds, hh])
    | (show Res.val (if env.size ≤ n * u then 1 else 0) = _; by_cases hh : env.size ≤ n * u <;> simp [Cmp.holds, hh])
    | (show Res.val (if env.size > n * u then 1 else 0) = _; by_cases hh : env.size > n * u <;> simp [Cmp.holds, hh])
    | (show Res.val (if env.size ≥ n * u then 1 else 0) = _; by_cases hh : env.size ≥ n * u <;> simp [Cmp.holds, hh])
    | (show Res.val (if env.size = n * u then 1 else 0) = _; by_cases hh : env.size = n * u <;> simp [Cmp.holds, hh])

/-! ### All expressions together -/

/-- C51: a regular file is excluded if any of the expressions says so; nothing else is. -/
theorem C51_excluded (env : Env) (isReg : Bool) (exprs : List (Str × Bool))
    (h : ∀ e ∈ exprs, evalExpression env e.1 0 = .val e.2.toNat) :
    isLogicExcluded env isReg (exprs.map Prod.fst) = .val (isReg && exprs.any Prod.snd).toNat := by
  unfold isLogicExcluded isLogic
  cases exprs with
  | nil => cases isReg <;> rfl
  | cons e es =>
    rw [if_neg (by simp)]
    cases isReg with
    | false => rfl
    | true =>
      simp only [Bool.not_true, Bool.false_eq_true, if_false, Bool.true_and]
      generalize e :: es = l at h
      induction l with
      | nil => rfl
      | cons e es ih =>
        rw [List.map_cons, logicLoop, h e (by simp)]
        cases hv : e.2 with
        | true => simp [hv]
        | false =>
          simp only [Bool.toNat_false, ne_eq, not_true, if_false]
          rw [ih (fun e h' => h e (List.mem_cons_of_mem _ h')), List.any_cons, hv]
          rfl

/-! ### Examples -/

def logicEnv (name : String) (size : Nat) : Env := ⟨fun _ _ => false, bytes name, size⟩

/-- `(file_ext=pst or file_ext="a b") and not file_size>5Mb` -/
def logicExample : Chain :=
  .moreTest (.group false (.moreTest (.test false (bytes "file_ext=pst")) .or false (bytes "file_ext=\"a b\"")))
    .and true (bytes "file_size>5Mb")

def logicExampleText : List (Nat × Str) :=
  [(0, bytes "("), (0, bytes "file_ext=pst"), (1, bytes "or"), (2, bytes "file_ext=\"a b\""), (0, bytes ")"),
   (0, bytes "and"), (1, bytes "not"), (1, bytes "file_size>5Mb")]

example : logicExampleText.map Prod.snd = words logicExample ∧ Spaced logicExampleText ∧
    (∀ a ∈ tests logicExample, Solid a ∧ IsTest a) ∧ InnerLong logicExample ∧ WellPlaced false logicExample ∧
    layout logicExampleText 1 = bytes "(file_ext=pst or  file_ext=\"a b\")and not file_size>5Mb " ∧
    2 ≤ (words logicExample).length := by decide +kernel

example : evalExpression (logicEnv "/home/x.A B" 7) (layout logicExampleText 1) 0 = .val 1 ∧
    evalExpression (logicEnv "/home/x.pst" 5242881) (layout logicExampleText 1) 0 = .val 0 ∧
    evalExpression (logicEnv "/home/x.ps" 7) (layout logicExampleText 1) 0 = .val 0 := by decide +kernel

example : Writes (bytes "a b") (bytes "\"a b\"") ∧ Writes (bytes "pst") (bytes "pst") :=
  ⟨Or.inr (Or.inr (by decide)), Or.inl ⟨rfl, 112, by decide⟩⟩

/-- The expression in the manual, `burp.8`, is one of those that go wrong. -/
theorem C51_manual_violated :
    evalExpression (logicEnv "/home/x.pst" 7000000) (bytes
      "(file_size>=5Mb and file_size<=10Mb) and (file_ext=pst or file_match=movies) and not file_ext=mp3") 0 =
      .undefined := by decide +kernel

/-- C51 does not hold for a short group in a group: the wrong parenthesis is taken for its end. Here, too,
freed memory is used. -/
theorem C51_short_group_violated :
    evalExpression (logicEnv "/home/x.pst" 7) (bytes "file_ext=a or (file_ext=b or (not file_ext=pst))") 0 =
      .undefined := by decide +kernel

/-- C51 does not hold for two negations of a test: the expression is ignored. -/
theorem C51_double_not_violated :
    evalExpression (logicEnv "/home/x.pst" 7) (bytes "not not file_ext=pst") 0 = .val 0 ∧
    evalExpression (logicEnv "/home/x.txt" 7) (bytes "not not file_ext=pst") 1 = .val 1 := by decide +kernel

/-- An unknown suffix of a size is ignored in a test, where C60 asks for an error. -/
theorem C60_logic_violated :
    evalExpression (logicEnv "/home/x.pst" 7) (bytes "file_size>5Tb or file_size>5Tb") 0 = .val 1 := by
  decide +kernel

end Verif
