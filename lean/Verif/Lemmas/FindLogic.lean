import Verif.Model.FindLogic
import Verif.Spec.FindLogic

/-!
# Lemmas for the evaluation of logic expressions
-/

namespace Verif.Logic
open Verif Verif.FindLogic

/-! ### Chains without parentheses -/

def opVal : Op → Nat
  | .and => AND
  | .or => OR

def notVal (n : Bool) : List Nat := if n then [NOT] else []

theorem triplet_op (op : Op) (a b : Bool) (df : Nat) :
    evalTriplet a.toNat (opVal op) b.toNat df = (op.value a b).toNat := by
  cases op <;> cases a <;> cases b <;> simp [evalTriplet, opVal, Op.value]

/-- A chain of values: `v op v op v …`. -/
def chainVals (v : Bool) : List (Op × Bool) → List Nat
  | [] => [v.toNat]
  | (op, w) :: l => v.toNat :: opVal op :: chainVals w l

def chainFold (v : Bool) : List (Op × Bool) → Bool
  | [] => v
  | (op, w) :: l => chainFold (op.value v w) l

theorem toNat_ne_not (b : Bool) : b.toNat ≠ NOT := by cases b <;> decide
theorem opVal_ne_not (o : Op) : opVal o ≠ NOT := by cases o <;> decide

theorem chainVals_ne_nil (v : Bool) (l : List (Op × Bool)) : chainVals v l ≠ [] := by
  cases l with
  | nil => simp [chainVals]
  | cons p l => obtain ⟨o, w⟩ := p; simp [chainVals]

theorem not_mem_chainVals (v : Bool) (l : List (Op × Bool)) : NOT ∉ chainVals v l := by
  induction l generalizing v with
  | nil => simp only [chainVals, List.mem_singleton]; exact (toNat_ne_not v).symm
  | cons p l ih =>
    obtain ⟨o, w⟩ := p
    simp only [chainVals, List.mem_cons, not_or]
    exact ⟨(toNat_ne_not v).symm, (opVal_ne_not o).symm, ih w⟩

theorem chainVals_cons (v : Bool) (o : Op) (w : Bool) (l : List (Op × Bool)) :
    ∃ t, chainVals w l = w.toNat :: t ∧ chainVals v ((o, w) :: l) = v.toNat :: opVal o :: w.toNat :: t ∧
      chainVals (o.value v w) l = (o.value v w).toNat :: t := by
  cases l with
  | nil => exact ⟨[], rfl, rfl, rfl⟩
  | cons p l => obtain ⟨o', w'⟩ := p; exact ⟨_, rfl, rfl, rfl⟩

theorem boolEval_long (df : Nat) (l : List Nat) (h : 3 ≤ l.length) : boolEval df l =
    if (withoutNots l).length > 3 then
      boolEval df (tripletOf df (withoutNots l) :: (withoutNots l).drop 3)
    else lastTriplet df (withoutNots l) := by
  match l, h with
  | a :: b :: c :: l, _ => rw [boolEval] <;> simp

theorem boolEval_chain (df : Nat) (v : Bool) (l : List (Op × Bool)) :
    boolEval df (chainVals v l) = .val (chainFold v l).toNat := by
  induction l generalizing v with
  | nil => simp [chainVals, chainFold, boolEval]
  | cons p l ih =>
    obtain ⟨o, w⟩ := p
    obtain ⟨t, h1, h2, h3⟩ := chainVals_cons v o w l
    have hw : withoutNots (chainVals v ((o, w) :: l)) = chainVals v ((o, w) :: l) := by
      unfold withoutNots
      rw [if_neg]
      exact fun h => not_mem_chainVals v ((o, w) :: l) h.2
    rw [boolEval_long df _ (by rw [h2]; simp), hw, h2]
    show _ = Res.val (chainFold (o.value v w) l).toNat
    rw [← ih, h3]
    cases t with
    | nil =>
      simp only [List.length_cons, List.length_nil]
      rw [if_neg (by omega), lastTriplet, triplet_op]
      simp [boolEval]
    | cons x t =>
      rw [if_pos (by simp)]
      simp only [tripletOf, List.drop_succ_cons, List.drop_zero, triplet_op]

/-- The tokens of a chain whose groups have been evaluated, given their values. -/
def flatVals (ev : Str → Bool) : Chain → List Nat
  | .test n a => notVal n ++ [(ev a).toNat]
  | .group n g => notVal n ++ [(value ev g).toNat]
  | .moreTest c op n a => flatVals ev c ++ [opVal op] ++ notVal n ++ [(ev a).toNat]
  | .moreGroup c op n g => flatVals ev c ++ [opVal op] ++ notVal n ++ [(value ev g).toNat]

/-- The items of a chain. -/
def headVal (ev : Str → Bool) : Chain → Bool
  | .test n a => negIf n (ev a)
  | .group n g => negIf n (value ev g)
  | .moreTest c _ _ _ => headVal ev c
  | .moreGroup c _ _ _ => headVal ev c

def tailVals (ev : Str → Bool) : Chain → List (Op × Bool)
  | .test _ _ => []
  | .group _ _ => []
  | .moreTest c op n a => tailVals ev c ++ [(op, negIf n (ev a))]
  | .moreGroup c op n g => tailVals ev c ++ [(op, negIf n (value ev g))]

theorem chainFold_append (v : Bool) (l : List (Op × Bool)) (o : Op) (w : Bool) :
    chainFold v (l ++ [(o, w)]) = o.value (chainFold v l) w := by
  induction l generalizing v with
  | nil => rfl
  | cons p l ih => obtain ⟨o', w'⟩ := p; exact ih _

theorem chainVals_append (v : Bool) (l : List (Op × Bool)) (o : Op) (w : Bool) :
    chainVals v (l ++ [(o, w)]) = chainVals v l ++ [opVal o, w.toNat] := by
  induction l generalizing v with
  | nil => rfl
  | cons p l ih => obtain ⟨o', w'⟩ := p; simp [chainVals, ih]

theorem chainFold_value (ev : Str → Bool) (c : Chain) :
    chainFold (headVal ev c) (tailVals ev c) = value ev c := by
  induction c with
  | test n a => rfl
  | group n g _ => rfl
  | moreTest c op n a ih => simp only [headVal, tailVals, chainFold_append, ih, value]
  | moreGroup c op n g ih _ => simp only [headVal, tailVals, chainFold_append, ih, value]

theorem removeNots_one (b n : Bool) (v : Bool) (l : List Nat) :
    removeNots b (notVal n ++ v.toNat :: l) = (negIf (b ^^ n) v).toNat :: removeNots false l := by
  cases b <;> cases n <;> cases v <;> simp [notVal, removeNots, negIf, lnot, NOT]

theorem removeNots_op (o : Op) (l : List Nat) :
    removeNots false (opVal o :: l) = opVal o :: removeNots false l := by
  cases o <;> simp [opVal, removeNots, NOT, AND, OR]

/-- Appending to a list that ends with a value. -/
theorem removeNots_append (ev : Str → Bool) (c : Chain) (l : List Nat) :
    removeNots false (flatVals ev c ++ l) =
      chainVals (headVal ev c) (tailVals ev c) ++ removeNots false l := by
  induction c generalizing l with
  | test n a =>
    simp only [flatVals, List.append_assoc, List.singleton_append, headVal, tailVals, chainVals]
    rw [removeNots_one]; simp
  | group n g _ =>
    simp only [flatVals, List.append_assoc, List.singleton_append, headVal, tailVals, chainVals]
    rw [removeNots_one]; simp
  | moreTest c op n a ih =>
    simp only [flatVals, List.append_assoc, List.singleton_append, headVal, tailVals, chainVals_append]
    rw [ih, List.cons_append, removeNots_op, removeNots_one]; simp
  | moreGroup c op n g ih _ =>
    simp only [flatVals, List.append_assoc, List.singleton_append, headVal, tailVals, chainVals_append]
    rw [ih, List.cons_append, removeNots_op, removeNots_one]; simp

theorem flatVals_length (ev : Str → Bool) (c : Chain) : 1 ≤ (flatVals ev c).length := by
  cases c <;> simp [flatVals] <;> omega

theorem flatVals_long (ev : Str → Bool) (c : Chain) (h : Long c) : 3 ≤ (flatVals ev c).length := by
  cases c with
  | test => exact h.elim
  | group => exact h.elim
  | moreTest c op n a =>
    have := flatVals_length ev c
    simp only [flatVals, List.length_append, List.length_singleton]; omega
  | moreGroup c op n g =>
    have := flatVals_length ev c
    simp only [flatVals, List.length_append, List.length_singleton]; omega

theorem flatVals_no_nots (ev : Str → Bool) (c : Chain) (h : NOT ∉ flatVals ev c) :
    flatVals ev c = chainVals (headVal ev c) (tailVals ev c) := by
  have key : ∀ l : List Nat, NOT ∉ l → removeNots false l = l := by
    intro l
    induction l with
    | nil => intro _; rfl
    | cons v l ih =>
      intro h
      simp only [List.mem_cons, not_or] at h
      rw [removeNots, if_neg (fun e => h.1 e.symm), ih h.2]; simp
  have := removeNots_append ev c []
  simp only [List.append_nil, removeNots] at this
  rw [← this, key _ h]

/-- Without parentheses, an expression is evaluated from left to right. -/
theorem boolEval_flat (df : Nat) (ev : Str → Bool) (c : Chain) :
    boolEval df (flatVals ev c) = .val (value ev c).toNat := by
  have hrem := removeNots_append ev c []
  simp only [List.append_nil, removeNots] at hrem
  by_cases hl : Long c
  · have h3 := flatVals_long ev c hl
    have hw : withoutNots (flatVals ev c) = chainVals (headVal ev c) (tailVals ev c) := by
      unfold withoutNots
      by_cases hn : NOT ∈ flatVals ev c
      · by_cases h4 : (flatVals ev c).length > 3
        · rw [if_pos ⟨h4, hn⟩]; exact hrem
        · -- three tokens: two items, so no negation
          exfalso
          cases c with
          | test => exact hl
          | group => exact hl
          | moreTest c op n a =>
            have := flatVals_length ev c
            simp only [flatVals, List.length_append, List.length_singleton] at h4 hn
            have hn0 : n = false := by cases n with | false => rfl | true => simp only [notVal, if_true, List.length_singleton] at h4; omega
            subst hn0
            have hc : (flatVals ev c).length = 1 := by simp [notVal] at h4; omega
            simp only [notVal, Bool.false_eq_true, if_false, List.append_nil, List.mem_append, List.mem_singleton] at hn
            rcases hn with (hn | hn) | hn
            · cases c with
              | test m b => cases m with
                | false => simp [flatVals, notVal] at hn; exact toNat_ne_not _ hn.symm
                | true => simp [flatVals, notVal] at hc
              | group m b => cases m with
                | false => simp [flatVals, notVal] at hn; exact toNat_ne_not _ hn.symm
                | true => simp [flatVals, notVal] at hc
              | moreTest c o m b => have := flatVals_long ev (.moreTest c o m b) trivial; omega
              | moreGroup c o m b => have := flatVals_long ev (.moreGroup c o m b) trivial; omega
            · exact opVal_ne_not op hn.symm
            · exact toNat_ne_not _ hn.symm
          | moreGroup c op n g =>
            have := flatVals_length ev c
            simp only [flatVals, List.length_append, List.length_singleton] at h4 hn
            have hn0 : n = false := by cases n with | false => rfl | true => simp only [notVal, if_true, List.length_singleton] at h4; omega
            subst hn0
            have hc : (flatVals ev c).length = 1 := by simp [notVal] at h4; omega
            simp only [notVal, Bool.false_eq_true, if_false, List.append_nil, List.mem_append, List.mem_singleton] at hn
            rcases hn with (hn | hn) | hn
            · cases c with
              | test m b => cases m with
                | false => simp [flatVals, notVal] at hn; exact toNat_ne_not _ hn.symm
                | true => simp [flatVals, notVal] at hc
              | group m b => cases m with
                | false => simp [flatVals, notVal] at hn; exact toNat_ne_not _ hn.symm
                | true => simp [flatVals, notVal] at hc
              | moreTest c o m b => have := flatVals_long ev (.moreTest c o m b) trivial; omega
              | moreGroup c o m b => have := flatVals_long ev (.moreGroup c o m b) trivial; omega
            · exact opVal_ne_not op hn.symm
            · exact toNat_ne_not _ hn.symm
      · rw [if_neg (fun h => hn h.2)]; exact flatVals_no_nots ev c hn
    have hlen : 3 ≤ (chainVals (headVal ev c) (tailVals ev c)).length := by
      cases c with
      | test => exact hl.elim
      | group => exact hl.elim
      | moreTest c op n a =>
        have := List.length_pos_iff.2 (chainVals_ne_nil (headVal ev c) (tailVals ev c))
        simp only [headVal, tailVals, chainVals_append, List.length_append, List.length_cons, List.length_nil]
        omega
      | moreGroup c op n g =>
        have := List.length_pos_iff.2 (chainVals_ne_nil (headVal ev c) (tailVals ev c))
        simp only [headVal, tailVals, chainVals_append, List.length_append, List.length_cons, List.length_nil]
        omega
    have hw' : withoutNots (chainVals (headVal ev c) (tailVals ev c)) =
        chainVals (headVal ev c) (tailVals ev c) := by
      unfold withoutNots
      rw [if_neg]
      exact fun h => not_mem_chainVals _ _ h.2
    rw [boolEval_long df _ h3, hw, ← chainFold_value, ← boolEval_chain df, boolEval_long df _ hlen, hw']
  · cases c with
    | test n a => cases n <;> cases h : ev a <;> simp [flatVals, notVal, boolEval, value, negIf, h, lnot]
    | group n g => cases n <;> cases h : value ev g <;> simp [flatVals, notVal, boolEval, value, negIf, h, lnot]
    | moreTest => exact absurd trivial hl
    | moreGroup => exact absurd trivial hl

/-! ### Parentheses -/

theorem findPos_append (what start i : Nat) (a b : List Node) :
    findPos what start i (a ++ b) = findPos what start i a ++ findPos what start (i + a.length) b := by
  induction a generalizing i with
  | nil => simp [findPos]
  | cons n a ih =>
    have : i + (a.length + 1) = i + 1 + a.length := by omega
    simp only [List.cons_append, findPos, ih, List.length_cons, this]
    split <;> simp

theorem findPos_none (what start i : Nat) (l : List Node) (h : what ∉ l.map Prod.fst) :
    findPos what start i l = [] := by
  induction l generalizing i with
  | nil => rfl
  | cons n l ih =>
    simp only [List.map_cons, List.mem_cons, not_or] at h
    rw [findPos, if_neg (fun e => h.1 e.2.symm), ih _ h.2]

theorem findPos_early (what start i : Nat) (l : List Node) (h : i + l.length ≤ start) :
    findPos what start i l = [] := by
  induction l generalizing i with
  | nil => rfl
  | cons n l ih =>
    simp only [List.length_cons] at h
    rw [findPos, if_neg (fun e => by omega), ih _ (by omega)]

theorem parens_none (l : List Node) (h : LP ∉ l.map Prod.fst) : parens l = .no := by
  unfold parens; rw [findPos_none _ _ _ _ h]; rfl

/-- The last group of a list. -/
theorem parens_last (P F Q : List Node) (s s' : Bool) (hF : LP ∉ F.map Prod.fst)
    (hF' : RP ∉ F.map Prod.fst) (hQ : LP ∉ Q.map Prod.fst) (h : 3 ≤ F.length ∨ RP ∉ Q.map Prod.fst) :
    parens (P ++ (LP, s) :: F ++ (RP, s') :: Q) = .at P.length (P.length + 1 + F.length) := by
  have hl : (findPos LP 0 0 (P ++ (LP, s) :: F ++ (RP, s') :: Q)).getLast? = some P.length := by
    rw [List.append_assoc, findPos_append]
    simp only [List.cons_append, findPos, Nat.zero_add, Nat.zero_le, true_and, if_true]
    rw [findPos_none _ _ _ (F ++ (RP, s') :: Q)]
    · simp
    · simp only [List.map_append, List.map_cons, List.mem_append, List.mem_cons, not_or]
      exact ⟨hF, by decide, hQ⟩
  have hr : ∀ start, start ≤ P.length + 1 + F.length → P.length + 1 ≤ start →
      (findPos RP start 0 (P ++ (LP, s) :: F ++ (RP, s') :: Q)).head? = some (P.length + 1 + F.length) := by
    intro start h1 h2
    rw [show P ++ (LP, s) :: F ++ (RP, s') :: Q = (P ++ [(LP, s)]) ++ (F ++ (RP, s') :: Q) by simp,
      findPos_append, findPos_early _ _ _ (P ++ [(LP, s)]) (by simp; omega), findPos_append,
      findPos_none _ _ _ F hF', List.nil_append, List.nil_append, findPos, if_pos]
    · simp
    · simp; omega
  unfold parens
  rw [hl]
  simp only []
  by_cases h3 : 3 ≤ F.length
  · rw [hr _ (by omega) (by omega)]
  · have hQ' : RP ∉ Q.map Prod.fst := by
      rcases h with h | h
      · exact absurd h h3
      · exact h
    have : findPos RP (P.length + 4) 0 (P ++ (LP, s) :: F ++ (RP, s') :: Q) = [] := by
      rw [show P ++ (LP, s) :: F ++ (RP, s') :: Q = (P ++ (LP, s) :: F ++ [(RP, s')]) ++ Q by simp,
        findPos_append, findPos_none _ _ _ Q hQ', findPos_early]
      · rfl
      · simp; omega
    rw [this]
    simp only [List.head?_nil]
    rw [hr _ (by omega) (by omega)]

theorem evalParsed_done (df : Nat) (l : List Node) (ts : Bool) (r : Res) (h : 2 ≤ l.length)
    (hr : round df l ts = .done r) : evalParsed df l ts = r := by
  match l, h with
  | a :: b :: l, _ =>
    rw [evalParsed]
    · rw [hr]
    · simp
    · simp

theorem evalParsed_again (df : Nat) (l l' : List Node) (ts ts' : Bool) (h : 2 ≤ l.length)
    (hr : round df l ts = .again l' ts') (hlt : l'.length < l.length) :
    evalParsed df l ts = evalParsed df l' ts' := by
  match l, h with
  | a :: b :: l, _ =>
    rw [evalParsed]
    · rw [hr]; exact if_pos hlt
    · simp
    · simp

theorem evalParsed_flat (df : Nat) (F : List Node) (ts : Bool) (hne : F ≠ []) (h : LP ∉ F.map Prod.fst) :
    evalParsed df F ts = if linked F ts then boolEval df (F.map Prod.fst) else .undefined := by
  match F, hne with
  | [n], _ => simp [evalParsed, boolEval]
  | a :: b :: l, _ =>
    refine evalParsed_done df _ ts _ (by simp) ?_
    unfold round; rw [parens_none _ h]

/-- One round: the last group is replaced by its value. -/
theorem evalParsed_step (df : Nat) (P F Q : List Node) (s' ts : Bool) (v : Nat) (hF : LP ∉ F.map Prod.fst)
    (hF' : RP ∉ F.map Prod.fst) (hQ : LP ∉ Q.map Prod.fst) (h : 3 ≤ F.length ∨ RP ∉ Q.map Prod.fst)
    (hv : boolEval df (F.map Prod.fst) = .val v) :
    evalParsed df (P ++ (LP, false) :: F ++ (RP, s') :: Q) ts =
      evalParsed df (P ++ (v, false) :: fixHead (decide (0 < P.length)) Q)
        (if Q.isEmpty then decide (P.length = 0) else ts) := by
  have e1 : (P ++ (LP, false) :: F ++ (RP, s') :: Q).take P.length = P := by simp
  have e2 : (P ++ (LP, false) :: F ++ (RP, s') :: Q).drop (P.length + 1 + F.length + 1) = Q := by
    rw [show P ++ (LP, false) :: F ++ (RP, s') :: Q = (P ++ (LP, false) :: F ++ [(RP, s')]) ++ Q by simp]
    exact List.drop_left' (by simp; omega)
  have e3 : (((P ++ (LP, false) :: F ++ (RP, s') :: Q).map Prod.fst).drop (P.length + 1)).take
      (P.length + 1 + F.length - P.length - 1) = F.map Prod.fst := by
    have : (P ++ (LP, false) :: F ++ (RP, s') :: Q).map Prod.fst =
        (P ++ [(LP, false)]).map Prod.fst ++ (F.map Prod.fst ++ ((RP, s') :: Q).map Prod.fst) := by simp
    rw [this, List.drop_left' (by simp)]
    exact List.take_left' (by simp; omega)
  have e4 : (P ++ (LP, false) :: F ++ (RP, s') :: Q)[P.length]? = some (LP, false) := by simp
  have hl : ∀ b, (fixHead b Q).length = Q.length := by intro b; cases Q <;> rfl
  refine evalParsed_again df _ _ ts _ (by simp; omega) ?_ (by simp [hl]; omega)
  unfold round
  rw [parens_last P F Q false s' hF hF' hQ h]
  simp only [replaceGroup]
  rw [e4]
  simp only [Bool.false_eq_true, if_false]
  rw [e3, hv, e1, e2]

/-- The tokens of an expression. -/
def tokVals (ev : Str → Bool) : Chain → List Nat
  | .test n a => notVal n ++ [(ev a).toNat]
  | .group n g => notVal n ++ [LP] ++ tokVals ev g ++ [RP]
  | .moreTest c op n a => tokVals ev c ++ [opVal op] ++ notVal n ++ [(ev a).toNat]
  | .moreGroup c op n g => tokVals ev c ++ [opVal op] ++ notVal n ++ [LP] ++ tokVals ev g ++ [RP]

def plain (l : List Nat) : List Node := l.map (fun n => (n, false))

theorem plain_append (a b : List Nat) : plain (a ++ b) = plain a ++ plain b := by simp [plain]

theorem plain_vals (a : List Nat) : (plain a).map Prod.fst = a := by
  simp [plain, List.map_map, Function.comp_def]

theorem fixHead_vals (b : Bool) (Q : List Node) : (fixHead b Q).map Prod.fst = Q.map Prod.fst := by
  cases Q <;> rfl

theorem exists_fixHead (Q : List Node) : ∃ b, Q = fixHead b Q := by
  cases Q with
  | nil => exact ⟨false, rfl⟩
  | cons n Q => exact ⟨n.2, rfl⟩

theorem toNat_small (b : Bool) : b.toNat ≠ LP ∧ b.toNat ≠ RP := by cases b <;> decide

theorem notVal_noparens (n : Bool) : LP ∉ notVal n ∧ RP ∉ notVal n := by cases n <;> decide

theorem opVal_noparens (o : Op) : opVal o ≠ LP ∧ opVal o ≠ RP := by cases o <;> decide

theorem flatVals_noparens (ev : Str → Bool) (c : Chain) : LP ∉ flatVals ev c ∧ RP ∉ flatVals ev c := by
  have hv : ∀ b : Bool, LP ≠ b.toNat ∧ RP ≠ b.toNat := fun b =>
    ⟨(toNat_small b).1.symm, (toNat_small b).2.symm⟩
  have ho : ∀ o : Op, LP ≠ opVal o ∧ RP ≠ opVal o := fun o =>
    ⟨(opVal_noparens o).1.symm, (opVal_noparens o).2.symm⟩
  induction c with
  | test n a =>
    simp only [flatVals, List.mem_append, List.mem_singleton, not_or]
    exact ⟨⟨(notVal_noparens n).1, (hv _).1⟩, (notVal_noparens n).2, (hv _).2⟩
  | group n g _ =>
    simp only [flatVals, List.mem_append, List.mem_singleton, not_or]
    exact ⟨⟨(notVal_noparens n).1, (hv _).1⟩, (notVal_noparens n).2, (hv _).2⟩
  | moreTest c op n a ih =>
    simp only [flatVals, List.mem_append, List.mem_singleton, not_or]
    exact ⟨⟨⟨⟨ih.1, (ho op).1⟩, (notVal_noparens n).1⟩, (hv _).1⟩,
      ⟨⟨ih.2, (ho op).2⟩, (notVal_noparens n).2⟩, (hv _).2⟩
  | moreGroup c op n g ih _ =>
    simp only [flatVals, List.mem_append, List.mem_singleton, not_or]
    exact ⟨⟨⟨⟨ih.1, (ho op).1⟩, (notVal_noparens n).1⟩, (hv _).1⟩,
      ⟨⟨ih.2, (ho op).2⟩, (notVal_noparens n).2⟩, (hv _).2⟩

/-- Within parentheses, all groups are evaluated; some links may become bad. -/
theorem evalParsed_inner (df : Nat) (ev : Str → Bool) (g : Chain) (hg : AllLong g) :
    ∀ (P Q : List Node) (ts : Bool), P ≠ [] → Q ≠ [] → LP ∉ Q.map Prod.fst →
      ∃ F b, F.map Prod.fst = flatVals ev g ∧
        evalParsed df (P ++ plain (tokVals ev g) ++ Q) ts = evalParsed df (P ++ F ++ fixHead b Q) ts := by
  induction g with
  | test n a =>
    intro P Q ts _ _ _
    obtain ⟨b, hb⟩ := exists_fixHead Q
    exact ⟨plain (flatVals ev (.test n a)), b, plain_vals _, by rw [← hb]; rfl⟩
  | group n g ih =>
    intro P Q ts hP hQ hLP
    obtain ⟨F, b, h1, h2⟩ := ih hg.2 (P ++ plain (notVal n) ++ [(LP, false)]) ((RP, false) :: Q) ts (by simp)
      (by simp) (by simpa using ⟨by decide, by simpa using hLP⟩)
    have hnp := flatVals_noparens ev g
    have hlen : 3 ≤ F.length := by
      have := flatVals_long ev g hg.1
      rw [← h1] at this; simpa using this
    have hs := evalParsed_step df (P ++ plain (notVal n)) F Q b ts (value ev g).toNat (by rw [h1]; exact hnp.1)
      (by rw [h1]; exact hnp.2) hLP (Or.inl hlen) (by rw [h1]; exact boolEval_flat df ev g)
    have hQe : Q.isEmpty = false := by cases Q with | nil => exact absurd rfl hQ | cons => rfl
    refine ⟨plain (flatVals ev (.group n g)), decide (0 < (P ++ plain (notVal n)).length), plain_vals _, ?_⟩
    rw [hQe] at hs
    simp only [Bool.false_eq_true, if_false] at hs
    have e1 : P ++ plain (tokVals ev (.group n g)) ++ Q =
        P ++ plain (notVal n) ++ [(LP, false)] ++ plain (tokVals ev g) ++ (RP, false) :: Q := by
      simp [tokVals, plain]
    have e2 : P ++ plain (notVal n) ++ [(LP, false)] ++ F ++ fixHead b ((RP, false) :: Q) =
        P ++ plain (notVal n) ++ (LP, false) :: F ++ (RP, b) :: Q := by simp [fixHead]
    rw [e1, h2, e2, hs]
    simp [flatVals, plain]
  | moreTest c op n a ih =>
    intro P Q ts hP hQ hLP
    obtain ⟨F, b, h1, h2⟩ := ih hg P (plain ([opVal op] ++ notVal n ++ [(ev a).toNat]) ++ Q) ts hP
      (by simp [plain]) (by
        rw [List.map_append, plain_vals]
        simp only [List.mem_append, List.mem_singleton, not_or]
        exact ⟨⟨⟨(opVal_noparens op).1.symm, (notVal_noparens n).1⟩, (toNat_small _).1.symm⟩, hLP⟩)
    obtain ⟨b', hb'⟩ := exists_fixHead Q
    refine ⟨F ++ fixHead b (plain ([opVal op] ++ notVal n ++ [(ev a).toNat])), b', ?_, ?_⟩
    · rw [List.map_append, fixHead_vals, plain_vals, h1]; simp [flatVals]
    · rw [← hb']
      have e1 : P ++ plain (tokVals ev (.moreTest c op n a)) ++ Q =
          P ++ plain (tokVals ev c) ++ (plain ([opVal op] ++ notVal n ++ [(ev a).toNat]) ++ Q) := by
        simp [tokVals, plain]
      rw [e1, h2]
      simp [fixHead, plain]
  | moreGroup c op n g ihc ihg =>
    intro P Q ts hP hQ hLP
    obtain ⟨hc, hl, hg⟩ := hg
    obtain ⟨F, b, h1, h2⟩ := ihg hg (P ++ plain (tokVals ev c ++ [opVal op] ++ notVal n) ++ [(LP, false)])
      ((RP, false) :: Q) ts (by simp) (by simp) (by simpa using ⟨by decide, by simpa using hLP⟩)
    have hnp := flatVals_noparens ev g
    have hlen : 3 ≤ F.length := by
      have := flatVals_long ev g hl
      rw [← h1] at this; simpa using this
    have hs := evalParsed_step df (P ++ plain (tokVals ev c ++ [opVal op] ++ notVal n)) F Q b ts
      (value ev g).toNat (by rw [h1]; exact hnp.1)
      (by rw [h1]; exact hnp.2) hLP (Or.inl hlen) (by rw [h1]; exact boolEval_flat df ev g)
    have hQe : Q.isEmpty = false := by cases Q with | nil => exact absurd rfl hQ | cons => rfl
    rw [hQe] at hs
    simp only [Bool.false_eq_true, if_false] at hs
    generalize decide (0 < (P ++ plain (tokVals ev c ++ [opVal op] ++ notVal n)).length) = b' at hs
    obtain ⟨F', b'', h3, h4⟩ := ihc hc P (plain ([opVal op] ++ notVal n ++ [(value ev g).toNat]) ++ fixHead b' Q)
      ts hP (by simp [plain]) (by
        rw [List.map_append, plain_vals, fixHead_vals]
        simp only [List.mem_append, List.mem_singleton, not_or]
        exact ⟨⟨⟨(opVal_noparens op).1.symm, (notVal_noparens n).1⟩, (toNat_small _).1.symm⟩, hLP⟩)
    refine ⟨F' ++ fixHead b'' (plain ([opVal op] ++ notVal n ++ [(value ev g).toNat])), b', ?_, ?_⟩
    · rw [List.map_append, fixHead_vals, plain_vals, h3]; simp [flatVals]
    · have e1 : P ++ plain (tokVals ev (.moreGroup c op n g)) ++ Q =
          P ++ plain (tokVals ev c ++ [opVal op] ++ notVal n) ++ [(LP, false)] ++ plain (tokVals ev g) ++
            (RP, false) :: Q := by simp [tokVals, plain]
      have e2 : P ++ plain (tokVals ev c ++ [opVal op] ++ notVal n) ++ [(LP, false)] ++ F ++
          fixHead b ((RP, false) :: Q) =
          P ++ plain (tokVals ev c ++ [opVal op] ++ notVal n) ++ (LP, false) :: F ++ (RP, b) :: Q := by
        simp [fixHead]
      have e3 : P ++ plain (tokVals ev c ++ [opVal op] ++ notVal n) ++
          ((value ev g).toNat, false) :: fixHead b' Q = P ++ plain (tokVals ev c) ++
          (plain ([opVal op] ++ notVal n ++ [(value ev g).toNat]) ++ fixHead b' Q) := by simp [plain]
      rw [e1, h2, e2, hs, e3, h4]
      simp [fixHead, plain]

theorem linked_append (a b : List Node) (ts : Bool) :
    linked (a ++ b) ts = (a.all (fun n => !n.2) && linked b ts) := by
  unfold linked
  rw [List.all_append]
  cases ts <;> cases a.all (fun n => !n.2) <;> simp

theorem linked_plain (a : List Nat) (b : List Node) (ts : Bool) : linked (plain a ++ b) ts = linked b ts := by
  rw [linked_append]; simp [plain]

/-- The whole expression: all groups are evaluated; all links are in order if the groups are well placed. -/
theorem evalParsed_outer (df : Nat) (ev : Str → Bool) (c : Chain) (hc : InnerLong c) :
    ∀ (Q : List Node), LP ∉ Q.map Prod.fst → RP ∉ Q.map Prod.fst → (∀ n, Q.head? = some n → n.2 = false) →
      ∃ F ts, F.map Prod.fst = flatVals ev c ++ Q.map Prod.fst ∧
        evalParsed df (plain (tokVals ev c) ++ Q) false = evalParsed df F ts ∧
        (linked F ts = true ↔ linked Q false = true ∧ WellPlaced (!Q.isEmpty) c) := by
  induction c with
  | test n a =>
    intro Q _ _ _
    refine ⟨plain (tokVals ev (.test n a)) ++ Q, false, ?_, rfl, ?_⟩
    · rw [List.map_append, plain_vals]; rfl
    · rw [linked_plain]; simp [WellPlaced]
  | group n g _ =>
    intro Q hQ hQ' hh
    obtain ⟨F, b, h1, h2⟩ := evalParsed_inner df ev g hc (plain (notVal n) ++ [(LP, false)]) ((RP, false) :: Q)
      false (by simp) (by simp) (by simpa using ⟨by decide, by simpa using hQ⟩)
    have hnp := flatVals_noparens ev g
    have hs := evalParsed_step df (plain (notVal n)) F Q b false (value ev g).toNat (by rw [h1]; exact hnp.1)
      (by rw [h1]; exact hnp.2) hQ (Or.inr hQ') (by rw [h1]; exact boolEval_flat df ev g)
    have e1 : plain (tokVals ev (.group n g)) ++ Q =
        plain (notVal n) ++ [(LP, false)] ++ plain (tokVals ev g) ++ (RP, false) :: Q := by
      simp [tokVals, plain]
    have e2 : plain (notVal n) ++ [(LP, false)] ++ F ++ fixHead b ((RP, false) :: Q) =
        plain (notVal n) ++ (LP, false) :: F ++ (RP, b) :: Q := by simp [fixHead]
    refine ⟨plain (notVal n) ++ ((value ev g).toNat, false) :: fixHead (decide (0 < (plain (notVal n)).length)) Q,
      if Q.isEmpty then decide ((plain (notVal n)).length = 0) else false, ?_, by rw [e1, h2, e2, hs], ?_⟩
    · rw [List.map_append, plain_vals, List.map_cons, fixHead_vals]; simp [flatVals]
    · rw [linked_plain]
      cases n with
      | false =>
        cases Q with
        | nil => simp [linked, notVal, plain, WellPlaced]
        | cons q Q =>
          have := hh q rfl
          simp [linked, notVal, plain, WellPlaced, fixHead, this]
      | true =>
        cases Q with
        | nil => simp [linked, notVal, plain, WellPlaced, fixHead]
        | cons q Q => simp [linked, notVal, plain, WellPlaced, fixHead]
  | moreTest c op n a ih =>
    intro Q hQ hQ' hh
    have hnp : ∀ x, x = LP ∨ x = RP → x ∉ ([opVal op] ++ notVal n ++ [(ev a).toNat] : List Nat) := by
      intro x hx
      simp only [List.mem_append, List.mem_singleton, not_or]
      rcases hx with rfl | rfl
      · exact ⟨⟨(opVal_noparens op).1.symm, (notVal_noparens n).1⟩, (toNat_small _).1.symm⟩
      · exact ⟨⟨(opVal_noparens op).2.symm, (notVal_noparens n).2⟩, (toNat_small _).2.symm⟩
    obtain ⟨F, ts, h1, h2, h3⟩ := ih hc (plain ([opVal op] ++ notVal n ++ [(ev a).toNat]) ++ Q)
      (by rw [List.map_append, plain_vals, List.mem_append, not_or]; exact ⟨hnp _ (Or.inl rfl), hQ⟩)
      (by rw [List.map_append, plain_vals, List.mem_append, not_or]; exact ⟨hnp _ (Or.inr rfl), hQ'⟩)
      (by intro m hm; simp [plain] at hm; rw [← hm])
    refine ⟨F, ts, ?_, ?_, ?_⟩
    · rw [h1, List.map_append, plain_vals]; simp [flatVals]
    · rw [← h2]; simp [tokVals, plain]
    · rw [h3, linked_plain]
      simp [WellPlaced, plain]
  | moreGroup c op n g ihc _ =>
    intro Q hQ hQ' hh
    obtain ⟨hc, hg⟩ := hc
    obtain ⟨F, b, h1, h2⟩ := evalParsed_inner df ev g hg
      (plain (tokVals ev c ++ [opVal op] ++ notVal n) ++ [(LP, false)]) ((RP, false) :: Q)
      false (by simp) (by simp) (by simpa using ⟨by decide, by simpa using hQ⟩)
    have hnp := flatVals_noparens ev g
    have hs := evalParsed_step df (plain (tokVals ev c ++ [opVal op] ++ notVal n)) F Q b false
      (value ev g).toNat (by rw [h1]; exact hnp.1)
      (by rw [h1]; exact hnp.2) hQ (Or.inr hQ') (by rw [h1]; exact boolEval_flat df ev g)
    have hpos : 0 < (plain (tokVals ev c ++ [opVal op] ++ notVal n)).length := by
      simp [plain]; omega
    have hts : (if Q.isEmpty then decide ((plain (tokVals ev c ++ [opVal op] ++ notVal n)).length = 0)
        else false) = false := by
      rw [decide_eq_false (by omega)]; simp
    rw [hts, decide_eq_true hpos] at hs
    have e1 : plain (tokVals ev (.moreGroup c op n g)) ++ Q =
        plain (tokVals ev c ++ [opVal op] ++ notVal n) ++ [(LP, false)] ++ plain (tokVals ev g) ++
          (RP, false) :: Q := by
      simp [tokVals, plain]
    have e2 : plain (tokVals ev c ++ [opVal op] ++ notVal n) ++ [(LP, false)] ++ F ++
        fixHead b ((RP, false) :: Q) =
        plain (tokVals ev c ++ [opVal op] ++ notVal n) ++ (LP, false) :: F ++ (RP, b) :: Q := by simp [fixHead]
    have e3 : plain (tokVals ev c ++ [opVal op] ++ notVal n) ++ ((value ev g).toNat, false) :: fixHead true Q =
        plain (tokVals ev c) ++ (plain ([opVal op] ++ notVal n ++ [(value ev g).toNat]) ++ fixHead true Q) := by
      simp [plain]
    have hnp : ∀ x, x = LP ∨ x = RP → x ∉ ([opVal op] ++ notVal n ++ [(value ev g).toNat] : List Nat) := by
      intro x hx
      simp only [List.mem_append, List.mem_singleton, not_or]
      rcases hx with rfl | rfl
      · exact ⟨⟨(opVal_noparens op).1.symm, (notVal_noparens n).1⟩, (toNat_small _).1.symm⟩
      · exact ⟨⟨(opVal_noparens op).2.symm, (notVal_noparens n).2⟩, (toNat_small _).2.symm⟩
    obtain ⟨F', ts, h3, h4, h5⟩ := ihc hc
      (plain ([opVal op] ++ notVal n ++ [(value ev g).toNat]) ++ fixHead true Q)
      (by rw [List.map_append, plain_vals, fixHead_vals, List.mem_append, not_or]; exact ⟨hnp _ (Or.inl rfl), hQ⟩)
      (by rw [List.map_append, plain_vals, fixHead_vals, List.mem_append, not_or]; exact ⟨hnp _ (Or.inr rfl), hQ'⟩)
      (by intro m hm; simp [plain] at hm; rw [← hm])
    refine ⟨F', ts, ?_, ?_, ?_⟩
    · rw [h3, List.map_append, plain_vals, fixHead_vals]; simp [flatVals]
    · rw [e1, h2, e2, hs, e3, h4]
    · rw [h5, linked_plain]
      cases Q with
      | nil => simp [WellPlaced, plain, fixHead]
      | cons q Q => simp [WellPlaced, plain, fixHead, linked]

theorem tokVals_ne_nil (ev : Str → Bool) (c : Chain) : flatVals ev c ≠ [] :=
  List.length_pos_iff.1 (flatVals_length ev c)

/-- The value of an expression, from its tokens. -/
theorem evalParsed_chain (df : Nat) (ev : Str → Bool) (c : Chain) (hc : InnerLong c) :
    evalParsed df (plain (tokVals ev c)) false =
      if WellPlaced false c then .val (value ev c).toNat else .undefined := by
  obtain ⟨F, ts, h1, h2, h3⟩ := evalParsed_outer df ev c hc [] (by simp) (by simp) (by simp)
  simp only [List.append_nil, List.map_nil] at h1 h2
  have hne : F ≠ [] := by
    intro e; rw [e] at h1; exact tokVals_ne_nil ev c h1.symm
  rw [h2, evalParsed_flat df F ts hne (by rw [h1]; exact (flatVals_noparens ev c).1), h1, boolEval_flat]
  by_cases hw : WellPlaced false c
  · rw [if_pos hw, if_pos (h3.2 ⟨by simp [linked], hw⟩)]
  · rw [if_neg hw, if_neg (fun h => hw (h3.1 h).2)]

end Verif.Logic
