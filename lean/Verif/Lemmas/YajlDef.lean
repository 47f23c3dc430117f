import Verif.Lemmas.YajlInput

/-!
# Reading any text: nothing is undefined, and the calls make sense
-/

namespace Verif.Yajl
open Verif.JsonInput

/-! ### Strings -/

/-- What the lexer lets through, between the quotes of a string. -/
inductive Esc : Str → Prop where
  | nil : Esc []
  | plain {c : Byte} {t : Str} : c ≠ backslash → Esc t → Esc (c :: t)
  | two {c : Byte} {t : Str} : isEscape c = true → Esc t → Esc (backslash :: c :: t)
  | hex {a b c d : Byte} {t : Str} : isHex a = true → isHex b = true → isHex c = true → isHex d = true → Esc t →
      Esc (backslash :: 117 :: a :: b :: c :: d :: t)

theorem hexDigit_some {c : Byte} (h : isHex c = true) : ∃ n, hexDigit c = some n := by
  have : ∀ n : Fin 256, isHex (UInt8.ofNat n.val) = true → (hexDigit (UInt8.ofNat n.val)).isSome = true := by
    decide +kernel
  have h1 := this ⟨c.toNat, c.toNat_lt⟩
  rw [show UInt8.ofNat c.toNat = c by simp] at h1
  exact Option.isSome_iff_exists.mp (h1 h)

theorem hexVal_some {a b c d : Byte} (ha : isHex a = true) (hb : isHex b = true) (hc : isHex c = true)
    (hd : isHex d = true) : ∃ n, hexVal a b c d = some n := by
  obtain ⟨a', ha⟩ := hexDigit_some ha
  obtain ⟨b', hb⟩ := hexDigit_some hb
  obtain ⟨c', hc⟩ := hexDigit_some hc
  obtain ⟨d', hd⟩ := hexDigit_some hd
  exact ⟨_, by rw [hexVal, ha, hb, hc, hd]; rfl⟩

theorem unescape_some {c : Byte} (h : isEscape c = true) : c ≠ 117 ∧ ∃ x, unescape c = some x := by
  have : ∀ n : Fin 256, isEscape (UInt8.ofNat n.val) = true →
      UInt8.ofNat n.val ≠ 117 ∧ (unescape (UInt8.ofNat n.val)).isSome = true := by
    decide +kernel
  have h1 := this ⟨c.toNat, c.toNat_lt⟩
  rw [show UInt8.ofNat c.toNat = c by simp] at h1
  obtain ⟨h2, h3⟩ := h1 h
  exact ⟨h2, Option.isSome_iff_exists.mp h3⟩

theorem decode_some (n : Nat) : ∀ {t : Str}, t.length ≤ n → Esc t → ∃ x, decode t = some x := by
  induction n with
  | zero =>
    intro t hn _
    rw [List.length_eq_zero_iff.mp (Nat.le_zero.mp hn)]
    exact ⟨[], by simp [decode]⟩
  | succ n ih =>
    intro t hn h
    cases h with
    | nil => exact ⟨[], by simp [decode]⟩
    | plain hc ht =>
      obtain ⟨x, hx⟩ := ih (by simp only [List.length_cons] at hn; omega) ht
      rw [decode_plain _ hc, hx]
      exact ⟨_, rfl⟩
    | @two c t hc ht =>
      obtain ⟨x, hx⟩ := ih (by simp only [List.length_cons] at hn; omega) ht
      obtain ⟨h1, y, h2⟩ := unescape_some hc
      rw [decode_escape (x := [y]) (r := t) (by rw [unescapeText, if_neg h1, h2]; rfl), hx]
      exact ⟨_, rfl⟩
    | @hex a b c d t ha hb hc hd ht =>
      obtain ⟨v, hv⟩ := hexVal_some ha hb hc hd
      have hn' : t.length ≤ n := by simp only [List.length_cons] at hn; omega
      have h1 : ∃ x r, unescapeText (117 :: a :: b :: c :: d :: t) = some (x, r) ∧ Esc r ∧ r.length ≤ n := by
        rw [unescapeText, if_pos rfl, unescapeHex, hv]
        simp only
        by_cases hs : v / 1024 % 64 = 54
        · rw [if_pos hs]
          by_cases hu : t.take 2 = [backslash, 117]
          · rw [if_pos hu]
            cases ht with
            | nil => simp at hu
            | plain hc' _ =>
              simp only [List.take_succ_cons, List.cons.injEq] at hu
              exact absurd hu.1 hc'
            | two hc' _ =>
              simp only [List.take_succ_cons, List.cons.injEq] at hu
              exact absurd hu.2.1 (unescape_some hc').1
            | hex ha' hb' hc' hd' ht' =>
              obtain ⟨m, hm⟩ := hexVal_some ha' hb' hc' hd'
              simp only [List.drop_succ_cons, List.drop_zero, hm]
              exact ⟨_, _, rfl, ht', by simp only [List.length_cons] at hn'; omega⟩
          · rw [if_neg hu]
            exact ⟨_, _, rfl, ht, hn'⟩
        · rw [if_neg hs]
          exact ⟨_, _, rfl, ht, hn'⟩
      obtain ⟨x, r, h2, h3, h4⟩ := h1
      obtain ⟨y, hy⟩ := ih h4 h3
      rw [decode_escape h2, hy]
      exact ⟨_, rfl⟩

theorem strStep_hex (n : Nat) (c : Byte) : strStep (.hex n) c = if isHex c then (match n with
    | 0 => .go .plain
    | n + 1 => .go (.hex n)) else .bad := by
  cases n <;> rfl

/-- What is left of a string in a state. -/
def EscFrom : StrSt → Str → Prop
  | .plain, x => Esc x
  | .escape, x => Esc (backslash :: x)
  | .hex n, x => ∃ ds t, x = ds ++ t ∧ ds.length = n + 1 ∧ (∀ d ∈ ds, isHex d = true) ∧ Esc t

theorem lexString_esc : ∀ (t : Str) (st : StrSt) (e : Bool) {k w r}, lexString st e t = .done k w r →
    (∃ e', k = .string e') ∧ ∃ x, w = x ++ [quote] ∧ EscFrom st x
  | [], _, _, _, _, _, h => by cases h
  | c :: t, st, e, k, w, r, h => by
    rw [lexString] at h
    cases hs : strStep st c with
    | bad => rw [hs] at h; cases h
    | close =>
      rw [hs] at h
      cases h
      refine ⟨⟨_, rfl⟩, [], ?_, ?_⟩
      · cases st with
        | plain =>
          rw [strStep] at hs
          split at hs
          · next hc => rw [hc]; rfl
          · split at hs
            · cases hs
            · split at hs <;> cases hs
        | escape =>
          rw [strStep] at hs
          split at hs
          · cases hs
          · split at hs <;> cases hs
        | hex n =>
          rw [strStep_hex] at hs
          split at hs
          · cases n <;> cases hs
          · cases hs
      · cases st with
        | plain => exact .nil
        | escape =>
          rw [strStep] at hs
          split at hs
          · cases hs
          · split at hs <;> cases hs
        | hex n =>
          rw [strStep_hex] at hs
          split at hs
          · cases n <;> cases hs
          · cases hs
    | go st' =>
      rw [hs] at h
      obtain ⟨w', hw, h'⟩ := cons_done h
      obtain ⟨hk, x, hx, hxe⟩ := lexString_esc t _ _ h'
      refine ⟨hk, c :: x, by rw [hw, hx]; rfl, ?_⟩
      cases st with
      | plain =>
        rw [strStep] at hs
        by_cases h1 : c = quote
        · rw [if_pos h1] at hs
          cases hs
        · rw [if_neg h1] at hs
          by_cases h2 : c = backslash
          · rw [if_pos h2] at hs
            cases hs
            rw [h2]
            exact hxe
          · rw [if_neg h2] at hs
            split at hs
            · cases hs
            · cases hs
              exact .plain h2 hxe
      | escape =>
        rw [strStep] at hs
        by_cases h1 : c = 117
        · rw [if_pos h1] at hs
          cases hs
          obtain ⟨ds, t', h2, h3, h4, h5⟩ := hxe
          rw [h1, h2]
          match ds, h3, h4 with
          | [d1, d2, d3, d4], _, h4 =>
            exact .hex (h4 d1 (by simp)) (h4 d2 (by simp)) (h4 d3 (by simp)) (h4 d4 (by simp)) h5
        · rw [if_neg h1] at hs
          split at hs
          · next h2 =>
            cases hs
            exact .two h2 hxe
          · cases hs
      | hex n =>
        rw [strStep_hex] at hs
        split at hs
        · next h1 =>
          cases n with
          | zero =>
            cases hs
            exact ⟨[c], x, rfl, rfl, by simpa using h1, hxe⟩
          | succ n =>
            cases hs
            obtain ⟨ds, t', h2, h3, h4, h5⟩ := hxe
            exact ⟨c :: ds, t', by rw [h2]; rfl, by simp [h3], by simpa using ⟨h1, h4⟩, h5⟩
        · cases hs

/-! ### Numbers -/

theorem parseDigits_bound : ∀ (ds : Str) (ret : Int) (k : Nat), ret < 10 ^ k → 0 ≤ ret → k + ds.length ≤ 18 →
    parseDigits ret ds ≠ .overflow
  | [], _, _, _, _, _ => by rw [parseDigits]; exact fun h => by cases h
  | c :: t, ret, k, hr, h0, hk => by
    simp only [List.length_cons] at hk
    have hp : (10 : Int) ^ (k + 1) ≤ 10 ^ 18 := by
      have : 10 ^ (k + 1) ≤ 10 ^ 18 := Nat.pow_le_pow_right (by decide) (by omega)
      exact_mod_cast this
    have hm : ret * 10 < 10 ^ (k + 1) := by
      rw [Int.pow_succ]
      omega
    rw [parseDigits]
    split
    · exact fun h => by cases h
    · rw [if_neg (by rw [llongMax]; omega)]
      split
      · exact fun h => by cases h
      · split
        · exact fun h => by cases h
        · next hc =>
          refine parseDigits_bound t _ (k + 1) ?_ ?_ (by omega)
          · have h1 := Int.pow_succ (10 : Int) k
            omega
          · omega

theorem parseDigits_val : ∀ (ds : Str) (ret : Int) {v}, 0 ≤ ret → ret ≤ llongMax → parseDigits ret ds = .val v →
    0 ≤ v ∧ v ≤ llongMax
  | [], ret, v, h0, h1, h => by
    rw [parseDigits] at h
    cases h
    exact ⟨h0, h1⟩
  | c :: t, ret, v, h0, h1, h => by
    rw [parseDigits] at h
    split at h
    · cases h
    · split at h
      · cases h
      · split at h
        · cases h
        · split at h
          · cases h
          · exact parseDigits_val t _ (by omega) (by omega) h

theorem parseInteger_val {w : Str} {v : Int} (h : parseInteger w = .val v) :
    -9223372036854775807 ≤ v ∧ v ≤ 9223372036854775807 := by
  unfold parseInteger at h
  simp only at h
  generalize (if (if w.head? = some 45 then w.tail else w).head? = some 43
    then (if w.head? = some 45 then w.tail else w).tail else if w.head? = some 45 then w.tail else w) = u at h
  cases hd : parseDigits 0 u with
  | erange => rw [hd] at h; cases h
  | overflow => rw [hd] at h; cases h
  | val x =>
    rw [hd] at h
    have := parseDigits_val u 0 (by decide) (by decide) hd
    rw [llongMax] at this
    simp only [IntRes.val.injEq] at h
    split at h <;> omega

theorem lexNumber_int : ∀ (t : Str) (st : NumSt) {w r}, lexNumber st t = .done .integer w r → st ≠ .start →
    (st = .minus ∨ st = .zero ∨ st = .digits) ∧ ∀ c ∈ w, isNum c = true := by
  intro t
  induction t with
  | nil => intro st w r h; cases h
  | cons c t ih =>
    intro st w r h hst
    rw [lexNumber] at h
    cases hs : numStep st c with
    | bad => rw [hs] at h; cases h
    | stop k =>
      rw [hs] at h
      cases h
      refine ⟨?_, by simp⟩
      cases st <;> simp only [numStep, afterInt] at hs <;> (repeat' split at hs) <;> cases hs <;> decide
    | go st' =>
      rw [hs] at h
      obtain ⟨w', hw, h'⟩ := cons_done h
      subst hw
      have hz : c = 48 → isNum c = true := fun e => by rw [e]; decide
      have hns : st' ≠ .start := by
        cases st <;> simp only [numStep, afterInt] at hs <;> (repeat' split at hs) <;> cases hs <;> decide
      obtain ⟨h2, h3⟩ := ih st' h' hns
      have key : (st = .minus ∨ st = .zero ∨ st = .digits) ∧ isNum c = true := by
        cases st <;> simp only [numStep, afterInt] at hs <;> (repeat' split at hs) <;> cases hs <;>
          first
          | (exfalso; revert h2; decide)
          | exact absurd rfl hst
          | exact ⟨by decide, by first | assumption | (apply hz; assumption)⟩
      refine ⟨key.1, ?_⟩
      intro d hd
      rcases List.mem_cons.mp hd with e | e
      · rw [e]
        exact key.2
      · exact h3 d e

/-! ### Tokens -/

theorem lexString_split : ∀ (t : Str) (st : StrSt) (e : Bool) {k w r}, lexString st e t = .done k w r → t = w ++ r
  | [], _, _, _, _, _, h => by cases h
  | c :: t, st, e, k, w, r, h => by
    rw [lexString] at h
    split at h
    · cases h
      rfl
    · obtain ⟨w', hw, h'⟩ := cons_done h
      rw [hw, lexString_split t _ _ h']
      rfl
    · cases h

theorem lexNumber_split : ∀ (t : Str) (st : NumSt) {k w r}, lexNumber st t = .done k w r →
    t = w ++ r ∧ (k = .integer ∨ k = .double)
  | [], _, _, _, _, h => by cases h
  | c :: t, st, k, w, r, h => by
    rw [lexNumber] at h
    cases hs : numStep st c with
    | bad => rw [hs] at h; cases h
    | stop k' =>
      rw [hs] at h
      cases h
      refine ⟨rfl, ?_⟩
      cases st <;> simp only [numStep, afterInt] at hs <;> (repeat' split at hs) <;> cases hs <;> decide
    | go st' =>
      rw [hs] at h
      obtain ⟨w', hw, h'⟩ := cons_done h
      obtain ⟨h1, h2⟩ := lexNumber_split t _ h'
      rw [hw, h1]
      exact ⟨rfl, h2⟩

theorem lexWord_kind {k0 : LTok} : ∀ (ws t : Str) {k w r}, lexWord k0 ws t = .done k w r → t = w ++ r ∧ k = k0
  | [], t, _, _, _, h => by
    cases h
    exact ⟨rfl, rfl⟩
  | _ :: _, [], _, _, _, h => by cases h
  | x :: ws, c :: t, k, w, r, h => by
    rw [lexWord] at h
    split at h
    · obtain ⟨w', hw, h'⟩ := cons_done h
      obtain ⟨h1, h2⟩ := lexWord_kind ws t h'
      rw [hw, h1]
      exact ⟨rfl, h2⟩
    · cases h

/-- What is known about a token: the string in it can be made, and if it is a whole number it has a sign and
digits. -/
structure TokOk (k : LTok) (w : Str) : Prop where
  str : ∀ e, k = .string e → ∃ x, stringOf e w = some x
  int : k = .integer → ∃ ds, (w = ds ∨ w = 45 :: ds) ∧ ∀ c ∈ ds, isNum c = true

theorem kindOf_sign {c : Byte} {k : LTok} (h : kindOf c = .sign k) :
    k ≠ .integer ∧ ∀ e, k ≠ .string e := by
  have : ∀ n : Fin 256, (match kindOf (UInt8.ofNat n.val) with
      | .sign .integer => false
      | .sign (.string _) => false
      | _ => true) = true := by decide +kernel
  have h1 := this ⟨c.toNat, c.toNat_lt⟩
  rw [show UInt8.ofNat c.toNat = c by simp, h] at h1
  constructor
  · intro e
    rw [e] at h1
    cases h1
  · intro e he
    rw [he] at h1
    cases h1

theorem kindOf_word {c : Byte} {k : LTok} {ws : Str} (h : kindOf c = .word k ws) :
    k ≠ .integer ∧ ∀ e, k ≠ .string e := by
  have : ∀ n : Fin 256, (match kindOf (UInt8.ofNat n.val) with
      | .word .bool _ => true
      | .word .null _ => true
      | .word _ _ => false
      | _ => true) = true := by decide +kernel
  have h1 := this ⟨c.toNat, c.toNat_lt⟩
  rw [show UInt8.ofNat c.toNat = c by simp, h] at h1
  constructor
  · intro e
    rw [e] at h1
    cases h1
  · intro e he
    rw [he] at h1
    cases h1

theorem kindOf_num {c : Byte} {st : NumSt} (h : kindOf c = .num st) :
    st ≠ .start ∧ (c = 45 ∨ isNum c = true) := by
  have : ∀ n : Fin 256, (match kindOf (UInt8.ofNat n.val) with
      | .num st => decide (st ≠ .start ∧ (UInt8.ofNat n.val = 45 ∨ isNum (UInt8.ofNat n.val) = true))
      | _ => true) = true := by decide +kernel
  have h1 := this ⟨c.toNat, c.toNat_lt⟩
  rw [show UInt8.ofNat c.toNat = c by simp, h] at h1
  exact of_decide_eq_true h1

/-- A token is a piece of the text, and what is known about it. -/
theorem lexTok_ok : ∀ (t : Str) {k w r}, lexTok t = .tok k w r → (∃ a, t = a ++ w ++ r) ∧ TokOk k w
  | [], _, _, _, h => by cases h
  | c :: t, k, w, r, h => by
    rw [lexTok] at h
    by_cases hw : isWs c = true
    · rw [if_pos hw] at h
      obtain ⟨⟨a, h1⟩, h2⟩ := lexTok_ok t h
      exact ⟨⟨c :: a, by rw [h1]; rfl⟩, h2⟩
    · rw [if_neg hw] at h
      cases hsc : scanFrom (kindOf c) t with
      | eof => rw [hsc] at h; cases h
      | error => rw [hsc] at h; cases h
      | done k' w' r' =>
        rw [hsc] at h
        cases h
        cases hk : kindOf c with
        | sign k0 =>
          rw [hk] at hsc
          cases hsc
          obtain ⟨h1, h2⟩ := kindOf_sign hk
          exact ⟨⟨[], rfl⟩, fun e he => absurd he (h2 e), fun he => absurd he h1⟩
        | word k0 ws =>
          rw [hk] at hsc
          obtain ⟨h3, h4⟩ := lexWord_kind ws t hsc
          obtain ⟨h1, h2⟩ := kindOf_word hk
          subst h4
          exact ⟨⟨[], by rw [h3]; rfl⟩, fun e he => absurd he (h2 e), fun he => absurd he h1⟩
        | str =>
          rw [hk] at hsc
          have h3 := lexString_split t _ _ hsc
          obtain ⟨⟨e', h4⟩, x, h5, h6⟩ := lexString_esc t _ _ hsc
          refine ⟨⟨[], by rw [h3]; rfl⟩, ?_, fun he => by rw [h4] at he; cases he⟩
          intro e _
          have h7 : body (c :: w') = x := by
            rw [h5]
            simp [body]
          unfold stringOf
          rw [h7]
          cases e with
          | true => exact decode_some x.length (Nat.le_refl _) h6
          | false => exact ⟨x, rfl⟩
        | num st =>
          rw [hk] at hsc
          obtain ⟨h3, h4⟩ := lexNumber_split t _ hsc
          obtain ⟨h5, h6⟩ := kindOf_num hk
          refine ⟨⟨[], by rw [h3]; rfl⟩, ?_, ?_⟩
          · intro e he
            rcases h4 with h4 | h4 <;> rw [h4] at he <;> cases he
          · intro he
            subst he
            obtain ⟨_, h7⟩ := lexNumber_int t st hsc h5
            rcases h6 with h6 | h6
            · exact ⟨w', .inr (by rw [h6]), h7⟩
            · refine ⟨c :: w', .inl rfl, ?_⟩
              intro d hd
              rcases List.mem_cons.mp hd with e | e
              · rw [e]
                exact h6
              · exact h7 d e
        | wrong =>
          rw [hk] at hsc
          cases hsc

theorem parseInteger_bound {w ds : Str} (hw : w = ds ∨ w = 45 :: ds) (hd : ∀ c ∈ ds, isNum c = true)
    (hl : ds.length ≤ 18) : parseInteger w ≠ .overflow := by
  have hne : ∀ x : Byte, isNum x = false → ds.head? ≠ some x := by
    intro x hx h
    cases ds with
    | nil => cases h
    | cons y ds =>
      injection h with h
      subst h
      rw [hd y (by simp)] at hx
      cases hx
  have key : parseDigits 0 ds ≠ .overflow := parseDigits_bound ds 0 0 (by decide) (by decide) (by omega)
  unfold parseInteger
  simp only
  rcases hw with hw | hw
  · subst hw
    rw [if_neg (hne 45 (by decide)), if_neg (hne 43 (by decide))]
    cases hp : parseDigits 0 w with
    | val v => exact fun h => by cases h
    | erange => exact fun h => by cases h
    | overflow => exact absurd hp key
  · subst hw
    simp only [List.head?_cons, List.tail_cons, if_true]
    rw [if_neg (hne 43 (by decide))]
    cases hp : parseDigits 0 ds with
    | val v => exact fun h => by cases h
    | erange => exact fun h => by cases h
    | overflow => exact absurd hp key

theorem digitRun_take {n : Nat} {a d b : Str} (hd : ∀ c ∈ d, isNum c = true) (hl : n ≤ d.length) :
    digitRun n (a ++ d ++ b) := by
  refine ⟨a, d.take n, d.drop n ++ b, ?_, by simp [hl], fun c hc => hd c (List.mem_of_mem_take hc)⟩
  rw [List.append_assoc, List.append_assoc, ← List.append_assoc (d.take n), List.take_append_drop]

theorem digitRun_tail {n : Nat} {a b : Str} (h : digitRun n b) : digitRun n (a ++ b) := by
  obtain ⟨x, d, y, h1, h2, h3⟩ := h
  exact ⟨a ++ x, d, y, by rw [h1]; simp, h2, h3⟩

/-! ### Calls -/

/-- One more value. -/
def Js.snoc : Js → J → Js
  | .nil, v => .cons v .nil
  | .cons x vs, v => .cons x (vs.snoc v)

/-- One more member. -/
def Ms.snoc : Ms → Str → J → Ms
  | .nil, k, v => .cons k v .nil
  | .cons k' x ms, k, v => .cons k' x (ms.snoc k v)

theorem Js.snoc_toks : ∀ (vs : Js) (v : J), (vs.snoc v).toks = vs.toks ++ v.toks
  | .nil, v => by simp [Js.snoc, Js.toks]
  | .cons x vs, v => by simp [Js.snoc, Js.toks, Js.snoc_toks vs v]

theorem Ms.snoc_toks : ∀ (ms : Ms) (k : Str) (v : J), (ms.snoc k v).toks = ms.toks ++ .key k :: v.toks
  | .nil, k, v => by simp [Ms.snoc, Ms.toks]
  | .cons k' x ms, k, v => by simp [Ms.snoc, Ms.toks, Ms.snoc_toks ms k v]

/-- A value may follow. -/
def NeedsVal (s : PSt) : Prop := s = .start ∨ s = .mapNeedVal ∨ s = .arrStart ∨ s = .arrNeedVal

/-- The calls that have been made, in a state of the parser. -/
inductive Part : PSt → List PSt → List Tok → Prop where
  | start : Part .start [] []
  | complete (v : J) : Part .complete [] v.toks
  | arr {cur pre outer calls} (vs : Js) : NeedsVal pre → Part pre outer calls →
      (cur = .arrStart ∧ vs = .nil ∨ cur = .arrGotVal ∨ cur = .arrNeedVal) →
      Part cur (gotValue pre :: outer) (calls ++ .startArr :: vs.toks)
  | obj {cur pre outer calls} (ms : Ms) : NeedsVal pre → Part pre outer calls →
      (cur = .mapStart ∧ ms = .nil ∨ cur = .mapGotVal ∨ cur = .mapNeedKey) →
      Part cur (gotValue pre :: outer) (calls ++ .startMap :: ms.toks)
  | key {cur pre outer calls} (ms : Ms) (k : Str) : NeedsVal pre → Part pre outer calls →
      (cur = .mapSep ∨ cur = .mapNeedVal) →
      Part cur (gotValue pre :: outer) (calls ++ .startMap :: (ms.toks ++ [.key k]))

/-- A value comes. -/
theorem Part.val {cur outer calls} (h : Part cur outer calls) (hn : NeedsVal cur) (v : J) :
    Part (gotValue cur) outer (calls ++ v.toks) := by
  unfold NeedsVal at hn
  cases h with
  | start => exact .complete v
  | complete w => simp at hn
  | @arr _ pre outer calls vs h1 h2 h3 =>
    have h4 : gotValue cur = .arrGotVal := by
      rcases h3 with ⟨h3, _⟩ | h3 | h3 <;> rw [h3] <;> first | rfl | (rw [h3] at hn; simp at hn)
    have := Part.arr (cur := .arrGotVal) (vs.snoc v) h1 h2 (.inr (.inl rfl))
    rw [Js.snoc_toks] at this
    rw [h4]
    simpa using this
  | obj ms h1 h2 h3 =>
    rcases h3 with ⟨h3, _⟩ | h3 | h3 <;> rw [h3] at hn <;> simp at hn
  | @key _ pre outer calls ms k h1 h2 h3 =>
    have h4 : gotValue cur = .mapGotVal := by
      rcases h3 with h3 | h3 <;> rw [h3] <;> first | rfl | (rw [h3] at hn; simp at hn)
    have := Part.obj (cur := .mapGotVal) (ms.snoc k v) h1 h2 (.inr (.inl rfl))
    rw [Ms.snoc_toks] at this
    rw [h4]
    simpa using this

/-- The calls are the first ones of those for some value. -/
theorem Part.prefix {cur outer calls} (h : Part cur outer calls) :
    (NeedsVal cur → ∀ v : J, ∃ w : J, calls ++ v.toks <+: w.toks) ∧ ∃ w : J, calls <+: w.toks := by
  induction h with
  | start => exact ⟨fun _ v => ⟨v, List.prefix_rfl⟩, .other, List.nil_prefix⟩
  | complete v => exact ⟨fun h => by simp [NeedsVal] at h, v, List.prefix_rfl⟩
  | @arr cur pre outer calls vs h1 _ h3 ih =>
    have key : ∀ vs : Js, ∃ w : J, calls ++ .startArr :: vs.toks <+: w.toks := by
      intro vs
      obtain ⟨w, hw⟩ := ih.1 h1 (.arr vs)
      refine ⟨w, List.IsPrefix.trans ?_ hw⟩
      rw [J.toks]
      exact (List.prefix_append_right_inj _).mpr (List.cons_prefix_cons.mpr ⟨rfl, List.prefix_append _ _⟩)
    refine ⟨fun _ v => ?_, key vs⟩
    obtain ⟨w, hw⟩ := key (vs.snoc v)
    rw [Js.snoc_toks] at hw
    exact ⟨w, by simpa using hw⟩
  | @obj cur pre outer calls ms h1 _ h3 ih =>
    refine ⟨fun hn => ?_, ?_⟩
    · unfold NeedsVal at hn
      rcases h3 with ⟨h3, _⟩ | h3 | h3 <;> rw [h3] at hn <;> simp at hn
    · obtain ⟨w, hw⟩ := ih.1 h1 (.obj ms)
      refine ⟨w, List.IsPrefix.trans ?_ hw⟩
      rw [J.toks]
      exact (List.prefix_append_right_inj _).mpr (List.cons_prefix_cons.mpr ⟨rfl, List.prefix_append _ _⟩)
  | @key cur pre outer calls ms k h1 _ h3 ih =>
    have key : ∀ v : J, ∃ w : J, calls ++ .startMap :: (ms.toks ++ .key k :: v.toks) <+: w.toks := by
      intro v
      obtain ⟨w, hw⟩ := ih.1 h1 (.obj (ms.snoc k v))
      refine ⟨w, List.IsPrefix.trans ?_ hw⟩
      rw [J.toks, Ms.snoc_toks]
      exact (List.prefix_append_right_inj _).mpr (List.cons_prefix_cons.mpr ⟨rfl, List.prefix_append _ _⟩)
    refine ⟨fun _ v => ?_, ?_⟩
    · obtain ⟨w, hw⟩ := key v
      exact ⟨w, by simpa using hw⟩
    · obtain ⟨w, hw⟩ := key .other
      rw [J.toks] at hw
      exact ⟨w, hw⟩

theorem gotValue_ok (s : PSt) : gotValue s ≠ .parseError ∧ gotValue s ≠ .lexError := by
  cases s <;> decide

/-- What a token can lead to. -/
def Leads (outer : List PSt) (calls : List Tok) (k : LTok) (w : Str) (o : POut) : Prop :=
  (o = .undef ∧ k = .integer ∧ parseInteger w = .overflow) ∨ o = .next .parseError outer [] ∨
    ∃ c o' ks, o = .next c o' ks ∧ Part c o' (calls ++ ks) ∧ c ≠ .parseError ∧ c ≠ .lexError ∧
      ∀ n, Tok.int n ∈ ks → -9223372036854775807 ≤ n ∧ n ≤ 9223372036854775807

theorem Leads.next {outer calls k w c o' ks} (h1 : Part c o' (calls ++ ks)) (h2 : c ≠ .parseError)
    (h3 : c ≠ .lexError) (h4 : ∀ n, Tok.int n ∈ ks → -9223372036854775807 ≤ n ∧ n ≤ 9223372036854775807) :
    Leads outer calls k w (.next c o' ks) := .inr (.inr ⟨c, o', ks, rfl, h1, h2, h3, h4⟩)

theorem Leads.error {outer calls k w} : Leads outer calls k w (.next .parseError outer []) := .inr (.inl rfl)

theorem Part.endArr {cur outer calls k w} (h : Part cur outer calls) (hc : cur = .arrStart ∨ cur = .arrGotVal) :
    Leads outer calls k w (pop outer [.endArr]) := by
  cases h with
  | start => simp at hc
  | complete v => simp at hc
  | @arr _ pre o calls vs h1 h2 h3 =>
    refine Leads.next ?_ (gotValue_ok _).1 (gotValue_ok _).2 (by simp)
    have := h2.val h1 (.arr vs)
    rw [J.toks] at this
    simpa using this
  | obj ms h1 h2 h3 => rcases h3 with ⟨h3, _⟩ | h3 | h3 <;> rw [h3] at hc <;> simp at hc
  | key ms k h1 h2 h3 => rcases h3 with h3 | h3 <;> rw [h3] at hc <;> simp at hc

theorem Part.endMap {cur outer calls k w} (h : Part cur outer calls) (hc : cur = .mapStart ∨ cur = .mapGotVal) :
    Leads outer calls k w (pop outer [.endMap]) := by
  cases h with
  | start => simp at hc
  | complete v => simp at hc
  | arr vs h1 h2 h3 => rcases h3 with ⟨h3, _⟩ | h3 | h3 <;> rw [h3] at hc <;> simp at hc
  | @obj _ pre o calls ms h1 h2 h3 =>
    refine Leads.next ?_ (gotValue_ok _).1 (gotValue_ok _).2 (by simp)
    have := h2.val h1 (.obj ms)
    rw [J.toks] at this
    simpa using this
  | key ms k h1 h2 h3 => rcases h3 with h3 | h3 <;> rw [h3] at hc <;> simp at hc

theorem Part.value {cur outer calls k w} (h : Part cur outer calls) (hn : NeedsVal cur) (hk : TokOk k w) :
    Leads outer calls k w (onValue cur outer k w) := by
  cases k with
  | string e =>
    obtain ⟨x, hx⟩ := hk.str e rfl
    rw [onValue, hx]
    have := h.val hn (.str x)
    rw [J.toks] at this
    exact Leads.next this (gotValue_ok _).1 (gotValue_ok _).2 (by simp)
  | bool =>
    have := h.val hn .other
    rw [J.toks] at this
    exact Leads.next this (gotValue_ok _).1 (gotValue_ok _).2 (by simp)
  | null =>
    have := h.val hn .other
    rw [J.toks] at this
    exact Leads.next this (gotValue_ok _).1 (gotValue_ok _).2 (by simp)
  | double =>
    have := h.val hn .other
    rw [J.toks] at this
    exact Leads.next this (gotValue_ok _).1 (gotValue_ok _).2 (by simp)
  | leftBracket =>
    have := Part.obj (cur := .mapStart) .nil hn h (.inl ⟨rfl, rfl⟩)
    rw [Ms.toks] at this
    exact Leads.next this (by decide) (by decide) (by simp)
  | leftBrace =>
    have := Part.arr (cur := .arrStart) .nil hn h (.inl ⟨rfl, rfl⟩)
    rw [Js.toks] at this
    exact Leads.next this (by decide) (by decide) (by simp)
  | integer =>
    rw [onValue]
    cases hp : parseInteger w with
    | overflow => exact .inl ⟨rfl, rfl, hp⟩
    | erange => exact Leads.error
    | val v =>
      have := h.val hn (.int v)
      rw [J.toks] at this
      refine Leads.next this (gotValue_ok _).1 (gotValue_ok _).2 ?_
      intro n hn
      rw [List.mem_singleton] at hn
      injection hn with hn
      rw [hn]
      exact parseInteger_val hp
  | rightBrace =>
    rw [onValue]
    by_cases hc : cur = .arrStart
    · rw [if_pos hc]
      exact h.endArr (.inl hc)
    · rw [if_neg hc]
      exact Leads.error
  | rightBracket => exact Leads.error
  | comma => exact Leads.error
  | colon => exact Leads.error

theorem Part.newKey {cur outer calls} (h : Part cur outer calls) (hc : cur = .mapStart ∨ cur = .mapNeedKey) (x : Str) :
    Part .mapSep outer (calls ++ [.key x]) := by
  cases h with
  | start => simp at hc
  | complete v => simp at hc
  | arr vs h1 h2 h3 => rcases h3 with ⟨h3, _⟩ | h3 | h3 <;> rw [h3] at hc <;> simp at hc
  | @obj _ pre o calls ms h1 h2 h3 =>
    have := Part.key (cur := .mapSep) ms x h1 h2 (.inl rfl)
    simpa using this
  | key ms k h1 h2 h3 => rcases h3 with h3 | h3 <;> rw [h3] at hc <;> simp at hc

theorem Part.keyTok {cur outer calls e w} (h : Part cur outer calls) (hc : cur = .mapStart ∨ cur = .mapNeedKey)
    (hk : TokOk (.string e) w) : Leads outer calls (.string e) w (match stringOf e w with
      | none => .undef
      | some s => .next .mapSep outer [.key s]) := by
  obtain ⟨x, hx⟩ := hk.str e rfl
  rw [hx]
  exact Leads.next (h.newKey hc x) (by decide) (by decide) (by simp)

/-- A token, where it may come. -/
theorem Part.tok {cur outer calls k w} (h : Part cur outer calls) (h1 : cur ≠ .parseError) (h2 : cur ≠ .lexError)
    (hk : TokOk k w) : Leads outer calls k w (onTok cur outer k w) := by
  cases cur with
  | start => exact h.value (by simp [NeedsVal]) hk
  | mapNeedVal => exact h.value (by simp [NeedsVal]) hk
  | arrNeedVal => exact h.value (by simp [NeedsVal]) hk
  | arrStart => exact h.value (by simp [NeedsVal]) hk
  | complete => exact Leads.error
  | parseError => exact absurd rfl h1
  | lexError => exact absurd rfl h2
  | mapStart => cases k with
    | string e => exact h.keyTok (.inl rfl) hk
    | rightBracket => exact h.endMap (.inl rfl)
    | _ => exact Leads.error
  | mapNeedKey => cases k with
    | string e => exact h.keyTok (.inr rfl) hk
    | _ => exact Leads.error
  | mapSep => cases k with
    | colon =>
      refine Leads.next ?_ (by decide) (by decide) (by simp)
      rw [List.append_nil]
      cases h with
      | arr vs h1 h2 h3 => simp at h3
      | obj ms h1 h2 h3 => simp at h3
      | key ms k h1 h2 h3 => exact .key ms k h1 h2 (.inr rfl)
    | _ => exact Leads.error
  | mapGotVal => cases k with
    | rightBracket => exact h.endMap (.inr rfl)
    | comma =>
      refine Leads.next ?_ (by decide) (by decide) (by simp)
      rw [List.append_nil]
      cases h with
      | arr vs h1 h2 h3 => simp at h3
      | obj ms h1 h2 h3 => exact .obj ms h1 h2 (.inr (.inr rfl))
      | key ms k h1 h2 h3 => simp at h3
    | _ => exact Leads.error
  | arrGotVal => cases k with
    | rightBrace => exact h.endArr (.inr rfl)
    | comma =>
      refine Leads.next ?_ (by decide) (by decide) (by simp)
      rw [List.append_nil]
      cases h with
      | arr vs h1 h2 h3 => exact .arr vs h1 h2 (.inr (.inr rfl))
      | obj ms h1 h2 h3 => simp at h3
      | key ms k h1 h2 h3 => simp at h3
    | _ => exact Leads.error

/-- Numbers that a `long long` can hold. -/
def IntsOk (ts : List Tok) : Prop := ∀ n, Tok.int n ∈ ts → -9223372036854775807 ≤ n ∧ n ≤ 9223372036854775807

/-- What is known about the calls for a text. -/
theorem parseText_part : ∀ (n : Nat) (t : Str) (cur : PSt) (outer : List PSt) (calls : List Tok), t.length ≤ n →
    cur ≠ .parseError → cur ≠ .lexError → Part cur outer calls →
    (∃ w : J, calls ++ (parseText cur outer t).calls <+: w.toks) ∧ IntsOk (parseText cur outer t).calls ∧
    ((parseText cur outer t).status = .ok → Part (parseText cur outer t).parser.cur (parseText cur outer t).parser.outer
      (calls ++ (parseText cur outer t).calls)) ∧
    ((parseText cur outer t).status = .undef → digitRun 19 t) := by
  intro n
  induction n with
  | zero =>
    intro t cur outer calls hn h1 h2 h
    rw [List.length_eq_zero_iff.mp (Nat.le_zero.mp hn), parseText_eof rfl]
    simp only [List.append_nil]
    exact ⟨h.prefix.2, fun n hn => by simp at hn, fun _ => h, (fun e => by cases e)⟩
  | succ n ih =>
    intro t cur outer calls hn h1 h2 h
    cases hl : lexTok t with
    | eof kept =>
      rw [parseText_eof hl]
      simp only [List.append_nil]
      exact ⟨h.prefix.2, fun n hn => by simp at hn, fun _ => h, (fun e => by cases e)⟩
    | error =>
      rw [parseText_error hl]
      simp only [List.append_nil]
      exact ⟨h.prefix.2, fun n hn => by simp at hn, (fun e => by cases e), (fun e => by cases e)⟩
    | tok k w r =>
      obtain ⟨⟨a, ha⟩, hk⟩ := lexTok_ok t hl
      have hlt := lexTok_lt t hl
      rw [parseText_tok hl]
      rcases h.tok h1 h2 hk with ⟨e, e1, e2⟩ | e | ⟨c, o, ks, e, e1, e2, e3, e4⟩
      · rw [e]
        simp only [Parsed.next, List.append_nil]
        refine ⟨h.prefix.2, fun n hn => by simp at hn, (fun e => by cases e), fun _ => ?_⟩
        obtain ⟨ds, h3, h4⟩ := hk.int e1
        have h5 : ¬ ds.length ≤ 18 := fun h6 => parseInteger_bound h3 h4 h6 e2
        rcases h3 with h3 | h3
        · rw [ha, h3]
          exact digitRun_take h4 (by omega)
        · rw [ha, h3, show a ++ 45 :: ds ++ r = (a ++ [45]) ++ ds ++ r by simp]
          exact digitRun_take h4 (by omega)
      · rw [e]
        simp only [Parsed.next, true_or, if_true, List.append_nil]
        exact ⟨h.prefix.2, fun n hn => by simp at hn, (fun e => by cases e), (fun e => by cases e)⟩
      · rw [e]
        simp only [Parsed.next]
        rw [if_neg (by simp [e2, e3])]
        obtain ⟨i1, i2, i3, i4⟩ := ih r c o (calls ++ ks) (by omega) e2 e3 e1
        simp only [Parsed.after, ← List.append_assoc]
        refine ⟨i1, ?_, i3, ?_⟩
        · intro n hn
          rcases List.mem_append.mp hn with hn | hn
          · exact e4 n hn
          · exact i2 n hn
        · intro e
          rw [ha]
          exact digitRun_tail (i4 e)

end Verif.Yajl
