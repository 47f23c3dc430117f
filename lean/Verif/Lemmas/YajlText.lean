import Verif.Lemmas.YajlLex
import Verif.Spec.Yajl

/-!
# What the generator of yajl writes, and what the lexer finds in it
-/

namespace Verif.Yajl
open Verif.JsonInput

/-! ### Strings -/

theorem decode_plain {c : Byte} (t : Str) (h : c ≠ backslash) : decode (c :: t) = (decode t).map ([c] ++ ·) := by
  rw [decode, if_pos h]

theorem decode_escape {t x r : Str} (h : unescapeText t = some (x, r)) :
    decode (backslash :: t) = (decode r).map (x ++ ·) := by
  rw [decode, if_neg (by simp)]
  split
  · next heq => rw [h] at heq; cases heq
  · next heq => rw [h] at heq; cases heq; rfl

theorem hexVal_byte : ∀ n : Nat, n < 32 → hexVal 48 48 (hexChar (n / 16)) (hexChar (n % 16)) = some n := by
  decide

theorem utf8_byte {c : Byte} (h : c.toNat < 32) : utf8 c.toNat = [c] := by
  rw [utf8, if_pos (by omega)]
  simp

theorem decode_encodeByte (c : Byte) (t : Str) : decode (encodeByte c ++ t) = (decode t).map ([c] ++ ·) := by
  unfold encodeByte
  by_cases h1 : c = 13
  · rw [if_pos h1, h1]
    exact decode_escape (x := [13]) rfl
  rw [if_neg h1]
  by_cases h2 : c = 10
  · rw [if_pos h2, h2]
    exact decode_escape (x := [10]) rfl
  rw [if_neg h2]
  by_cases h3 : c = backslash
  · rw [if_pos h3, h3]
    exact decode_escape (x := [backslash]) rfl
  rw [if_neg h3]
  by_cases h4 : c = quote
  · rw [if_pos h4, h4]
    exact decode_escape (x := [quote]) rfl
  rw [if_neg h4]
  by_cases h5 : c = 12
  · rw [if_pos h5, h5]
    exact decode_escape (x := [12]) rfl
  rw [if_neg h5]
  by_cases h6 : c = 8
  · rw [if_pos h6, h6]
    exact decode_escape (x := [8]) rfl
  rw [if_neg h6]
  by_cases h7 : c = 9
  · rw [if_pos h7, h7]
    exact decode_escape (x := [9]) rfl
  rw [if_neg h7]
  by_cases h8 : c.toNat < 32
  · rw [if_pos h8]
    refine decode_escape ?_
    show unescapeHex (48 :: 48 :: hexChar (c.toNat / 16) :: hexChar (c.toNat % 16) :: t) = _
    rw [unescapeHex, hexVal_byte _ h8]
    show (if c.toNat / 1024 % 64 = 54 then _ else some (utf8 c.toNat, t)) = _
    rw [if_neg (by omega), utf8_byte h8]
  · rw [if_neg h8]
    exact decode_plain t h3

/-- What is written for a string is read as the string. -/
theorem decode_encode : ∀ s : Str, decode (encode s) = some s
  | [] => by simp [encode, decode]
  | c :: s => by
    have := decode_encode s
    unfold encode at this ⊢
    rw [List.map_cons, List.flatten_cons, decode_encodeByte, this]
    rfl

/-- More text in front of what has been found. -/
def Scan.pre (w : Str) : Scan → Scan
  | .done k t r => .done k (w ++ t) r
  | s => s

theorem pre_nil (x : Scan) : x.pre [] = x := by cases x <;> rfl
theorem pre_cons (c : Byte) (w : Str) (x : Scan) : x.pre (c :: w) = (x.pre w).cons c := by cases x <;> rfl
theorem pre_pre (a b : Str) (x : Scan) : (x.pre b).pre a = x.pre (a ++ b) := by
  cases x <;> simp [Scan.pre]

theorem isHex_hexChar : ∀ n : Nat, n < 16 → isHex (hexChar n) = true := by decide

/-- Is there a backslash in what is written for the byte? -/
def escaped (c : Byte) : Bool := decide (c.toNat < 32 ∨ c = quote ∨ c = backslash)

theorem encodeByte_plain {c : Byte} (h : escaped c = false) : encodeByte c = [c] := by
  have h' : ¬ (c.toNat < 32 ∨ c = quote ∨ c = backslash) := of_decide_eq_false h
  simp only [not_or] at h'
  obtain ⟨h1, h2, h3⟩ := h'
  have hne : ∀ d : Byte, d.toNat < 32 → c ≠ d := fun d hd e => h1 (e ▸ hd)
  unfold encodeByte
  rw [if_neg (hne 13 (by decide)), if_neg (hne 10 (by decide)), if_neg h3, if_neg h2, if_neg (hne 12 (by decide)),
    if_neg (hne 8 (by decide)), if_neg (hne 9 (by decide)), if_neg h1]

theorem lexString_two {c : Byte} (e : Bool) (t : Str) (h1 : c ≠ 117) (h2 : isEscape c = true) :
    lexString .plain e (backslash :: c :: t) = (lexString .plain true t).pre [backslash, c] := by
  rw [pre_cons, pre_cons, pre_nil, lexString]
  show (lexString .escape (e || true) (c :: t)).cons backslash = _
  rw [lexString]
  have : strStep .escape c = .go .plain := by
    rw [strStep, if_neg h1, if_pos h2]
  rw [this]
  simp

theorem lexString_hex {n : Nat} (e : Bool) (t : Str) (h : n < 32) :
    lexString .plain e (backslash :: 117 :: 48 :: 48 :: hexChar (n / 16) :: hexChar (n % 16) :: t) =
      (lexString .plain true t).pre [backslash, 117, 48, 48, hexChar (n / 16), hexChar (n % 16)] := by
  have h1 := isHex_hexChar (n / 16) (by omega)
  have h2 := isHex_hexChar (n % 16) (by omega)
  have hs : ∀ {c}, isHex c = true → ∀ m, strStep (.hex (m + 1)) c = .go (.hex m) := by
    intro c hc m
    rw [strStep, if_pos hc]
  have h0 : ∀ {c}, isHex c = true → strStep (.hex 0) c = .go .plain := by
    intro c hc
    rw [strStep, if_pos hc]
  have z : isHex 48 = true := by decide
  simp only [pre_cons, pre_nil]
  rw [lexString]
  show (lexString .escape (e || true) _).cons backslash = _
  rw [lexString]
  show ((lexString (.hex 3) (e || true || false) _).cons 117).cons backslash = _
  rw [lexString, hs z 2]
  simp only
  rw [lexString, hs z 1]
  simp only
  rw [lexString, hs h1 0]
  simp only
  rw [lexString, h0 h2]
  simp

theorem lexString_encodeByte (c : Byte) (e : Bool) (t : Str) :
    lexString .plain e (encodeByte c ++ t) = (lexString .plain (e || escaped c) t).pre (encodeByte c) := by
  by_cases he : escaped c = false
  · rw [encodeByte_plain he, he]
    have h' : ¬ (c.toNat < 32 ∨ c = quote ∨ c = backslash) := of_decide_eq_false he
    have hb : isBad c = false := decide_eq_false h'
    simp only [not_or] at h'
    rw [List.cons_append, List.nil_append, lexString]
    have : strStep .plain c = .go .plain := by
      rw [strStep, if_neg h'.2.1, if_neg h'.2.2, if_neg (by simp [hb])]
    rw [this, pre_cons, pre_nil]
    simp
  · have he' : escaped c = true := by simpa using he
    rw [he', Bool.or_true]
    unfold encodeByte
    by_cases h1 : c = 13
    · rw [if_pos h1]
      exact lexString_two e t (by decide) (by decide)
    rw [if_neg h1]
    by_cases h2 : c = 10
    · rw [if_pos h2]
      exact lexString_two e t (by decide) (by decide)
    rw [if_neg h2]
    by_cases h3 : c = backslash
    · rw [if_pos h3]
      exact lexString_two e t (by decide) (by decide)
    rw [if_neg h3]
    by_cases h4 : c = quote
    · rw [if_pos h4]
      exact lexString_two e t (by decide) (by decide)
    rw [if_neg h4]
    by_cases h5 : c = 12
    · rw [if_pos h5]
      exact lexString_two e t (by decide) (by decide)
    rw [if_neg h5]
    by_cases h6 : c = 8
    · rw [if_pos h6]
      exact lexString_two e t (by decide) (by decide)
    rw [if_neg h6]
    by_cases h7 : c = 9
    · rw [if_pos h7]
      exact lexString_two e t (by decide) (by decide)
    rw [if_neg h7]
    by_cases h8 : c.toNat < 32
    · rw [if_pos h8]
      exact lexString_hex e t h8
    · exact absurd (of_decide_eq_true he') (by simp [h8, h3, h4])

theorem lexString_encode : ∀ (s : Str) (e : Bool) (t : Str),
    lexString .plain e (encode s ++ quote :: t) =
      .done (.string (e || s.any escaped)) (encode s ++ [quote]) t
  | [], e, t => by
    show lexString .plain e (quote :: t) = _
    rw [lexString]
    show Scan.done (.string e) [quote] t = _
    simp [encode]
  | c :: s, e, t => by
    have ih := lexString_encode s (e || escaped c) t
    have hc : encode (c :: s) = encodeByte c ++ encode s := by
      unfold encode
      rw [List.map_cons, List.flatten_cons]
    rw [hc, List.append_assoc, lexString_encodeByte, ih]
    simp [Scan.pre, Bool.or_assoc]

theorem encode_plain : ∀ {s : Str}, s.any escaped = false → encode s = s
  | [], _ => rfl
  | c :: s, h => by
    simp only [List.any_cons, Bool.or_eq_false_iff] at h
    unfold encode
    rw [List.map_cons, List.flatten_cons, encodeByte_plain h.1]
    exact congrArg (c :: ·) (encode_plain h.2)

theorem body_quoted (x : Str) : body (quote :: (x ++ [quote])) = x := by
  simp [body]

/-- The text of a string is a token, and it stands for the string. -/
theorem lexTok_string (s t : Str) :
    lexTok (quote :: (encode s ++ quote :: t)) =
      .tok (.string (s.any escaped)) (quote :: (encode s ++ [quote])) t := by
  rw [lexTok, if_neg (by decide), show kindOf quote = .str by decide]
  show (lexString .plain false (encode s ++ quote :: t)).lexed quote _ = _
  rw [lexString_encode, Bool.false_or]
  rfl

theorem stringOf_encode (s : Str) : stringOf (s.any escaped) (quote :: (encode s ++ [quote])) = some s := by
  unfold stringOf
  rw [body_quoted]
  cases h : s.any escaped with
  | true =>
    rw [if_pos rfl]
    exact decode_encode s
  | false =>
    rw [if_neg (by simp), encode_plain h]

/-! ### Numbers -/

/-- What may stand behind a number. -/
def Ends (c : Byte) : Prop := isNum c = false ∧ c ≠ dot ∧ c ≠ 101 ∧ c ≠ 69

theorem afterInt_ends {c : Byte} (h : Ends c) : afterInt c = .stop .integer := by
  rw [afterInt, if_neg h.2.1, if_neg (by simp [h.2.2])]

theorem lexNumber_digits {c : Byte} (h : Ends c) (t : Str) : ∀ ds : Str, (∀ d ∈ ds, isNum d = true) →
    lexNumber .digits (ds ++ c :: t) = .done .integer ds (c :: t)
  | [], _ => by
    rw [List.nil_append, lexNumber, numStep, if_neg (by simp [h.1]), afterInt_ends h]
  | d :: ds, hd => by
    rw [List.cons_append, lexNumber, numStep, if_pos (hd d (by simp))]
    simp only
    rw [lexNumber_digits h t ds (fun x hx => hd x (by simp [hx]))]
    rfl

theorem isNum_ofNat : ∀ n : Nat, n < 10 → isNum (UInt8.ofNat (48 + n)) = true := by decide
theorem ofNat_ne : ∀ n : Nat, n < 10 → n ≠ 0 → UInt8.ofNat (48 + n) ≠ 48 := by decide
theorem toNat_ofNat : ∀ n : Nat, n < 10 → (UInt8.ofNat (48 + n)).toNat = 48 + n := by decide

theorem decimal_digits (n : Nat) : 0 < n → ∃ d ds, BackupNumber.decimal n = d :: ds ∧ d ≠ 48 ∧ isNum d = true ∧
    ∀ x ∈ ds, isNum x = true := by
  induction n using Nat.strongRecOn with
  | ind n ih =>
    intro hn
    rw [BackupNumber.decimal]
    by_cases h : n < 10
    · rw [if_pos h]
      exact ⟨_, [], rfl, ofNat_ne n h (by omega), isNum_ofNat n h, by simp⟩
    · rw [if_neg h]
      obtain ⟨d, ds, h1, h2, h3, h4⟩ := ih (n / 10) (by omega) (by omega)
      refine ⟨d, ds ++ [UInt8.ofNat (48 + n % 10)], by rw [h1]; rfl, h2, h3, ?_⟩
      intro x hx
      rcases List.mem_append.mp hx with hx | hx
      · exact h4 x hx
      · rw [List.mem_singleton.mp hx]
        exact isNum_ofNat _ (by omega)

theorem isNum_bytes {c : Byte} (h : isNum c = true) : kindOf c = .num (if c = 48 then .zero else .digits) ∧
    isWs c = false ∧ c ≠ 45 := by
  have : ∀ n : Fin 256, isNum (UInt8.ofNat n.val) = true →
      kindOf (UInt8.ofNat n.val) = .num (if UInt8.ofNat n.val = 48 then .zero else .digits) ∧
      isWs (UInt8.ofNat n.val) = false ∧ UInt8.ofNat n.val ≠ 45 := by decide +kernel
  have hc : UInt8.ofNat c.toNat = c := by simp
  have := this ⟨c.toNat, c.toNat_lt⟩
  simp only [hc] at this
  exact this h

theorem lexTok_num {c : Byte} (h : isNum c = true) (t : Str) :
    lexTok (c :: t) = (lexNumber (if c = 48 then .zero else .digits) t).lexed c t := by
  obtain ⟨h1, h2, _⟩ := isNum_bytes h
  rw [lexTok, if_neg (by simp [h2]), h1]
  rfl

theorem lexTok_minus {c : Byte} (h : isNum c = true) (t : Str) :
    lexTok (45 :: c :: t) = ((lexNumber (if c = 48 then .zero else .digits) t).cons c).lexed 45 (c :: t) := by
  rw [lexTok, if_neg (by decide), show kindOf 45 = .num .minus by decide]
  show (lexNumber .minus (c :: t)).lexed 45 (c :: t) = _
  rw [lexNumber]
  by_cases hc : c = 48
  · rw [numStep, if_pos hc, if_pos hc]
  · rw [numStep, if_neg hc, if_neg hc, if_pos h]

theorem lexNumber_zero {c : Byte} (h : Ends c) (t : Str) : lexNumber .zero (c :: t) = .done .integer [] (c :: t) := by
  rw [lexNumber, numStep, afterInt_ends h]

/-- The digits of a number, and how the lexer goes through them. -/
theorem decimal_lex (n : Nat) {c : Byte} (h : Ends c) (t : Str) : ∃ d ds, BackupNumber.decimal n = d :: ds ∧
    isNum d = true ∧ lexNumber (if d = 48 then .zero else .digits) (ds ++ c :: t) = .done .integer ds (c :: t) := by
  by_cases hn : n = 0
  · subst hn
    exact ⟨48, [], by rw [BackupNumber.decimal]; rfl, by decide, lexNumber_zero h t⟩
  · obtain ⟨d, ds, h1, h2, h3, h4⟩ := decimal_digits n (by omega)
    refine ⟨d, ds, h1, h3, ?_⟩
    rw [if_neg h2]
    exact lexNumber_digits h t ds h4

/-- The text of a number is a token, if something that ends it follows. -/
theorem lexTok_int (v : Int) {c : Byte} (h : Ends c) (t : Str) :
    lexTok (showInt v ++ c :: t) = .tok .integer (showInt v) (c :: t) := by
  obtain ⟨d, ds, h1, h2, h3⟩ := decimal_lex v.natAbs h t
  unfold showInt
  by_cases hv : v < 0
  · rw [if_pos hv, h1]
    simp only [List.cons_append]
    rw [lexTok_minus h2, h3]
    rfl
  · rw [if_neg hv, h1]
    simp only [List.cons_append]
    rw [lexTok_num h2, h3]
    rfl

theorem showInt_ne (v : Int) : showInt v ≠ [] := by
  unfold showInt
  split
  · simp
  · rw [BackupNumber.decimal]
    split <;> simp

theorem parseDigits_decimal (t : Str) (n : Nat) : (n : Int) ≤ llongMax →
    parseDigits 0 (BackupNumber.decimal n ++ t) = parseDigits n t := by
  induction n using Nat.strongRecOn generalizing t with
  | ind n ih =>
    intro hn
    have hm : llongMax = 9223372036854775807 := rfl
    have hx : maxToMultiply = 922337203685477587 := by decide
    rw [BackupNumber.decimal]
    by_cases h : n < 10
    · rw [if_pos h, List.cons_append, List.nil_append, parseDigits, toNat_ofNat n h]
      rw [if_neg (by omega), if_neg (by omega), if_neg (by omega), if_neg (by omega)]
      congr 1
      omega
    · rw [if_neg h, List.append_assoc, ih (n / 10) (by omega) _ (by omega)]
      rw [List.cons_append, List.nil_append, parseDigits, toNat_ofNat (n % 10) (by omega)]
      rw [if_neg (by omega), if_neg (by omega), if_neg (by omega), if_neg (by omega)]
      congr 1
      omega

theorem decimal_head (n : Nat) : ∃ d ds, BackupNumber.decimal n = d :: ds ∧ d ≠ 45 ∧ d ≠ 43 := by
  by_cases hn : n = 0
  · subst hn
    exact ⟨48, [], by rw [BackupNumber.decimal]; rfl, by decide, by decide⟩
  · obtain ⟨d, ds, h1, h2, h3, h4⟩ := decimal_digits n (by omega)
    refine ⟨d, ds, h1, (isNum_bytes h3).2.2, ?_⟩
    intro e
    subst e
    exact absurd h3 (by decide)

/-- The text of a number stands for the number, if it is not the least one of 64 bits. -/
theorem parseInteger_show {v : Int} (h1 : -9223372036854775807 ≤ v) (h2 : v ≤ 9223372036854775807) :
    parseInteger (showInt v) = .val v := by
  obtain ⟨d, ds, hd, h45, h43⟩ := decimal_head v.natAbs
  have hp := parseDigits_decimal [] v.natAbs (show (v.natAbs : Int) ≤ 9223372036854775807 by omega)
  rw [List.append_nil] at hp
  unfold showInt parseInteger
  by_cases hv : v < 0
  · rw [if_pos hv]
    simp only [List.head?_cons, if_true, List.tail_cons]
    rw [hd] at hp ⊢
    simp only [List.head?_cons, Option.some.injEq, h43, if_false]
    rw [hp]
    simp only [parseDigits]
    congr 1
    omega
  · rw [if_neg hv]
    rw [hd] at hp ⊢
    simp only [List.head?_cons, Option.some.injEq, h43, h45, if_false]
    rw [hp]
    simp only [parseDigits]
    congr 1
    omega

theorem digitsValue_ge {r : Int} (hr : 0 ≤ r) (ds : Str) (hd : ∀ c ∈ ds, 48 ≤ c.toNat ∧ c.toNat ≤ 57) :
    r ≤ digitsValue r ds := by
  induction ds generalizing r with
  | nil => exact Int.le_refl _
  | cons c t ih =>
    have hc := hd c (List.mem_cons_self ..)
    have := ih (r := r * 10 + ((c.toNat : Int) - 48)) (by omega) (fun x hx => hd x (List.mem_cons_of_mem _ hx))
    show r ≤ digitsValue (r * 10 + ((c.toNat : Int) - 48)) t
    omega

theorem parseDigits_value {r : Int} (hr : 0 ≤ r) (ds : Str) (hd : ∀ c ∈ ds, 48 ≤ c.toNat ∧ c.toNat ≤ 57)
    (hm : r ≤ llongMax)
    (h : ∀ p q, p ++ q = ds → q ≠ [] →
      digitsValue r p < 922337203685477581 ∨ 922337203685477587 < digitsValue r p) :
    parseDigits r ds = if digitsValue r ds ≤ llongMax then .val (digitsValue r ds) else .erange := by
  have hx : maxToMultiply = 922337203685477587 := by decide
  have hy : llongMax = 9223372036854775807 := rfl
  induction ds generalizing r with
  | nil => rw [parseDigits]; exact (if_pos hm).symm
  | cons c t ih =>
    have hc := hd c (List.mem_cons_self ..)
    have h0 : r < 922337203685477581 ∨ 922337203685477587 < r := h [] (c :: t) rfl (by simp)
    have hge := digitsValue_ge (r := r * 10 + ((c.toNat : Int) - 48)) (by omega) t
      (fun x hx => hd x (List.mem_cons_of_mem _ hx))
    have hv : digitsValue r (c :: t) = digitsValue (r * 10 + ((c.toNat : Int) - 48)) t := rfl
    rw [parseDigits, hv]
    by_cases h1 : r > maxToMultiply
    · rw [if_pos h1, if_neg (by omega)]
    · rw [if_neg h1, if_neg (by omega)]
      by_cases h2 : llongMax - r * 10 < (c.toNat : Int) - 48
      · rw [if_pos h2, if_neg (by omega)]
      · rw [if_neg h2, if_neg (by omega)]
        refine ih (by omega) (fun x hx => hd x (List.mem_cons_of_mem _ hx)) (by omega) ?_
        intro p q hpq hq
        exact h (c :: p) q (by rw [List.cons_append, hpq]) hq

end Verif.Yajl
