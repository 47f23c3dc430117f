import Verif.Spec.Ipacl
import Verif.Lemmas.Decimal

/-!
# C37: lists of addresses

What the lists mean is in `Verif/Spec/Ipacl.lean`.
-/

namespace Verif
open Verif.Ipacl Verif.BackupNumber Verif.Timer

/-! ### Masks -/

theorem netmask_eq : ∀ n ≤ 32, netmask n = BitVec.allOnes 32 <<< (32 - n) := by
  have : ∀ n : Fin 33, netmask n.1 = BitVec.allOnes 32 <<< (32 - n.1) := by decide +kernel
  exact fun n h => this ⟨n, by omega⟩

theorem netmask6_eq : ∀ n ≤ 128, netmask6 n = BitVec.allOnes 128 <<< (128 - n) := by
  have : ∀ n : Fin 129, netmask6 n.1 = BitVec.allOnes 128 <<< (128 - n.1) := by decide +kernel
  exact fun n h => this ⟨n, by omega⟩

theorem mask_bit (w n i : Nat) (hn : n ≤ w) (_hi : i < w) :
    (BitVec.allOnes w <<< (w - n)).getMsbD i = decide (i < n) := by
  rw [BitVec.getMsbD_shiftLeft, BitVec.getMsbD_allOnes]
  simp; omega

theorem masked_zero {w : Nat} (x a : BitVec w) (n : Nat) (hn : n ≤ w) :
    ((x ^^^ a) &&& (BitVec.allOnes w <<< (w - n)) = 0) ↔ ∀ i < n, x.getMsbD i = a.getMsbD i := by
  constructor
  · intro h i hi
    have := congrArg (fun v => BitVec.getMsbD v i) h
    simp only [BitVec.getMsbD_and, BitVec.getMsbD_xor] at this
    rw [mask_bit w n i hn (by omega)] at this
    simpa [hi] using this
  · intro h
    apply BitVec.eq_of_getMsbD_eq
    intro i hi
    simp only [BitVec.getMsbD_and, BitVec.getMsbD_xor]
    rw [mask_bit w n i hn hi]
    by_cases hin : i < n
    · simp [hin, h i hin]
    · simp [hin]

theorem masked_bits {w : Nat} (x a : BitVec w) (n : Nat) (hn : n ≤ w) :
    (∀ i < n, x.getMsbD i = (a &&& (BitVec.allOnes w <<< (w - n))).getMsbD i) ↔
      ∀ i < n, x.getMsbD i = a.getMsbD i := by
  constructor <;> intro h i hi
  · have := h i hi
    rw [BitVec.getMsbD_and, mask_bit w n i hn (by omega)] at this
    simpa [hi] using this
  · rw [BitVec.getMsbD_and, mask_bit w n i hn (by omega)]
    simpa [hi] using h i hi

theorem prefixEqualHalf_iff (a b : BitVec 64) (n : Nat) (hn : n ≤ 64) :
    prefixEqualHalf a b n = true ↔ ∀ i < n, a.getMsbD i = b.getMsbD i := by
  unfold prefixEqualHalf
  rw [← masked_zero a b n hn]
  by_cases h : n = 0
  · subst h
    simp
  · simp [h]

theorem half0_bit (a : BitVec 128) (i : Nat) (h : i < 64) : (half0 a).getMsbD i = a.getMsbD i := by
  simp only [half0, BitVec.getMsbD_eq_getLsbD, BitVec.getLsbD_extractLsb']
  have e : 64 + (64 - 1 - i) = 128 - 1 - i := by omega
  have h1 : 64 - 1 - i < 64 := by omega
  have h2 : i < 128 := by omega
  rw [e, decide_eq_true h, decide_eq_true h1, decide_eq_true h2]
  rfl

theorem half1_bit (a : BitVec 128) (i : Nat) (h : i < 64) : (half1 a).getMsbD i = a.getMsbD (64 + i) := by
  simp only [half1, BitVec.getMsbD_eq_getLsbD, BitVec.getLsbD_extractLsb']
  have e : 0 + (64 - 1 - i) = 128 - 1 - (64 + i) := by omega
  have h1 : 64 - 1 - i < 64 := by omega
  have h2 : 64 + i < 128 := by omega
  rw [e, decide_eq_true h, decide_eq_true h1, decide_eq_true h2]
  rfl

theorem prefixEqual6_iff (a b : BitVec 128) (n : Nat) (hn : n ≤ 128) :
    prefixEqual6 a b n = true ↔ ∀ i < n, a.getMsbD i = b.getMsbD i := by
  unfold prefixEqual6
  have hx : half0 a ^^^ half0 b ≠ 0 ↔ ¬ ∀ i < 64, a.getMsbD i = b.getMsbD i := by
    have := masked_zero (half0 a) (half0 b) 64 (by omega)
    simp only [Nat.sub_self, BitVec.shiftLeft_zero, BitVec.and_allOnes] at this
    rw [Ne, this]
    apply not_congr
    constructor <;> intro h i hi <;> have := h i hi
    · rwa [half0_bit _ _ hi, half0_bit _ _ hi] at this
    · rwa [half0_bit _ _ hi, half0_bit _ _ hi]
  by_cases h : n ≥ 64
  · rw [if_pos h]
    by_cases hh : half0 a ^^^ half0 b ≠ 0
    · rw [if_pos hh]
      rw [hx] at hh
      constructor
      · intro h; exact absurd h (by decide)
      · intro h2; exact absurd (fun i hi => h2 i (by omega)) hh
    · rw [if_neg hh, prefixEqualHalf_iff _ _ _ (by omega)]
      rw [hx] at hh
      have hh := Classical.not_not.1 hh
      constructor
      · intro h2 i hi
        by_cases hi6 : i < 64
        · exact hh i hi6
        · have := h2 (i - 64) (by omega)
          rw [half1_bit _ _ (by omega), half1_bit _ _ (by omega)] at this
          rwa [show 64 + (i - 64) = i by omega] at this
      · intro h2 i hi
        rw [half1_bit _ _ (by omega), half1_bit _ _ (by omega)]
        exact h2 _ (by omega)
  · rw [if_neg h, prefixEqualHalf_iff _ _ _ (by omega)]
    constructor <;> intro h2 i hi <;> have := h2 i hi
    · rwa [half0_bit _ _ (by omega), half0_bit _ _ (by omega)] at this
    · rwa [half0_bit _ _ (by omega), half0_bit _ _ (by omega)]

/-- An element made for a network matches the addresses in the network. -/
theorem create_match (acl : List Elem) (a x : Addr) (n : Nat) (hn : n ≤ a.width) :
    test (create acl a n) x = true ↔ InNetwork a n x ∨ test acl x = true := by
  have key : ∀ e : Elem, (elemMatch e x = true ↔ InNetwork a n x) →
      (test (e :: acl) x = true ↔ InNetwork a n x ∨ test acl x = true) := by
    intro e he
    rw [test]
    by_cases h : elemMatch e x = true
    · simp [h, he.1 h]
    · have : ¬ InNetwork a n x := fun hh => h (he.2 hh)
      simp [h, this]
  unfold create
  cases a with
  | v4 a =>
    apply key
    cases x with
    | v4 x =>
      have hn : n ≤ 32 := hn
      simp only [elemMatch, InNetwork, prefixEqual4, decide_eq_true_eq]
      rw [netmask_eq n hn, masked_zero _ _ n hn, masked_bits _ _ n hn]
    | v6 x => simp [elemMatch, InNetwork]
  | v6 a =>
    apply key
    cases x with
    | v4 x => simp [elemMatch, InNetwork]
    | v6 x =>
      have hn : n ≤ 128 := hn
      simp only [elemMatch, InNetwork]
      rw [netmask6_eq n hn, prefixEqual6_iff _ _ _ hn, masked_bits _ _ n hn]

/-! ### Words -/

theorem splitWhen_ne (p : Byte → Bool) (a : Str) : splitWhen p a ≠ [] := by
  cases a with
  | nil => simp [splitWhen]
  | cons c a =>
    rw [splitWhen]
    split
    · simp
    · split <;> simp

theorem splitWhen_first (p : Byte → Bool) (s : Str) :
    splitWhen p s = s.takeWhile (fun x => !p x) ::
      (match s.dropWhile (fun x => !p x) with
        | [] => []
        | _ :: r => splitWhen p r) := by
  induction s with
  | nil => simp [splitWhen]
  | cons c s ih =>
    rw [splitWhen]
    by_cases h : p c = true
    · simp [h]
    · rw [if_neg h, ih]
      simp [h]

theorem filter_splitWhen_drop (p : Byte → Bool) (s : Str) :
    (splitWhen p s).filter (fun w => !w.isEmpty) = (splitWhen p (s.dropWhile p)).filter (fun w => !w.isEmpty) := by
  induction s with
  | nil => rfl
  | cons c s ih =>
    by_cases h : p c = true
    · rw [splitWhen, if_pos h, List.dropWhile_cons, if_pos h, ← ih]
      simp
    · rw [List.dropWhile_cons, if_neg h]

theorem tokens_eq (s : Str) : tokens s = aclWords s := by
  induction s using tokens.induct with
  | case1 s h =>
    rw [tokens]
    split
    · unfold aclWords
      have := filter_splitWhen_drop isSep s
      rw [h] at this
      exact this.symm
    · rename_i c cs hc
      rw [h] at hc; simp at hc
  | case2 s c cs h ih =>
    rw [tokens]
    split
    · rename_i hc
      rw [h] at hc; simp at hc
    · rename_i c' cs' h'
      rw [h] at h'
      obtain ⟨rfl, rfl⟩ := List.cons.inj h'
      rw [ih]
      have hc : isSep c = false := by
        have := List.head_dropWhile_not isSep (l := s) (by rw [h]; simp)
        simpa [h] using this
      have e : aclWords s = (splitWhen isSep (c :: cs)).filter (fun w => !w.isEmpty) := by
        rw [← h]; exact filter_splitWhen_drop isSep s
      rw [e, splitWhen_first, List.filter_cons, if_pos (by simp [hc])]
      congr 1
      have hd : ∀ d r, (c :: cs).dropWhile (fun x => !isSep x) = d :: r → isSep d = true := by
        intro d r hr
        have := List.head_dropWhile_not (fun x => !isSep x) (l := c :: cs) (by rw [hr]; simp)
        simpa [hr] using this
      cases hr : (c :: cs).dropWhile (fun x => !isSep x) with
      | nil => rfl
      | cons d r =>
        have hd := hd d r hr
        show (splitWhen isSep (d :: r)).filter _ = _
        rw [splitWhen, if_pos hd]
        simp

theorem address_iff (pton : Pton) (t : Str) (a : Addr) : address pton t = some a ↔ IsAddress pton t a := by
  unfold address
  cases a with
  | v4 a =>
    cases h : pton.v4 t with
    | none => cases h6 : pton.v6 t <;> simp [IsAddress, h]
    | some b => simp [IsAddress, h]
  | v6 a =>
    cases h : pton.v4 t with
    | none => cases h6 : pton.v6 t <;> simp [IsAddress, h, h6]
    | some b => simp [IsAddress, h]

theorem isSpace_of_noBlank {w : Str} (h : NoBlank w) : ∀ c ∈ w, isSpace c = false := by
  intro c hc
  obtain ⟨h1, h2⟩ := h c hc
  unfold isSpace
  simp [h1]; omega

theorem dropWhile_none {p : Byte → Bool} {w : Str} (h : ∀ c ∈ w, p c = false) : w.dropWhile p = w := by
  cases w with
  | nil => rfl
  | cons c w => simp [h c (by simp)]

theorem trim_eq {w : Str} (h : NoBlank w) : trim w = w := by
  have hs := isSpace_of_noBlank h
  unfold trim
  rw [dropWhile_none hs, dropWhile_none (by simpa using hs), List.reverse_reverse]

theorem slash_not_decimal (n : Nat) : slash ∉ decimal n := by
  intro h
  have := (decimal_digits n).1 _ h
  exact absurd this (by decide)

theorem cutLast_eq (t d : Str) (h : slash ∉ d) : cutLast (t ++ slash :: d) = (t, some d) := by
  have e : (t ++ slash :: d).reverse = d.reverse ++ slash :: t.reverse := by simp
  have hp : ∀ c ∈ d.reverse, decide (c ≠ slash) = true := by
    intro c hc
    rw [List.mem_reverse] at hc
    exact decide_eq_true (fun he => h (he ▸ hc))
  obtain ⟨h1, h2⟩ := takeWhile_app (p := fun c => decide (c ≠ slash)) (x := slash) hp (by simp) t.reverse
  unfold cutLast
  rw [if_pos (by simp), e, h1, h2]
  simp

theorem parsePrefix_decimal (n : Nat) : parsePrefix (decimal n) = if n < 2 ^ 63 then some (n : Int) else none := by
  obtain ⟨hd, hne⟩ := decimal_digits n
  obtain ⟨c, cs, e⟩ : ∃ c cs, decimal n = c :: cs := by
    cases h : decimal n with
    | nil => exact absurd h hne
    | cons c cs => exact ⟨c, cs, rfl⟩
  have hc := hd c (by rw [e]; simp)
  have hsp : (decimal n).dropWhile isSpace = decimal n := by
    apply dropWhile_none
    intro x hx
    have := hd x hx
    unfold isDigit at this
    unfold isSpace
    have h2 : x ≠ 32 := by rintro rfl; simp at this
    simp at this ⊢
    exact ⟨h2, by omega⟩
  have h45 : (decimal n).head? ≠ some 45 := by
    rw [e]; simp; rintro rfl; simp [isDigit] at hc
  have h43 : (decimal n).head? ≠ some 43 := by
    rw [e]; simp; rintro rfl; simp [isDigit] at hc
  have htw : (decimal n).takeWhile isDigit = decimal n := by
    generalize decimal n = l at hd
    induction l with
    | nil => rfl
    | cons x l ih => simp [hd x (by simp), ih (fun y hy => hd y (by simp [hy]))]
  unfold parsePrefix
  rw [hsp]
  simp only [h45, h43, decide_false, Bool.or_self, Bool.false_eq_true, if_false, htw, decValue_decimal]
  rw [if_neg (by simp [hne])]
  by_cases hn : n < 2 ^ 63
  · rw [if_pos hn, if_neg (by omega)]
  · rw [if_neg hn, if_pos (by omega)]

theorem checkPrefix_nat (a : Addr) (n : Nat) :
    checkPrefix a n = if n ≤ a.width then some n else none := by
  have key : ∀ m : Nat, (if 0 ≤ (n : Int) ∧ (n : Int) ≤ (m : Int) then some (n : Int).toNat else none) =
      if n ≤ m then some n else none := by
    intro m
    by_cases h : n ≤ m
    · rw [if_pos h, if_pos (by omega)]; simp
    · rw [if_neg h, if_neg (by omega)]
  have hn : ¬ (n : Int) = -1 := by omega
  unfold checkPrefix
  cases a
  · simp only [if_neg hn]; exact key 32
  · simp only [if_neg hn]; exact key 128

theorem checkPrefix_none (a : Addr) : checkPrefix a (-1) = some a.width := by
  cases a <;> rfl

theorem emplace_network {pton : Pton} {w : Str} {a : Addr} {n : Nat} (h : IsNetwork pton w a n) (hw : w ≠ [])
    (acl : List Elem) : emplace pton acl (trim w) = some (create acl a n) := by
  obtain ⟨hb, hn, h⟩ := h
  rw [trim_eq hb]
  unfold emplace
  rw [if_neg hw]
  rcases h with ⟨hs, rfl, ha⟩ | ⟨t, rfl, ha⟩
  · have : cutLast w = (w, none) := by simp [cutLast, hs]
    rw [this]
    simp only [(address_iff pton w a).2 ha, checkPrefix_none, Option.map_some]
  · rw [cutLast_eq _ _ (slash_not_decimal n)]
    have : n < 2 ^ 63 := by cases a <;> simp only [Addr.width] at hn <;> omega
    simp only [(address_iff pton t a).2 ha, parsePrefix_decimal, if_pos this, checkPrefix_nat, if_pos hn,
      Option.map_some]

theorem emplace_bad {pton : Pton} {w : Str} (h : BadNetwork pton w) (hw : w ≠ [])
    (acl : List Elem) : emplace pton acl (trim w) = none := by
  obtain ⟨hb, h⟩ := h
  rw [trim_eq hb]
  unfold emplace
  rw [if_neg hw]
  rcases h with ⟨hs, ha⟩ | ⟨t, n, rfl, ha⟩
  · have : cutLast w = (w, none) := by simp [cutLast, hs]
    rw [this]
    cases h : address pton w with
    | none => simp
    | some a => exact absurd ((address_iff _ _ _).1 h) (ha a)
  · rw [cutLast_eq _ _ (slash_not_decimal n)]
    cases h : address pton t with
    | none => simp
    | some a =>
      have := ha a ((address_iff _ _ _).1 h)
      simp only [parsePrefix_decimal]
      by_cases h6 : n < 2 ^ 63
      · simp only [if_pos h6, checkPrefix_nat, if_neg (show ¬ n ≤ a.width by omega), Option.map_none]
      · simp only [if_neg h6]

theorem appendTokens_good (pton : Pton) : ∀ (ws : List Str) (acl : List Elem),
    (∀ w ∈ ws, w ≠ [] ∧ ∃ a n, IsNetwork pton w a n) →
    ∃ acl', appendTokens pton acl ws = some acl' ∧ acl'.length = acl.length + ws.length ∧
      ∀ x, test acl' x = true ↔ test acl x = true ∨ ∃ w ∈ ws, ∃ a n, IsNetwork pton w a n ∧ InNetwork a n x := by
  intro ws
  induction ws with
  | nil => intro acl _; exact ⟨acl, rfl, rfl, by simp⟩
  | cons w ws ih =>
    intro acl h
    obtain ⟨hw, a, n, hn⟩ := h w (by simp)
    obtain ⟨acl', h1, h2, h3⟩ := ih (create acl a n) (fun x hx => h x (by simp [hx]))
    refine ⟨acl', ?_, ?_, ?_⟩
    · rw [appendTokens, emplace_network hn hw]; exact h1
    · rw [h2]; simp [create]; omega
    · intro x
      rw [h3, create_match acl a x n hn.2.1]
      constructor
      · rintro ((h | h) | ⟨w', hw', a', n', h⟩)
        · exact Or.inr ⟨w, by simp, a, n, hn, h⟩
        · exact Or.inl h
        · exact Or.inr ⟨w', by simp [hw'], a', n', h⟩
      · clear h
        rintro (h | ⟨w', hw', a', n', h, h'⟩)
        · exact Or.inl (Or.inr h)
        · rcases List.mem_cons.1 hw' with rfl | hw'
          · have e1 := emplace_network hn hw []
            rw [emplace_network h hw []] at e1
            have e2 := Option.some.inj e1
            have t1 := (create_match [] a' x n' h.2.1).2 (Or.inl h')
            rw [e2] at t1
            rcases (create_match [] a x n hn.2.1).1 t1 with t | t
            · exact Or.inl (Or.inl t)
            · simp [test] at t
          · exact Or.inr ⟨w', hw', a', n', h, h'⟩

theorem appendTokens_bad (pton : Pton) : ∀ (ws : List Str) (acl : List Elem) (w : Str),
    w ∈ ws → w ≠ [] → BadNetwork pton w → appendTokens pton acl ws = none := by
  intro ws
  induction ws with
  | nil => intro acl w h; simp at h
  | cons v ws ih =>
    intro acl w h hw hb
    rw [appendTokens]
    rcases List.mem_cons.1 h with rfl | h
    · rw [emplace_bad hb hw]
    · split
      · rfl
      · exact ih _ w h hw hb

theorem aclWords_ne {s w : Str} (h : w ∈ aclWords s) : w ≠ [] := by
  unfold aclWords at h
  have := (List.mem_filter.1 h).2
  rintro rfl
  simp at this

/-- C37: with a list of networks, an address is let in exactly when it is of the same family as one of them
and agrees with it in all the bits that count; with no network, every address is. -/
theorem C37_allowed (pton : Pton) (conf : List Str) (x : Addr)
    (h : ∀ s ∈ conf, ∀ w ∈ aclWords s, ∃ a n, IsNetwork pton w a n) :
    allowed pton conf x = true ↔
      (∀ s ∈ conf, aclWords s = []) ∨
      ∃ s ∈ conf, ∃ w ∈ aclWords s, ∃ a n, IsNetwork pton w a n ∧ InNetwork a n x := by
  have key : ∀ (conf : List Str) (acl : List Elem), (∀ s ∈ conf, ∀ w ∈ aclWords s, ∃ a n, IsNetwork pton w a n) →
      ∃ acl', appendAll pton acl conf = some acl' ∧ (acl' = [] ↔ acl = [] ∧ ∀ s ∈ conf, aclWords s = []) ∧
        ∀ x, test acl' x = true ↔ test acl x = true ∨
          ∃ s ∈ conf, ∃ w ∈ aclWords s, ∃ a n, IsNetwork pton w a n ∧ InNetwork a n x := by
    intro conf
    induction conf with
    | nil => intro acl _; exact ⟨acl, rfl, by simp, by simp⟩
    | cons s conf ih =>
      intro acl h
      obtain ⟨m, h1, h2, h3⟩ := appendTokens_good pton (aclWords s) acl
        (fun w hw => ⟨aclWords_ne hw, h s (by simp) w hw⟩)
      obtain ⟨acl', g1, g2, g3⟩ := ih m (fun s hs => h s (by simp [hs]))
      refine ⟨acl', ?_, ?_, ?_⟩
      · rw [appendAll, append, tokens_eq, h1]; exact g1
      · rw [g2]
        have : m = [] ↔ acl = [] ∧ aclWords s = [] := by
          rw [← List.length_eq_zero_iff, h2, ← List.length_eq_zero_iff, ← List.length_eq_zero_iff]; omega
        rw [this]
        simp [and_assoc]
      · intro x
        rw [g3, h3]
        simp [or_assoc]
  obtain ⟨acl, h1, h2, h3⟩ := key conf [] h
  have h3 := h3 x
  unfold allowed
  rw [h1]
  simp only [test, Bool.false_eq_true, false_or, true_and] at h2 h3
  rw [← h2, ← h3]
  cases acl <;> simp

/-- C37: if one entry is not a network, nobody is let in. -/
theorem C37_bad_entry (pton : Pton) (conf : List Str) (x : Addr)
    (h : ∃ s ∈ conf, ∃ w ∈ aclWords s, BadNetwork pton w) : allowed pton conf x = false := by
  have key : ∀ (conf : List Str) (acl : List Elem), (∃ s ∈ conf, ∃ w ∈ aclWords s, BadNetwork pton w) →
      appendAll pton acl conf = none := by
    intro conf
    induction conf with
    | nil => rintro acl ⟨s, hs, _⟩; simp at hs
    | cons s conf ih =>
      rintro acl ⟨s', hs, w, hw, hb⟩
      rw [appendAll, append, tokens_eq]
      rcases List.mem_cons.1 hs with rfl | hs
      · rw [appendTokens_bad pton _ acl w hw (aclWords_ne hw) hb]
      · split
        · rfl
        · exact ih _ ⟨s', hs, w, hw, hb⟩
  unfold allowed
  rw [key conf [] h]

/-! ### Instances -/

/-- Some addresses. -/
def exPton : Pton where
  v4 := fun s => if s = bytes "10.1.0.0" then some 0x0A010000 else if s = bytes "10.9.9.9" then some 0x0A090909 else none
  v6 := fun s => if s = bytes "fe80::" then some (0xfe80#128 <<< 112) else none

example : aclWords (bytes "10.1.0.0/16, fe80::/65") = [bytes "10.1.0.0/16", bytes "fe80::/65"] := by decide

example : allowed exPton [bytes "10.1.0.0/16, fe80::/65"] (.v4 0x0A01FFFF) = true ∧
    allowed exPton [bytes "10.1.0.0/16, fe80::/65"] (.v4 0x0A020000) = false ∧
    allowed exPton [bytes "10.1.0.0/16, fe80::/65"] (.v6 ((0xfe80#128 <<< 112) + 7)) = true ∧
    allowed exPton [bytes "10.1.0.0/16, fe80::/65"] (.v6 ((0xfe80#128 <<< 112) + (1 <<< 63))) = false := by
  have h : tokens (bytes "10.1.0.0/16, fe80::/65") = [bytes "10.1.0.0/16", bytes "fe80::/65"] := by
    rw [tokens_eq]; decide
  simp only [allowed, appendAll, append, h]
  decide +kernel

theorem exNetwork : ∀ w ∈ aclWords (bytes "10.1.0.0/16, fe80::/65"), ∃ a n, IsNetwork exPton w a n := by
  have h : aclWords (bytes "10.1.0.0/16, fe80::/65") = [bytes "10.1.0.0/16", bytes "fe80::/65"] := by decide
  rw [h]
  intro w hw
  have d16 : decimal 16 = bytes "16" := by simp [decimal]; decide
  have d65 : decimal 65 = bytes "65" := by simp [decimal]; decide
  rcases List.mem_cons.1 hw with rfl | hw
  · exact ⟨.v4 0x0A010000, 16, by decide, by decide,
      Or.inr ⟨bytes "10.1.0.0", by rw [d16]; decide, by decide⟩⟩
  · rw [List.mem_singleton.1 hw]
    exact ⟨.v6 (0xfe80#128 <<< 112), 65, by decide, by decide,
      Or.inr ⟨bytes "fe80::", by rw [d65]; decide, by decide +kernel⟩⟩

example : BadNetwork exPton (bytes "10.1.0.0/33") := by
  refine ⟨?_, Or.inr ⟨bytes "10.1.0.0", 33, ?_, ?_⟩⟩
  · decide
  · simp [decimal]; decide
  · intro a ha
    cases a with
    | v4 a => show 32 < 33; decide
    | v6 a => exact absurd ha.1 (by decide)

/-- What follows the number is ignored, and `-1` stands for all bits. -/
example : parsePrefix (bytes "8x") = some 8 ∧ checkPrefix (.v4 0) (-1) = some 32 := by decide

end Verif
