import Verif.Model.ConfLine
import Verif.Lemmas.Decimal

/-!
# C52 and C60: lines of a configuration file
-/

namespace Verif
open Verif.ConfLine Verif.BackupNumber Verif.Timer

/-! ### Values -/

/-- A value as one writes it between quotes: a backslash before each quote and each backslash. -/
def escapeFor (quote : Byte) (v : Str) : Str :=
  v.flatMap (fun c => if c = quote ∨ c = 92 then [92, c] else [c])

/-- Only white space. -/
def Blank (s : Str) : Prop := ∀ c ∈ s, isSpace c = true

/-- The name of a setting. -/
def GoodField (f : Str) : Prop :=
  f ≠ [] ∧ (∀ c, f.head? = some c → isSpace c = false ∧ c ≠ 35) ∧
    (∀ c, f.getLast? = some c → isSpace c = false ∧ c ≠ 58) ∧ (61 : Byte) ∉ f

theorem quoteLoop_escape (quote : Byte) (hq : quote ≠ 92) (v dp trailer : Str) :
    quoteLoop quote false dp (escapeFor quote v ++ quote :: trailer) = .removed (dp.reverse ++ v) := by
  induction v generalizing dp with
  | nil => simp [escapeFor, quoteLoop]
  | cons c v ih =>
    have e : escapeFor quote (c :: v) = (if c = quote ∨ c = 92 then [92, c] else [c]) ++ escapeFor quote v := by
      simp [escapeFor]
    rw [e]
    split
    · have : [92, c] ++ escapeFor quote v ++ quote :: trailer = 92 :: c :: (escapeFor quote v ++ quote :: trailer) := by
        simp
      rw [this, quoteLoop, if_neg (Ne.symm hq), if_pos rfl, quoteLoop, ih]
      simp
    · rename_i h
      rw [not_or] at h
      rw [List.cons_append, List.nil_append, List.cons_append, quoteLoop, if_neg h.1, if_neg h.2, ih]
      simp

theorem dropWhile_blank {s r : Str} (h : Blank s) : (s ++ r).dropWhile isSpace = r.dropWhile isSpace := by
  induction s with
  | nil => rfl
  | cons c s ih =>
    rw [List.cons_append, List.dropWhile_cons, if_pos (h c (by simp))]
    exact ih (fun x hx => h x (by simp [hx]))

theorem getPair_split {lead f mid rest : Str} (hlead : Blank lead) (hf : GoodField f)
    (hmid : ∀ c ∈ mid, isSpaceColon c = true) :
    getPair (lead ++ f ++ mid ++ [61] ++ rest) =
      match unquote (stripEnd (rest.dropWhile isSpace)) with
      | .removed v => if v = [] then .error else .pair f v (mid.contains 58)
      | _ => .undefined := by
  obtain ⟨hf0, hf1, hf2, hf3⟩ := hf
  have h61 : (61 : Byte) ∉ f ++ mid := by
    intro h
    rcases List.mem_append.1 h with h | h
    · exact hf3 h
    · exact absurd (hmid _ h) (by decide)
  cases f with
  | nil => exact absurd rfl hf0
  | cons c cs =>
    obtain ⟨hc1, hc2⟩ := hf1 c rfl
    have e1 : (lead ++ (c :: cs) ++ mid ++ [61] ++ rest).dropWhile isSpace = c :: (cs ++ mid ++ [61] ++ rest) := by
      have : lead ++ (c :: cs) ++ mid ++ [61] ++ rest = lead ++ (c :: (cs ++ mid ++ [61] ++ rest)) := by simp
      rw [this, dropWhile_blank hlead, List.dropWhile_cons, if_neg (by simp [hc1])]
    have e2 : c :: (cs ++ mid ++ [61] ++ rest) = ((c :: cs) ++ mid) ++ 61 :: rest := by simp
    obtain ⟨e3, e4⟩ := takeWhile_app (p := fun x : Byte => decide (x ≠ 61)) (a := (c :: cs) ++ mid) (x := 61)
      (fun x hx => by simp; intro h; exact h61 (h ▸ hx)) (by decide) rest
    obtain ⟨l, fl, hfl⟩ : ∃ l fl, c :: cs = fl ++ [l] :=
      ⟨(c :: cs).getLast (by simp), (c :: cs).dropLast, (List.dropLast_concat_getLast (by simp)).symm⟩
    have hl := hf2 l (by rw [hfl]; simp)
    have hlc : isSpaceColon l = false := by simp [isSpaceColon, hl.1, hl.2]
    have hrev : ((c :: cs) ++ mid).reverse = mid.reverse ++ l :: fl.reverse := by rw [hfl]; simp
    obtain ⟨e5, e6⟩ := takeWhile_app (p := isSpaceColon) (a := mid.reverse) (x := l)
      (fun x hx => hmid x (by simpa using hx)) hlc fl.reverse
    have e7 : fieldOf ((c :: cs) ++ mid) = some (c :: cs, mid.contains 58) := by
      unfold fieldOf
      rw [if_neg]
      · rw [hrev, e5, e6]
        simp [hfl]
      · intro h
        rw [List.all_eq_true] at h
        have := h l (by rw [hfl]; simp)
        rw [hlc] at this
        exact absurd this (by simp)
    unfold getPair
    rw [e1]
    simp only [e2]
    rw [if_neg hc2, if_neg (by simp), e3, e4, e7]
    rfl

theorem stripEnd_keep (s : Str) (c : Byte) (hc : isSpace c = false) (r : Str) :
    ∃ r', stripEnd (s ++ c :: r) = s ++ c :: r' := by
  unfold stripEnd
  have : (s ++ c :: r).reverse = r.reverse ++ ([c] ++ s.reverse) := by simp
  rw [this]
  have key : ∀ x : Str, ∃ y, (x ++ ([c] ++ s.reverse)).dropWhile isSpace = y ++ ([c] ++ s.reverse) := by
    intro x
    induction x with
    | nil => exact ⟨[], by simp [hc]⟩
    | cons a x ih =>
      rw [List.cons_append, List.dropWhile_cons]
      split
      · exact ih
      · exact ⟨a :: x, rfl⟩
  obtain ⟨y, hy⟩ := key r.reverse
  rw [hy]
  exact ⟨y.reverse, by simp⟩

/-- C52: a value that is written between quotes is read back as it is, whatever it contains, and white
space around it and whatever follows the closing quote do not matter. Only the empty value is refused. -/
theorem C52_quoted (lead f mid pre v trailer : Str) (quote : Byte) (hq : quote = 39 ∨ quote = 34)
    (hlead : Blank lead) (hf : GoodField f) (hmid : Blank mid) (hpre : Blank pre) :
    getPair (lead ++ f ++ mid ++ [61] ++ (pre ++ [quote] ++ escapeFor quote v ++ [quote] ++ trailer)) =
      if v = [] then .error else .pair f v false := by
  have hmid' : ∀ c ∈ mid, isSpaceColon c = true := fun c hc => by simp [isSpaceColon, hmid c hc]
  rw [getPair_split hlead hf hmid']
  have hqs : isSpace quote = false ∧ quote ≠ 92 := by rcases hq with rfl | rfl <;> decide
  have e1 : (pre ++ [quote] ++ escapeFor quote v ++ [quote] ++ trailer).dropWhile isSpace =
      (quote :: escapeFor quote v) ++ quote :: trailer := by
    have : pre ++ [quote] ++ escapeFor quote v ++ [quote] ++ trailer =
        pre ++ ((quote :: escapeFor quote v) ++ quote :: trailer) := by simp
    rw [this, dropWhile_blank hpre, List.cons_append, List.dropWhile_cons, if_neg (by simp [hqs.1])]
  obtain ⟨r', e2⟩ := stripEnd_keep (quote :: escapeFor quote v) quote hqs.1 trailer
  have e3 : unquote ((quote :: escapeFor quote v) ++ quote :: r') = .removed v := by
    have hl := quoteLoop_escape quote hqs.2 v [] r'
    rw [List.reverse_nil, List.nil_append] at hl
    unfold unquote
    rcases hq with rfl | rfl
    · rw [List.cons_append, removeQuotes, if_neg (by simp), hl]
    · rw [List.cons_append, removeQuotes, if_pos (by decide), removeQuotes, if_neg (by simp), hl]
  have e4 : mid.contains 58 = false := by
    rw [List.contains_eq_mem, decide_eq_false_iff_not]
    intro h
    exact absurd (hmid _ h) (by decide)
  rw [e1, e2, e3, e4]

/-- C52: a value without quotes is read as it is, without the white space around it. -/
theorem C52_unquoted (lead f mid pre v trailer : Str)
    (hlead : Blank lead) (hf : GoodField f) (hmid : Blank mid) (hpre : Blank pre) (ht : Blank trailer)
    (hv : ∃ a m b, v = a :: m ∧ v.getLast? = some b ∧ isSpace a = false ∧ isSpace b = false ∧ a ≠ 39 ∧ a ≠ 34) :
    getPair (lead ++ f ++ mid ++ [61] ++ (pre ++ v ++ trailer)) = .pair f v false := by
  have hmid' : ∀ c ∈ mid, isSpaceColon c = true := fun c hc => by simp [isSpaceColon, hmid c hc]
  rw [getPair_split hlead hf hmid']
  obtain ⟨a, m, b, rfl, hb, ha1, hb1, ha2, ha3⟩ := hv
  have e1 : (pre ++ (a :: m) ++ trailer).dropWhile isSpace = (a :: m) ++ trailer := by
    rw [List.append_assoc, dropWhile_blank hpre, List.cons_append, List.dropWhile_cons, if_neg (by simp [ha1])]
  have e2 : stripEnd ((a :: m) ++ trailer) = a :: m := by
    unfold stripEnd
    rw [List.reverse_append, dropWhile_blank (s := trailer.reverse) (fun c hc => ht c (by simpa using hc))]
    have : (a :: m).reverse.dropWhile isSpace = (a :: m).reverse := by
      have hh : (a :: m).reverse.head? = some b := by rw [List.head?_reverse]; exact hb
      cases hr : (a :: m).reverse with
      | nil => simp at hr
      | cons x xs =>
        rw [hr] at hh
        simp at hh
        rw [List.dropWhile_cons, if_neg (by simp [hh, hb1])]
    rw [this, List.reverse_reverse]
  have e3 : unquote (a :: m) = .removed (a :: m) := by
    simp [unquote, removeQuotes, ha2, ha3]
  have e4 : mid.contains 58 = false := by
    rw [List.contains_eq_mem, decide_eq_false_iff_not]
    intro h
    exact absurd (hmid _ h) (by decide)
  rw [e1, e2, e3, e4]
  simp

/-- C52: a colon before the equals sign, with or without white space, is the mark for starting a list
afresh, and is not part of the name. -/
theorem C52_reset (lead f mid rest : Str) (hlead : Blank lead) (hf : GoodField f)
    (hmid : ∀ c ∈ mid, isSpace c = true ∨ c = 58) (h58 : (58 : Byte) ∈ mid) {f' v : Str} {r : Bool}
    (h : getPair (lead ++ f ++ mid ++ [61] ++ rest) = .pair f' v r) : f' = f ∧ r = true := by
  rw [getPair_split hlead hf (fun c hc => by simpa [isSpaceColon] using hmid c hc)] at h
  split at h
  · split at h
    · cases h
    · simp only [Pair.pair.injEq] at h
      exact ⟨h.1.symm, by rw [← h.2.2]; simpa using h58⟩
  · cases h

/-- C52: empty lines and comments are passed over. -/
theorem C52_blank (lead rest : Str) (hlead : Blank lead) :
    getPair lead = .blank ∧ getPair (lead ++ 35 :: rest) = .blank := by
  constructor
  · have := dropWhile_blank (r := []) hlead
    rw [List.append_nil] at this
    simp [getPair, this]
  · unfold getPair
    rw [dropWhile_blank hlead]
    simp [isSpace]

example : GoodField (bytes "exclude_regex") ∧ Blank (bytes "  ") ∧
    getPair (bytes " exclude_regex = \"a\\\\b\\\"c\"  # swap file") = .pair (bytes "exclude_regex") (bytes "a\\b\"c") false ∧
    getPair (bytes "include : = /home ") = .pair (bytes "include") (bytes "/home") true := by
  refine ⟨⟨by decide, ?_, ?_, by decide⟩, by unfold Blank; decide, by decide, by decide⟩
  · intro c hc; obtain rfl : (101 : Byte) = c := Option.some.inj hc; decide
  · intro c hc; obtain rfl : (120 : Byte) = c := Option.some.inj hc; decide

/-- C52: any other line without an equals sign is an error. -/
theorem C52_no_equals (lead rest : Str) (c : Byte) (hlead : Blank lead) (hc : isSpace c = false) (h35 : c ≠ 35)
    (h61 : (61 : Byte) ∉ c :: rest) : getPair (lead ++ c :: rest) = .error := by
  unfold getPair
  rw [dropWhile_blank hlead, List.dropWhile_cons, if_neg (by simp [hc])]
  simp only [h35, if_false]
  rw [if_pos (by simpa using h61)]

example : getPair (bytes " include /home") = .error := by decide

/-- The code looks outside of the line in two cases: when there is nothing but colons and white space before
the equals sign, and when the text after an opening quote ends with a backslash. -/
theorem C52_outside_violated :
    getPair (bytes "= /home") = .undefined ∧ getPair (bytes "include = \"C:\\") = .undefined := by decide

/-! ### Sizes -/

/-- The factor that a suffix stands for. -/
def sizeUnit : Str → Option Nat
  | [] => some 1
  | c :: _ =>
    if c = 98 then some 1
    else if c = 107 ∨ c = 75 then some 1024
    else if c = 109 ∨ c = 77 then some (1024 * 1024)
    else if c = 103 ∨ c = 71 then some (1024 * 1024 * 1024)
    else none

theorem digit_not_space {c : Byte} (h : isDigit c = true) : isSpace c = false := by
  unfold isDigit at h
  unfold isSpace
  simp only [Bool.and_eq_true, decide_eq_true_eq] at h
  simp only [Bool.or_eq_false_iff, decide_eq_false_iff_not, Bool.and_eq_false_iff]
  refine ⟨?_, Or.inr (by omega)⟩
  rintro rfl
  have : (32 : Byte).toNat = 32 := rfl
  omega

theorem decValue_stop (acc : Nat) (a r : Str) (ha : ∀ c ∈ a, isDigit c = true)
    (hr : ∀ c, r.head? = some c → isDigit c = false) : decValue acc (a ++ r) = decValue acc a := by
  rw [decValue_append _ _ _ ha]
  cases r with
  | nil => rfl
  | cons c r => rw [decValue, if_neg (by simp [hr c rfl])]

theorem toLower_eq (c : Byte) (k : Byte) (hk : 97 ≤ k.toNat ∧ k.toNat ≤ 122) :
    Auth.toLower c = k ↔ c = k ∨ c = k - 32 := by
  unfold Auth.toLower
  split
  · rename_i h
    constructor
    · intro e
      right
      rw [← e]
      simp
    · rintro (rfl | rfl)
      · omega
      · simp
  · rename_i h
    constructor
    · exact Or.inl
    · rintro (rfl | rfl)
      · rfl
      · exfalso
        apply h
        have : (k - 32).toNat = k.toNat - 32 := by
          rw [UInt8.toNat_sub_of_le]
          · rfl
          · rw [UInt8.le_iff_toNat_le]
            have : (32 : Byte).toNat = 32 := rfl
            omega
        omega

theorem number_eq (lead gap suffix : Str) (n : Nat) (hlead : Blank lead) (hgap : Blank gap)
    (hs : ∀ c, suffix.head? = some c → isSpace c = false ∧ isDigit c = false) :
    number (lead ++ decimal n ++ gap ++ suffix) = min n (2 ^ 64 - 1) ∧
    (lead ++ decimal n ++ gap ++ suffix).dropWhile (fun c => isSpace c || isDigit c) = suffix := by
  obtain ⟨d1, d2⟩ := decimal_digits n
  constructor
  · unfold number strtoul
    rw [List.append_assoc, List.append_assoc, dropWhile_blank hlead]
    have : (decimal n ++ (gap ++ suffix)).dropWhile isSpace = decimal n ++ (gap ++ suffix) := by
      cases hd : decimal n with
      | nil => exact absurd hd d2
      | cons x xs =>
        have := digit_not_space (d1 x (by rw [hd]; simp))
        rw [List.cons_append, List.dropWhile_cons, if_neg (by simp [this])]
    rw [this, decValue_stop _ _ _ d1, decValue_decimal]
    intro c hc
    cases gap with
    | nil => exact (hs c (by simpa using hc)).2
    | cons g gap =>
      simp at hc
      subst hc
      have h1 := hgap g (by simp)
      cases h2 : isDigit g with
      | false => rfl
      | true => rw [digit_not_space h2] at h1; exact absurd h1 (by simp)
  · have key : ∀ a : Str, (∀ c ∈ a, (isSpace c || isDigit c) = true) →
        (a ++ suffix).dropWhile (fun c => isSpace c || isDigit c) = suffix := by
      intro a ha
      induction a with
      | nil =>
        rw [List.nil_append]
        cases suffix with
        | nil => rfl
        | cons c r =>
          obtain ⟨h1, h2⟩ := hs c rfl
          rw [List.dropWhile_cons, if_neg (by simp [h1, h2])]
      | cons x a ih =>
        rw [List.cons_append, List.dropWhile_cons, if_pos (ha x (by simp))]
        exact ih (fun c hc => ha c (by simp [hc]))
    apply key
    intro c hc
    rw [List.mem_append, List.mem_append] at hc
    rcases hc with (hc | hc) | hc
    · simp [hlead c hc]
    · simp [d1 c hc]
    · simp [hgap c hc]

theorem getFileSize_eq (lead gap suffix : Str) (n : Nat) (hlead : Blank lead) (hgap : Blank gap)
    (hs : ∀ c, suffix.head? = some c → isSpace c = false ∧ isDigit c = false) :
    getFileSize (lead ++ decimal n ++ gap ++ suffix) =
      (sizeUnit suffix).map (fun u => min n (2 ^ 64 - 1) * u % 2 ^ 64) := by
  obtain ⟨h1, h2⟩ := number_eq lead gap suffix n hlead hgap hs
  unfold getFileSize
  rw [h2, h1]
  cases suffix with
  | nil => simp only [sizeUnit, Option.map_some, Option.some.injEq]; omega
  | cons c r =>
    simp only [sizeUnit]
    rw [show ((107 : Byte) = 107) from rfl] at *
    have k1 := toLower_eq c 107 (by decide)
    have k2 := toLower_eq c 109 (by decide)
    have k3 := toLower_eq c 103 (by decide)
    have e1 : (107 : Byte) - 32 = 75 := by decide
    have e2 : (109 : Byte) - 32 = 77 := by decide
    have e3 : (103 : Byte) - 32 = 71 := by decide
    rw [e1] at k1
    rw [e2] at k2
    rw [e3] at k3
    by_cases c1 : c = 98
    · subst c1
      simp only [if_true, Option.map_some]
      rw [if_neg (by decide), if_neg (by decide), if_neg (by decide), Option.some.injEq]
      omega
    · simp only [if_neg c1]
      by_cases c2 : c = 107 ∨ c = 75
      · rw [if_pos (k1.2 c2), if_pos c2]; rfl
      · rw [if_neg (fun h => c2 (k1.1 h)), if_neg c2]
        by_cases c3 : c = 109 ∨ c = 77
        · rw [if_pos (k2.2 c3), if_pos c3]; rfl
        · rw [if_neg (fun h => c3 (k2.1 h)), if_neg c3]
          by_cases c4 : c = 103 ∨ c = 71
          · rw [if_pos (k3.2 c4), if_pos c4]; rfl
          · rw [if_neg (fun h => c4 (k3.1 h)), if_neg c4]; rfl

/-- C60, as far as it goes: a number with a suffix is the number of bytes that it says, if that is below
2^64. White space before the number and before the suffix does not matter, nor does what follows the first
letter of the suffix. -/
theorem C60_size_partial (lead gap suffix : Str) (n u : Nat) (hlead : Blank lead) (hgap : Blank gap)
    (hs : ∀ c, suffix.head? = some c → isSpace c = false ∧ isDigit c = false)
    (hu : sizeUnit suffix = some u) (hn : n * u < 2 ^ 64) :
    getFileSize (lead ++ decimal n ++ gap ++ suffix) = some (n * u) := by
  rw [getFileSize_eq lead gap suffix n hlead hgap hs, hu, Option.map_some, Option.some.injEq]
  have hu1 : 1 ≤ u := by
    unfold sizeUnit at hu
    split at hu
    · cases hu; omega
    · repeat' split at hu
      all_goals first | (cases hu; done) | (cases hu; omega)
  have : n ≤ n * u := Nat.le_mul_of_pos_right n hu1
  rw [Nat.min_eq_left (by omega), Nat.mod_eq_of_lt hn]

/-- C60: any other suffix is an error. -/
theorem C60_unknown_suffix (lead gap suffix : Str) (n : Nat) (hlead : Blank lead) (hgap : Blank gap)
    (hs : ∀ c, suffix.head? = some c → isSpace c = false ∧ isDigit c = false)
    (hu : sizeUnit suffix = none) : getFileSize (lead ++ decimal n ++ gap ++ suffix) = none := by
  rw [getFileSize_eq lead gap suffix n hlead hgap hs, hu]
  rfl

example : sizeUnit (bytes "Mb") = some (1024 * 1024) ∧ getFileSize (bytes " 10 Mb") = some 10485760 ∧
    getFileSize (bytes "10B") = none := by decide

/-- C60 does not hold for sizes from 2^64 on: these 2^34 gigabytes come out as 0, which is no limit at
all. -/
theorem C60_overflow_violated : getFileSize (bytes "17179869184Gb") = some 0 := by decide +kernel

end Verif
