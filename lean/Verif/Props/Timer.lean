import Verif.Spec.Timer
import Verif.Model.Timer
import Verif.Lemmas.Decimal

/-!
# C35: when a timed backup runs

The form of time bands and the units are in `Verif/Spec/Timer.lean`.
-/

namespace Verif
open Verif.Timer Verif.BackupNumber

/-! ### Text -/

theorem strstr_iff (h n : Str) : strstr h n = true ↔ n <:+: h := by
  induction h with
  | nil => simp [strstr]
  | cons c cs ih =>
    rw [strstr, Bool.or_eq_true, ih, List.isPrefixOf_iff_prefix, List.infix_cons_iff]

theorem infix_sep {n a b : Str} {sep : Byte} (hs : sep ∉ n) (h : n <:+: a ++ sep :: b) : n <:+: a ∨ n <:+: b := by
  obtain ⟨p, q, e⟩ := h
  rw [List.append_assoc, List.append_eq_append_iff] at e
  rcases e with ⟨x, e1, e2⟩ | ⟨x, e1, e2⟩
  · rw [List.append_eq_append_iff] at e2
    rcases e2 with ⟨y, e3, e4⟩ | ⟨y, e3, e4⟩
    · left; exact ⟨p, y, by rw [e1, e3]; simp⟩
    · cases y with
      | nil => left; exact ⟨p, [], by rw [e1]; simp at e3; rw [e3]; simp⟩
      | cons z y =>
        exfalso
        have : z = sep := by simpa using (congrArg List.head? e4).symm
        apply hs
        rw [e3, this]
        simp
  · cases x with
    | nil =>
      simp at e2
      cases n with
      | nil => left; exact List.nil_infix
      | cons z n =>
        exfalso
        have : sep = z := by simpa using congrArg List.head? e2
        exact hs (by simp [this])
    | cons z x =>
      right
      simp at e2
      exact ⟨x, q, by rw [e2.2]; simp⟩

theorem infix_commaJoin {n : Str} (hn : (44 : Byte) ∉ n) (hne : n ≠ []) : ∀ ts : List Str,
    n <:+: commaJoin ts ↔ ∃ t ∈ ts, n <:+: t
  | [] => by simp [commaJoin, hne]
  | [t] => by simp [commaJoin]
  | t :: u :: ts => by
    rw [commaJoin]
    · constructor
      · intro h
        rcases infix_sep hn h with h | h
        · exact ⟨t, by simp, h⟩
        · obtain ⟨t', ht, h⟩ := (infix_commaJoin hn hne (u :: ts)).1 h
          exact ⟨t', by simp at ht ⊢; exact Or.inr ht, h⟩
      · rintro ⟨t', ht, h⟩
        rcases List.mem_cons.1 ht with rfl | ht
        · exact h.trans ⟨[], 44 :: commaJoin (u :: ts), by simp⟩
        · have := (infix_commaJoin hn hne (u :: ts)).2 ⟨t', ht, h⟩
          exact this.trans ⟨t ++ [44], [], by simp⟩
    · simp

theorem lower_eq (c : Byte) : Auth.toLower c = lower c := rfl

theorem map_commaJoin (ts : List Str) : (commaJoin ts).map lower = commaJoin (ts.map (fun t => t.map lower)) := by
  induction ts with
  | nil => rfl
  | cons t ts ih =>
    cases ts with
    | nil => rfl
    | cons u ts =>
      have e1 : commaJoin (t :: u :: ts) = t ++ 44 :: commaJoin (u :: ts) := rfl
      have e2 : commaJoin ((t :: u :: ts).map (fun t => t.map lower)) =
          t.map lower ++ 44 :: commaJoin ((u :: ts).map (fun t => t.map lower)) := rfl
      rw [e1, e2, ← ih]
      simp [lower]

theorem lower_letter {c : Byte} (h : IsLetter c) : 97 ≤ (lower c).toNat ∧ (lower c).toNat ≤ 122 := by
  unfold IsLetter at h
  unfold lower
  split
  · rw [UInt8.toNat_add]
    simp
    omega
  · omega

theorem lower_digit {c : Byte} (h : IsDigit c) : lower c = c := by
  unfold IsDigit at h
  unfold lower
  rw [if_neg (by omega)]

theorem infix_same_length {a b : Str} (h : a <:+: b) (hl : b.length = a.length) : a = b :=
  h.eq_of_length hl.symm

theorem day_in (d : Str) (hd : DayName d) (t : Str) (ht : DayName t ∨ HourName t) :
    d.map lower <:+: t.map lower ↔ SameName d t := by
  constructor
  · intro h
    rcases ht with ht | ht
    · exact infix_same_length h (by simp [hd.1, ht.1])
    · have := h.length_le
      simp [hd.1, ht.1] at this
  · intro h
    unfold SameName at h
    rw [h]
    exact List.infix_refl _

theorem hour_in (d : Str) (hd : HourName d) (t : Str) (ht : DayName t ∨ HourName t) :
    d.map lower <:+: t.map lower ↔ SameName d t := by
  constructor
  · intro h
    rcases ht with ht | ht
    · exfalso
      obtain ⟨c, cs, rfl⟩ : ∃ c cs, d = c :: cs := by
        cases d with
        | nil => simp [HourName] at hd
        | cons c cs => exact ⟨c, cs, rfl⟩
      have hm : lower c ∈ t.map lower := h.subset (by simp)
      rw [List.mem_map] at hm
      obtain ⟨x, hx, e⟩ := hm
      have h1 := lower_letter (ht.2 x hx)
      have h2 := hd.2 c (by simp)
      rw [e, lower_digit h2] at h1
      unfold IsDigit at h2
      omega
    · exact infix_same_length h (by simp [hd.1, ht.1])
  · intro h
    unfold SameName at h
    rw [h]
    exact List.infix_refl _

theorem not_comma_map {d : Str} (h : DayName d ∨ HourName d) : (44 : Byte) ∉ d.map lower ∧ d.map lower ≠ [] := by
  constructor
  · intro hm
    rw [List.mem_map] at hm
    obtain ⟨x, hx, e⟩ := hm
    rcases h with h | h
    · have := lower_letter (h.2 x hx)
      rw [e] at this
      simp at this
    · have h2 := h.2 x hx
      rw [lower_digit h2] at e
      subst e
      simp [IsDigit] at h2
  · intro e
    have := congrArg List.length e
    rcases h with h | h <;> simp [h.1] at this

/-- C35: a time band of days and hours contains a day and an hour exactly if both are written in it, in any
order and without regard to case. -/
theorem C35_time_band (day hour : Str) (hd : DayName day) (hh : HourName hour) (ts : List Str)
    (ht : ∀ t ∈ ts, DayName t ∨ HourName t) :
    inTimeband day hour (commaJoin ts) = true ↔ (∃ t ∈ ts, SameName day t) ∧ (∃ t ∈ ts, SameName hour t) := by
  have e1 : strtolower (commaJoin ts) = commaJoin (ts.map (fun t => t.map lower)) := map_commaJoin ts
  have key : ∀ d : Str, (DayName d ∨ HourName d) →
      (strstr (strtolower (commaJoin ts)) (strtolower d) = true ↔ ∃ t ∈ ts, SameName d t) := by
    intro d hd'
    rw [strstr_iff, e1]
    obtain ⟨h1, h2⟩ := not_comma_map hd'
    change d.map lower <:+: _ ↔ _
    rw [infix_commaJoin h1 h2]
    constructor
    · rintro ⟨t, htm, h⟩
      rw [List.mem_map] at htm
      obtain ⟨t', ht', rfl⟩ := htm
      refine ⟨t', ht', ?_⟩
      rcases hd' with hd' | hd'
      · exact (day_in d hd' t' (ht t' ht')).1 h
      · exact (hour_in d hd' t' (ht t' ht')).1 h
    · rintro ⟨t', ht', h⟩
      refine ⟨_, List.mem_map_of_mem ht', ?_⟩
      rcases hd' with hd' | hd'
      · exact (day_in d hd' t' (ht t' ht')).2 h
      · exact (hour_in d hd' t' (ht t' ht')).2 h
  have na : strtolower (commaJoin ts) ≠ bytes "always" := by
    rw [e1]
    intro e
    have e' : commaJoin (ts.map (fun t => t.map lower)) = [97, 108, 119, 97, 121, 115] := e
    cases ts with
    | nil => simp [commaJoin] at e'
    | cons t ts =>
      have hl : t.length ≤ 3 := by rcases ht t (by simp) with h | h <;> rw [h.1] <;> decide
      cases ts with
      | nil =>
        simp only [List.map_cons, List.map_nil, commaJoin] at e'
        have := congrArg List.length e'
        simp at this
        omega
      | cons u us =>
        have hc : (44 : Byte) ∈ commaJoin (List.map (fun t => t.map lower) (t :: u :: us)) := by
          rw [List.map_cons, List.map_cons, commaJoin]
          · simp
          · simp
        rw [e'] at hc
        revert hc
        decide
  unfold inTimeband
  rw [Bool.or_eq_true, Bool.and_eq_true, key day (Or.inl hd), key hour (Or.inr hh)]
  simp [na]

/-- C35: the band `always` contains everything. -/
theorem C35_always (day hour tb : Str) (h : SameName tb (bytes "always")) : inTimeband day hour tb = true := by
  have : strtolower tb = bytes "always" := by
    unfold SameName at h
    have e : (bytes "always").map lower = bytes "always" := by decide
    rw [e] at h
    exact h
  simp [inTimeband, this]

/-- C35: an interval such as `20h` is so many units of time; what follows the unit is ignored. -/
theorem C35_interval (n : Nat) (u : Byte) (k : Nat) (rest : Str) (hn : n < 2 ^ 31) (hu : secondsIn u = some k) :
    getInterval (decimal n ++ u :: rest) = .seconds (n * k) := by
  obtain ⟨hd, hne⟩ := decimal_digits n
  have hu2 : isDigit u = false ∧ unitSeconds u = some (k : Int) := by
    unfold secondsIn at hu
    split at hu <;> first | cases hu | skip
    all_goals exact ⟨by decide, by rfl⟩
  obtain ⟨c, cs, e⟩ : ∃ c cs, decimal n = c :: cs := by
    cases h : decimal n with
    | nil => exact absurd h hne
    | cons c cs => exact ⟨c, cs, rfl⟩
  have hc : isDigit c = true := hd c (by rw [e]; simp)
  have hsp : isSpace c = false := by
    unfold isDigit at hc
    unfold isSpace
    simp at hc ⊢
    refine ⟨?_, by omega⟩
    rintro rfl
    simp at hc
  have hsg : c ≠ 45 ∧ c ≠ 43 := by
    constructor <;> (rintro rfl; revert hc; decide)
  have hdw : (decimal n ++ u :: rest).dropWhile isSpace = decimal n ++ u :: rest := by
    rw [e, List.cons_append, List.dropWhile_cons_of_neg (by simp [hsp])]
  have hh : (decimal n ++ u :: rest).head? = some c := by rw [e]; rfl
  obtain ⟨ht, hdr⟩ := takeWhile_app (p := isDigit) hd hu2.1 rest
  have hs : scan (decimal n ++ u :: rest) = some ((n : Int), u) := by
    unfold scan
    simp only [hdw, hh, Option.some.injEq, hsg.1, hsg.2, decide_false, Bool.or_self, Bool.false_eq_true, if_false, ht, hdr]
    rw [if_neg (by simpa using hne), decValue_decimal]
  unfold getInterval
  rw [hs]
  simp only
  rw [if_neg (by omega), hu2.2]

/-- C35: a timed backup runs exactly when it has been asked for by the file, or when the time is in one of
the bands and there is no backup yet, or the interval has passed since the last one. -/
theorem C35_run_iff (i : Input) : runTimer i = .run ↔
    i.manual = true ∨
    ∃ interval bands, i.args = interval :: bands ∧ (∃ tb ∈ bands, inTimeband i.day i.hour tb = true) ∧
      (i.hasCurrent = false ∨
        ∃ n : Nat, getInterval interval = .seconds n ∧ ∀ t, i.last = some t → t + n < i.now) := by
  have bandsIff : ∀ bands : List Str, checkTimebands i.day i.hour bands = true ↔
      ∃ tb ∈ bands, inTimeband i.day i.hour tb = true := by
    intro bands
    induction bands with
    | nil => simp [checkTimebands]
    | cons b bs ih => simp [checkTimebands, ih]
  unfold runTimer
  by_cases hm : i.manual
  · simp [hm]
  · simp only [hm, Bool.false_eq_true, if_false, false_or]
    cases ha : i.args with
    | nil => simp
    | cons interval bands =>
      simp only [List.cons.injEq, ← bandsIff]
      by_cases hb : checkTimebands i.day i.hour bands = true
      · simp only [hb, Bool.not_true, Bool.false_eq_true, if_false]
        by_cases hc : i.hasCurrent
        · simp only [hc, Bool.not_true, Bool.false_eq_true, if_false]
          constructor
          · intro h
            refine ⟨interval, bands, ⟨rfl, rfl⟩, hb, Or.inr ?_⟩
            unfold checkInterval at h
            split at h
            · cases h
            · cases h
            · rename_i n hn
              split at h
              · cases h
              · rename_i hpos
                refine ⟨n.toNat, by rw [hn]; congr 1; omega, ?_⟩
                intro t ht
                rw [ht] at h
                simp only at h
                split at h
                · omega
                · cases h
          · rintro ⟨i', b', ⟨rfl, rfl⟩, _, h | ⟨n, hn, ht⟩⟩
            · cases h
            · unfold checkInterval
              rw [hn]
              simp only
              rw [if_neg (by omega)]
              cases hl : i.last with
              | none => rfl
              | some t => simp only; rw [if_pos (ht t hl)]
        · simp only [hc, Bool.not_false, if_true, true_iff]
          exact ⟨interval, bands, ⟨rfl, rfl⟩, hb, Or.inl trivial⟩
      · simp only [hb, Bool.not_false, if_true]
        constructor
        · intro h; cases h
        · rintro ⟨i', b', ⟨rfl, rfl⟩, h, _⟩
          exact absurd h hb

/-- Cases: the default configuration, on a Monday at 19 and at 12, and without time bands. -/
def exTimer (args : List Str) (hour : Str) (last : Option Int) : Input :=
  ⟨false, args, bytes "Mon", hour, 100000, true, last⟩

def exBand : List Str :=
  [bytes "Mon", bytes "Tue", bytes "00", bytes "01", bytes "19"]

example : (∀ t ∈ exBand, DayName t ∨ HourName t) ∧ DayName (bytes "Mon") ∧ HourName (bytes "19") := by decide

example :
    runTimer (exTimer [bytes "20h", commaJoin exBand] (bytes "19") (some 27999)) = .run ∧
    runTimer (exTimer [bytes "20h", commaJoin exBand] (bytes "19") (some 28000)) = .wait ∧
    runTimer (exTimer [bytes "20h", commaJoin exBand] (bytes "12") (some 0)) = .wait ∧
    runTimer (exTimer [bytes "20h"] (bytes "19") (some 0)) = .wait ∧
    runTimer (exTimer [bytes "20x", commaJoin exBand] (bytes "19") (some 0)) = .error ∧
    runTimer { exTimer [bytes "20h"] (bytes "12") (some 28000) with manual := true } = .run := by
  decide +kernel

end Verif
