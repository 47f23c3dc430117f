import Verif.Model.Version
import Verif.Props.CntrStr

/-!
# C71: comparing versions
-/

namespace Verif
open Verif.Version Verif.BackupNumber Verif.Cntr

namespace Version

theorem dotTokens_word (w cur r : Str) (hw : dot ∉ w) :
    dotTokens cur (w ++ r) = dotTokens (cur ++ w) r := by
  induction w generalizing cur with
  | nil => simp
  | cons c w ih =>
    simp only [List.mem_cons, not_or] at hw
    rw [List.cons_append, dotTokens, if_neg (Ne.symm hw.1), ih _ hw.2]
    simp

theorem dotTokens_sep (cur r : Str) (h : cur ≠ []) : dotTokens cur (dot :: r) = cur :: dotTokens [] r := by
  rw [dotTokens, if_pos rfl, if_neg h]

/-- What may follow the number: nothing, or something that does not go on with it. -/
theorem decValue_stop (n : Nat) (r : Str) (h : ∀ c, r.head? = some c → isDigit c = false) :
    decValue 0 (decimal n ++ r) = n := by
  rw [decValue_append _ _ _ (decimal_digits n).1, decValue_decimal]
  cases r with
  | nil => rfl
  | cons c r => rw [decValue, if_neg (by simp [h c rfl])]

theorem atoi_stop (n : Nat) (r : Str) (h : ∀ c, r.head? = some c → isDigit c = false) :
    atoi (decimal n ++ r) = n := by
  obtain ⟨c, t, e, hc⟩ := decimal_cons n
  obtain ⟨-, -, -, -, h1, h2, h3⟩ := isDigit_plain hc
  have hd : (decimal n ++ r).dropWhile isSpace = decimal n ++ r := by
    rw [e, List.cons_append, List.dropWhile_cons]
    simp [h1]
  unfold atoi
  rw [hd]
  split
  · rename_i r' e'
    rw [e] at e'
    exact absurd (List.cons.inj e').1 h2
  · rename_i r' e'
    rw [e] at e'
    exact absurd (List.cons.inj e').1 h3
  · rw [decValue_stop n r h]

end Version

/-- The text of a version: three numbers with dots between them, and perhaps something after them that is not
part of the third number, as in `2.4.0`, `2.4.0-rc1` or `2.4.0.1`. -/
def versionText (a b c : Nat) (rest : Str) : Str :=
  decimal a ++ [dot] ++ decimal b ++ [dot] ++ decimal c ++ rest

/-- One version is before another: the first number in which they differ decides. -/
def VersionLt (v w : Nat × Nat × Nat) : Prop :=
  v.1 < w.1 ∨ v.1 = w.1 ∧ (v.2.1 < w.2.1 ∨ v.2.1 = w.2.1 ∧ v.2.2 < w.2.2)

/-- C71: the number that a version is turned into. -/
theorem C71_value (a b c : Nat) (rest : Str) (hr : ∀ x, rest.head? = some x → isDigit x = false) :
    versionToLong (some (versionText a b c rest)) = c + b * 100 + a * 10000 := by
  have d := fun n => (digits_plain n).2.2.2
  have ne := fun n => (decimal_digits n).2
  obtain ⟨x, t, e, -⟩ := decimal_cons a
  have e1 : versionText a b c rest = x :: (t ++ [dot] ++ decimal b ++ [dot] ++ decimal c ++ rest) := by
    simp [versionText, e]
  have e2 : ∃ w ws, dotTokens [] (versionText a b c rest) = decimal a :: decimal b :: w :: ws ∧ atoi w = c := by
    unfold versionText
    rw [show decimal a ++ [dot] ++ decimal b ++ [dot] ++ decimal c ++ rest =
        decimal a ++ (dot :: (decimal b ++ (dot :: (decimal c ++ rest)))) by simp]
    rw [dotTokens_word _ _ _ (d a), List.nil_append, dotTokens_sep _ _ (ne a), dotTokens_word _ _ _ (d b),
      List.nil_append, dotTokens_sep _ _ (ne b), dotTokens_word _ _ _ (d c), List.nil_append]
    have key : ∀ (r cur : Str), cur ≠ [] → ∃ u ws, dotTokens cur r = (cur ++ u) :: ws ∧ (u = [] ∨ u.head? = r.head?) := by
      intro r
      induction r with
      | nil => intro cur h; exact ⟨[], [], by simp [dotTokens, h], Or.inl rfl⟩
      | cons y r ih =>
        intro cur h
        by_cases hy : y = dot
        · rw [hy, dotTokens_sep _ _ h]; exact ⟨[], dotTokens [] r, by simp, Or.inl rfl⟩
        · rw [dotTokens, if_neg hy]
          obtain ⟨u, ws, h1, -⟩ := ih (cur ++ [y]) (by simp)
          exact ⟨y :: u, ws, by rw [h1]; simp, Or.inr rfl⟩
    obtain ⟨u, ws, h1, h2⟩ := key rest (decimal c) (ne c)
    refine ⟨_, ws, by rw [h1], atoi_stop c u ?_⟩
    intro y hy
    rcases h2 with h2 | h2
    · simp [h2] at hy
    · exact hr y (h2 ▸ hy)
  obtain ⟨w, ws, e3, e4⟩ := e2
  rw [e1] at e3 ⊢
  simp only [versionToLong, e3, e4, atoi_decimal]
  omega

/-- C71, as far as it goes: if the second and third numbers are below 100, versions are compared as they should
be. -/
theorem C71_order_partial (a b c a' b' c' : Nat) (rest rest' : Str)
    (hr : ∀ x, rest.head? = some x → isDigit x = false) (hr' : ∀ x, rest'.head? = some x → isDigit x = false)
    (hb : b < 100) (hc : c < 100) (hb' : b' < 100) (hc' : c' < 100) :
    versionToLong (some (versionText a b c rest)) < versionToLong (some (versionText a' b' c' rest')) ↔
      VersionLt (a, b, c) (a', b', c') := by
  rw [C71_value _ _ _ _ hr, C71_value _ _ _ _ hr']
  unfold VersionLt
  simp only
  omega

/-- C71: nothing that has fewer than three parts is taken for a version; no version at all counts as the oldest. -/
theorem C71_malformed (a b : Nat) :
    versionToLong (some (decimal a)) = -1 ∧ versionToLong (some (decimal a ++ [dot] ++ decimal b)) = -1 ∧
    versionToLong none = 0 ∧ versionToLong (some []) = 0 := by
  have d := fun n => (digits_plain n).2.2.2
  have ne := fun n => (decimal_digits n).2
  have en : ∀ n, dotTokens (decimal n) [] = [decimal n] := fun n => by rw [dotTokens, if_neg (ne n)]
  have e1 : dotTokens [] (decimal a) = [decimal a] := by
    have := dotTokens_word (decimal a) [] [] (d a)
    rw [List.append_nil, List.nil_append] at this
    rw [this, en]
  have e2 : dotTokens [] (decimal a ++ [dot] ++ decimal b) = [decimal a, decimal b] := by
    have h2 := dotTokens_word (decimal b) [] [] (d b)
    rw [List.append_nil, List.nil_append] at h2
    rw [show decimal a ++ [dot] ++ decimal b = decimal a ++ (dot :: decimal b) by simp,
      dotTokens_word _ _ _ (d a), List.nil_append, dotTokens_sep _ _ (ne a), h2, en]
  obtain ⟨x, t, e, -⟩ := decimal_cons a
  refine ⟨?_, ?_, rfl, rfl⟩
  · rw [e] at e1 ⊢
    simp only [versionToLong, e1]
  · rw [e, List.cons_append, List.cons_append] at e2 ⊢
    simp only [versionToLong, e2]

/-- C71 fails if a number reaches 100: 1.2.100 is taken for 1.3.0, and 1.2.101 for a later version than 1.3.0. -/
theorem C71_hundred_violated :
    versionToLong (some (bytes "1.2.100")) = versionToLong (some (bytes "1.3.0")) ∧
    versionToLong (some (bytes "1.2.101")) > versionToLong (some (bytes "1.3.0")) := by
  constructor <;> decide +kernel

/-- C71 fails for text that is not a version: letters count as zero, and what follows the third number does not
matter. -/
theorem C71_text_violated :
    versionToLong (some (bytes "any.thing.else")) = 0 ∧ versionToLong (some (bytes "2..4.0.9.x")) = 20400 := by
  constructor <;> decide +kernel

example : versionText 2 4 0 (bytes "-rc1") = bytes "2.4.0-rc1" := by decide +kernel
example : VersionLt (2, 9, 99) (2, 10, 0) := by unfold VersionLt; decide

end Verif
