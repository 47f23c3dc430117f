import Verif.Spec.Path
import Verif.Model.Prepend

/-!
# C53: joining paths

`components` is in `Verif/Spec/Path.lean`.
-/

namespace Verif
open Verif.Prepend

theorem splitSep_ne (sep : Byte) (a : Str) : splitSep sep a ≠ [] := by
  cases a with
  | nil => simp [splitSep]
  | cons c a =>
    rw [splitSep]
    split
    · simp
    · split <;> simp

theorem splitSep_append (sep : Byte) (a b : Str) :
    splitSep sep (a ++ sep :: b) = splitSep sep a ++ splitSep sep b := by
  induction a with
  | nil => simp [splitSep]
  | cons c a ih =>
    rw [List.cons_append, splitSep, splitSep]
    split
    · rw [ih]; rfl
    · rw [ih]
      cases h : splitSep sep a with
      | nil => exact absurd h (splitSep_ne sep a)
      | cons x xs => rfl

theorem components_append (a b : Str) : components (a ++ slash :: b) = components a ++ components b := by
  simp [components, splitSep_append]

theorem components_nil : components [] = [] := rfl

theorem components_slash (b : Str) : components (slash :: b) = components b := by
  simpa [components_nil] using components_append [] b

/-- C53: whatever is joined, the result names what one reaches by walking through the first part and then
through the second: no name is lost, invented, split or run together with another. -/
theorem C53_components (prep : Option Str) (fname : Str) :
    components (prependS prep fname) = components (prep.getD []) ++ components fname := by
  unfold prependS prependSlash
  rcases prep with _ | _ | ⟨p, ps⟩
  · simp [components_nil]
  · simp [components_nil]
  · cases fname with
    | nil => simp [prependN, prependLen, components_nil]
    | cons c cs =>
      by_cases hc : c = slash
      · simp only [hc, if_true, components_slash, Option.getD_some]
        cases cs with
        | nil => simp [prependN, prependLen, components_nil]
        | cons d ds => simp [prependN, prependLen, ← components_append]
      · simp [hc, prependN, prependLen, ← components_append]

/-- C53: the text. A directory and a file name that begins with no separator are joined by exactly one,
whatever they are; a separator that the file name begins with takes its place. -/
theorem C53_text (p fname : Str) (hp : p ≠ []) (hf : fname ≠ []) (hs : fname.head? ≠ some slash) :
    prependS (some p) fname = p ++ [slash] ++ fname ∧
    prependS (some p) (slash :: fname) = p ++ [slash] ++ fname := by
  cases p with
  | nil => exact absurd rfl hp
  | cons x p =>
    cases fname with
    | nil => exact absurd rfl hf
    | cons c cs =>
      have hc : c ≠ slash := by simpa using hs
      simp [prependS, prependSlash, prependN, prependLen, hc]

/-- C53: with nothing to put in front, the name is unchanged, and with no name, the directory is. -/
theorem C53_empty (fname p : Str) :
    prependS none fname = fname ∧ prependS (some []) fname = fname ∧ prependS (some p) [] = p := by
  refine ⟨rfl, rfl, ?_⟩
  cases p <;> simp [prependS, prependSlash, prependN, prependLen]

/-- C53: `prepend` and `astrcat` put the texts together unchanged. -/
theorem C53_plain (prep : Option Str) (fname : Str) :
    prepend prep fname = prep.getD [] ++ fname ∧
    astrcat prep (some fname) = prep.getD [] ++ fname ∧ astrcat prep none = prep.getD [] := by
  simp [prepend, prependN, prependLen, astrcat]

/-- C53, where it is not kept to the letter: a directory that ends with a separator gets a second one, and
a name that is only a separator loses it. By `C53_components` both still name the right place. -/
theorem C53_separators_violated :
    prependS (some (bytes "/a/")) (bytes "b") = bytes "/a//b" ∧
    prependS (some (bytes "/a")) (bytes "/") = bytes "/a" := by decide

example : prependS (some (bytes "/var/spool")) (bytes "client") = bytes "/var/spool/client" ∧
    components (bytes "/var//spool/client/") = [bytes "var", bytes "spool", bytes "client"] := by decide

end Verif
