import Verif.Model.Attribs
import Verif.Lemmas.Base64

namespace Verif.Attribs
open Verif Base64

/-- Store the numbers `vs` with the setters `fs`, one after another. -/
def applyAll : List (Attr → Int → Attr) → List Int → Attr → Attr
  | f :: fs, v :: vs, a => applyAll fs vs (f a v)
  | _, _, a => a

theorem decode_nil (fs : List (Attr → Int → Attr)) (a : Attr) : decodeFrom fs a [] = some a := by
  cases fs <;> simp [decodeFrom, fromBase64, fromSign, fromDigits, inLoop]

theorem decode_fold : ∀ (vs : List Int) (fs : List (Attr → Int → Attr)) (a : Attr),
    vs ≠ [] → vs.length ≤ fs.length → (∀ v ∈ vs, -2 ^ 63 < v ∧ v < 2 ^ 63) →
    ∃ t, encodeFields vs = some t ∧ t.length + 1 ≤ 13 * vs.length ∧ t ≠ [] ∧
      decodeFrom fs a t = some (applyAll fs vs a) ∧
      decodeFrom fs a (space :: t) = some (applyAll fs vs a) := by
  intro vs
  induction vs with
  | nil => intro _ _ h; exact absurd rfl h
  | cons v vs ih =>
    intro fs a _ hlen hr
    cases fs with
    | nil => simp at hlen
    | cons f fs =>
      have hv := hr v (by simp)
      cases vs with
      | nil =>
        obtain ⟨s, n, e, hl, hn, hp, d1, d2⟩ := fromBase64_plain v hv.1 hv.2 [] (Or.inl rfl)
        rw [List.append_nil] at d1 d2
        refine ⟨s, by simp [encodeFields, e], by simp; omega, ?_, ?_, ?_⟩
        · intro h; subst h; simp at hl; omega
        · have hn0 : n ≠ 0 := by omega
          have hd : s.drop n = [] := by rw [← hl]; simp
          simp only [decodeFrom, d1, hn0, if_false, hd, decode_nil, applyAll]
        · have hd : s.drop n = [] := by rw [← hl]; simp
          simp only [decodeFrom, d2, Nat.add_one_ne_zero, if_false, List.drop_succ_cons, hd,
            decode_nil, applyAll]
      | cons w ws =>
        obtain ⟨t, et, htl, _, dt, dt2⟩ := ih fs (f a v) (by simp) (by simp at hlen ⊢; omega)
          (fun x hx => hr x (by simp [hx]))
        obtain ⟨s, n, e, hl, hn, hp, d1, d2⟩ := fromBase64_plain v hv.1 hv.2 (space :: t)
          (Or.inr rfl)
        refine ⟨s ++ space :: t, by simp [encodeFields, e, et], by simp at htl ⊢; omega, by simp,
          ?_, ?_⟩
        · have hn0 : n ≠ 0 := by omega
          have hd : (s ++ space :: t).drop n = space :: t := by rw [← hl]; simp
          simp only [decodeFrom, d1, hn0, if_false, hd, applyAll]
          exact dt2
        · have hd : (s ++ space :: t).drop n = space :: t := by rw [← hl]; simp
          simp only [decodeFrom, d2, Nat.add_one_ne_zero, if_false, List.drop_succ_cons, hd,
            applyAll]
          exact dt2

end Verif.Attribs
