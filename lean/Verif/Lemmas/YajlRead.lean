import Verif.Lemmas.YajlGen

/-!
# The parser of yajl goes through what the generator has written
-/

namespace Verif.Yajl
open Verif.JsonInput

theorem ws_ends {c : Byte} (h : isWs c = true) : Ends c := by
  have : ∀ n : Fin 256, isWs (UInt8.ofNat n.val) = true → isNum (UInt8.ofNat n.val) = false ∧
      UInt8.ofNat n.val ≠ dot ∧ UInt8.ofNat n.val ≠ 101 ∧ UInt8.ofNat n.val ≠ 69 := by decide +kernel
  have h1 := this ⟨c.toNat, c.toNat_lt⟩
  rw [show UInt8.ofNat c.toNat = c by simp] at h1
  exact h1 h

theorem sign_ends {c : Byte} {k : LTok} (h : kindOf c = .sign k) : Ends c := by
  have : ∀ n : Fin 256, (match kindOf (UInt8.ofNat n.val) with | .sign _ => true | _ => false) = true →
      isNum (UInt8.ofNat n.val) = false ∧
      UInt8.ofNat n.val ≠ dot ∧ UInt8.ofNat n.val ≠ 101 ∧ UInt8.ofNat n.val ≠ 69 := by decide +kernel
  have h1 := this ⟨c.toNat, c.toNat_lt⟩
  rw [show UInt8.ofNat c.toNat = c by simp] at h1
  exact h1 (by rw [h])

theorem lexeme_ne {k w} (h : Lexeme k w) : w ≠ [] := by
  obtain ⟨x, c, hx, _⟩ := lexeme_last h
  rw [hx]
  simp

theorem spaced_ne {x l t} (h : Spaced (x :: l) t) : t ≠ [] := by
  cases h with
  | cons _ hw _ =>
    have := lexeme_ne hw
    simp [this]

/-- If the last token is a number, something follows that ends it. -/
def Closed (l : List (LTok × Str)) (t : Str) : Prop :=
  ∀ x ∈ l.getLast?, x.1 = .integer → ∃ y c, t = y ++ [c] ∧ isWs c = true

theorem closed_tail {k w l a t} (hl : Spaced l t) (h : Closed ((k, w) :: l) (a ++ (w ++ t))) : Closed l t := by
  intro x hx hi
  cases l with
  | nil => cases hx
  | cons z l =>
    have hne := spaced_ne hl
    obtain ⟨y, c, h1, h2⟩ := h x (by rw [List.getLast?_cons_cons]; exact hx) hi
    refine ⟨t.dropLast, t.getLast hne, (List.dropLast_concat_getLast hne).symm, ?_⟩
    have h3 := congrArg List.getLast? h1
    rw [← List.append_assoc, List.getLast?_append, List.getLast?_eq_some_getLast hne] at h3
    simp only [Option.some_or, List.getLast?_append, List.getLast?_singleton] at h3
    cases h3
    exact h2

/-- Behind a number, something follows that ends it. -/
theorem closed_ends {w l a t cur outer r} (hw : Lexeme .integer w) (hl : Spaced l t)
    (h : Closed ((.integer, w) :: l) (a ++ (w ++ t)))
    (hs : stepAll cur outer ((.integer, w) :: l) = some r) : ∃ c t', t = c :: t' ∧ Ends c := by
  cases hl with
  | nil hb =>
    cases t with
    | nil =>
      obtain ⟨y, c, h1, h2⟩ := h (.integer, w) rfl rfl
      obtain ⟨x, d, h3, h4⟩ := lexeme_last hw
      have h5 := congrArg List.getLast? h1
      rw [h3] at h5
      simp only [List.append_nil, List.getLast?_append, List.getLast?_singleton, Option.some_or] at h5
      cases h5
      rw [h2] at h4
      cases h4
    | cons c t => exact ⟨c, t, rfl, ws_ends (hb c (by simp))⟩
  | @cons b t w2 k2 l hb hw2 ht =>
    cases b with
    | cons c b => exact ⟨c, b ++ (w2 ++ t), rfl, ws_ends (hb c (by simp))⟩
    | nil =>
      cases hw2 with
      | @sign c _ hk hc => exact ⟨c, t, rfl, sign_ends hk⟩
      | str s =>
        exfalso
        rw [stepAll] at hs
        cases ho : onTok cur outer .integer w with
        | undef => rw [ho] at hs; cases hs
        | next c1 o1 k1 =>
          rw [ho] at hs
          simp only at hs
          have hc1 : c1 = .parseError ∨ c1 = .lexError ∨ c1 = .complete ∨ c1 = .mapGotVal ∨ c1 = .arrGotVal := by
            revert ho
            cases cur <;> simp only [onTok, onValue] <;> (try (cases parseInteger w)) <;>
              simp only [gotValue, POut.next.injEq, reduceCtorEq, false_implies] <;> rintro ⟨rfl, _⟩ <;> simp
          by_cases he : c1 = .parseError ∨ c1 = .lexError
          · rw [if_pos he] at hs
            cases hs
          · rw [if_neg he] at hs
            have hn : stepAll c1 o1 ((.string (s.any escaped), quote :: (encode s ++ [quote])) :: l) = none := by
              rw [stepAll]
              rcases hc1 with h | h | h | h | h
              · exact absurd (.inl h) he
              · exact absurd (.inr h) he
              all_goals subst h; rfl
            rw [hn] at hs
            cases hs
      | int v =>
        exfalso
        rw [stepAll] at hs
        cases ho : onTok cur outer .integer w with
        | undef => rw [ho] at hs; cases hs
        | next c1 o1 k1 =>
          rw [ho] at hs
          simp only at hs
          have hc1 : c1 = .parseError ∨ c1 = .lexError ∨ c1 = .complete ∨ c1 = .mapGotVal ∨ c1 = .arrGotVal := by
            revert ho
            cases cur <;> simp only [onTok, onValue] <;> (try (cases parseInteger w)) <;>
              simp only [gotValue, POut.next.injEq, reduceCtorEq, false_implies] <;> rintro ⟨rfl, _⟩ <;> simp
          by_cases he : c1 = .parseError ∨ c1 = .lexError
          · rw [if_pos he] at hs
            cases hs
          · rw [if_neg he] at hs
            have hn : stepAll c1 o1 ((.integer, showInt v) :: l) = none := by
              rw [stepAll]
              rcases hc1 with h | h | h | h | h
              · exact absurd (.inl h) he
              · exact absurd (.inr h) he
              all_goals subst h; rfl
            rw [hn] at hs
            cases hs

/-- Tokens with white space around them. -/
theorem parseText_spaced {l t} (h : Spaced l t) : ∀ {cur outer c o calls}, Closed l t →
    stepAll cur outer l = some (c, o, calls) → parseText cur outer t = ⟨.ok, ⟨c, o, []⟩, calls⟩ := by
  induction h with
  | @nil a ha =>
    intro cur outer c o calls _ hs
    cases hs
    have := lexTok_ws ha []
    rw [List.append_nil] at this
    exact parseText_eof this
  | @cons a t w k l ha hw ht ih =>
    intro cur outer c o calls hc hs
    have hlex : lexTok (a ++ (w ++ t)) = .tok k w t := by
      rw [lexTok_ws ha]
      refine lexTok_lexeme hw ?_
      intro hk
      subst hk
      exact closed_ends hw ht hc hs
    rw [parseText_tok hlex]
    rw [stepAll] at hs
    simp only at hs
    cases ho : onTok cur outer k w with
    | undef => rw [ho] at hs; cases hs
    | next c1 o1 k1 =>
      rw [ho] at hs
      simp only at hs
      by_cases he : c1 = .parseError ∨ c1 = .lexError
      · rw [if_pos he] at hs
        cases hs
      · rw [if_neg he] at hs
        cases hr : stepAll c1 o1 l with
        | none => rw [hr] at hs; cases hs
        | some r =>
          rw [hr] at hs
          obtain ⟨r1, r2, r3⟩ := r
          cases hs
          unfold Parsed.next
          simp only [if_neg he]
          rw [ih (closed_tail ht hc) hr]
          rfl

/-- Even if the text ends with a number, all of the calls have been made, except maybe for that number. -/
theorem parseText_prefix {l t} (h : Spaced l t) {cur outer c o calls} (h1 : cur ≠ .parseError) (h2 : cur ≠ .lexError)
    (hs : stepAll cur outer l = some (c, o, calls)) :
    (parseText cur outer t).status = .ok ∧ (parseText cur outer t).calls <+: calls := by
  have h3 : Spaced l (t ++ [space]) := by
    have := h.append (Spaced.blank (a := [space]) (by decide))
    rwa [List.append_nil] at this
  have h4 := parseText_spaced h3 (cur := cur) (outer := outer) (fun x _ _ => ⟨t, space, rfl, by decide⟩) hs
  rw [parseText_append [space] _ t cur outer (Nat.le_refl _) h1 h2] at h4
  by_cases hk : (parseText cur outer t).status = .ok
  · rw [if_pos hk] at h4
    refine ⟨hk, ?_⟩
    have := congrArg Parsed.calls h4
    exact ⟨_, this⟩
  · rw [if_neg hk] at h4
    rw [h4] at hk
    exact absurd rfl hk

end Verif.Yajl
