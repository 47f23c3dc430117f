import Verif.Model.Yajl

/-!
# The lexer of yajl: more text, and pieces of text
-/

namespace Verif.Yajl
open Verif.JsonInput

/-- What becomes of a scan when more text follows. It cannot be told if the text has ended too soon. -/
def Scan.more (u : Str) : Scan → Scan
  | .done k w r => .done k w (r ++ u)
  | s => s

theorem more_cons (u : Str) (c : Byte) (x : Scan) : (x.cons c).more u = (x.more u).cons c := by
  cases x <;> rfl

theorem cons_eof {c : Byte} {x : Scan} : x.cons c = .eof ↔ x = .eof := by
  cases x <;> simp [Scan.cons]

theorem more_eof {u : Str} {x : Scan} : x.more u = .eof ↔ x = .eof := by
  cases x <;> simp [Scan.more]

theorem lexString_append (u : Str) : ∀ (t : Str) (st : StrSt) (e : Bool), lexString st e t ≠ .eof →
    lexString st e (t ++ u) = (lexString st e t).more u
  | [], _, _, h => absurd rfl h
  | c :: t, st, e, h => by
    rw [lexString] at h
    rw [List.cons_append, lexString, lexString]
    split <;> rename_i heq <;> rw [heq] at h
    · rfl
    · rw [more_cons, lexString_append u t _ _ (fun x => h (cons_eof.mpr x))]
    · rfl

theorem lexNumber_append (u : Str) : ∀ (t : Str) (st : NumSt), lexNumber st t ≠ .eof →
    lexNumber st (t ++ u) = (lexNumber st t).more u
  | [], _, h => absurd rfl h
  | c :: t, st, h => by
    rw [lexNumber] at h
    rw [List.cons_append, lexNumber, lexNumber]
    split <;> rename_i heq <;> rw [heq] at h
    · rw [more_cons, lexNumber_append u t _ (fun x => h (cons_eof.mpr x))]
    · rfl
    · rfl

theorem lexWord_append (u : Str) (k : LTok) : ∀ (ws t : Str), lexWord k ws t ≠ .eof →
    lexWord k ws (t ++ u) = (lexWord k ws t).more u
  | [], t, _ => by rfl
  | _ :: _, [], h => absurd rfl h
  | w :: ws, c :: t, h => by
    rw [lexWord] at h
    rw [List.cons_append, lexWord, lexWord]
    by_cases hc : c = w
    · rw [if_pos hc] at h ⊢
      rw [if_pos hc, more_cons, lexWord_append u k ws t (fun x => h (cons_eof.mpr x))]
    · rw [if_neg hc, if_neg hc]
      rfl

theorem scanFrom_append (u : Str) (x : Kind) (t : Str) (h : scanFrom x t ≠ .eof) :
    scanFrom x (t ++ u) = (scanFrom x t).more u := by
  cases x with
  | sign k => rfl
  | word k ws => exact lexWord_append _ _ _ _ h
  | str => exact lexString_append _ _ _ _ h
  | num st => exact lexNumber_append _ _ _ h
  | wrong => rfl

/-- What becomes of a token when more text follows. -/
def Lexed.more (u : Str) : Lexed → Lexed
  | .eof kept => lexTok (kept ++ u)
  | .error => .error
  | .tok k w r => .tok k w (r ++ u)

/-- More text behind a text: the lexer finds the same token in front of it, or goes on with what it has kept. -/
theorem lexTok_append (u : Str) : ∀ t : Str, lexTok (t ++ u) = (lexTok t).more u
  | [] => rfl
  | c :: t => by
    rw [List.cons_append, lexTok, lexTok]
    by_cases hc : isWs c = true
    · rw [if_pos hc, if_pos hc, lexTok_append u t]
    · rw [if_neg hc, if_neg hc]
      by_cases h : scanFrom (kindOf c) t = .eof
      · rw [h]
        show _ = lexTok (c :: (t ++ u))
        rw [lexTok, if_neg hc]
      · rw [scanFrom_append u _ t h]
        cases hs : scanFrom (kindOf c) t with
        | eof => exact absurd hs h
        | error => rfl
        | done k w r => rfl

/-- What is kept is kept again when nothing has come. -/
theorem lexTok_kept : ∀ {t kept : Str}, lexTok t = .eof kept → lexTok kept = .eof kept
  | [], kept, h => by cases h; rfl
  | c :: t, kept, h => by
    have h0 := h
    rw [lexTok] at h
    by_cases hc : isWs c = true
    · rw [if_pos hc] at h
      exact lexTok_kept h
    · rw [if_neg hc] at h
      cases hs : scanFrom (kindOf c) t with
      | eof =>
        rw [hs] at h
        cases h
        exact h0
      | error => rw [hs] at h; cases h
      | done k w r => rw [hs] at h; cases h

theorem parseText_eof {cur : PSt} {outer : List PSt} {t kept : Str} (h : lexTok t = .eof kept) :
    parseText cur outer t = ⟨.ok, ⟨cur, outer, kept⟩, []⟩ := by
  rw [parseText]
  split
  · next heq => rw [h] at heq; cases heq; rfl
  · next heq => rw [h] at heq; cases heq
  · next heq => rw [h] at heq; cases heq

theorem parseText_error {cur : PSt} {outer : List PSt} {t : Str} (h : lexTok t = .error) :
    parseText cur outer t = ⟨.error, ⟨lexFailed cur, outer, []⟩, []⟩ := by
  rw [parseText]
  split
  · next heq => rw [h] at heq; cases heq
  · rfl
  · next heq => rw [h] at heq; cases heq

/-- What follows a token. -/
def Parsed.next (r : Str) : POut → PSt → List PSt → Parsed
  | .undef, cur, outer => ⟨.undef, ⟨cur, outer, []⟩, []⟩
  | .next cur' outer' calls, _, _ =>
      if cur' = .parseError ∨ cur' = .lexError then ⟨.error, ⟨cur', outer', []⟩, calls⟩
      else (parseText cur' outer' r).after calls

theorem parseText_tok {cur : PSt} {outer : List PSt} {t : Str} {k w r} (h : lexTok t = .tok k w r) :
    parseText cur outer t = Parsed.next r (onTok cur outer k w) cur outer := by
  rw [parseText]
  split
  · next heq => rw [h] at heq; cases heq
  · next heq => rw [h] at heq; cases heq
  · next heq =>
    rw [h] at heq
    cases heq
    cases onTok cur outer k w <;> rfl

theorem after_after (a b : List Tok) (p : Parsed) : (p.after b).after a = p.after (a ++ b) := by
  simp [Parsed.after]

theorem after_nil (p : Parsed) : p.after [] = p := rfl

/-- Text that has been parsed and more text behind it. -/
theorem parseText_append (u : Str) : ∀ (n : Nat) (t : Str) (cur : PSt) (outer : List PSt), t.length ≤ n →
    cur ≠ .parseError → cur ≠ .lexError →
    parseText cur outer (t ++ u) =
      (if (parseText cur outer t).status = .ok then
        (parse (parseText cur outer t).parser u).after (parseText cur outer t).calls
      else parseText cur outer t) := by
  intro n
  induction n with
  | zero =>
    intro t cur outer hn h1 h2
    obtain rfl : t = [] := List.length_eq_zero_iff.mp (by omega)
    rw [parseText_eof (show lexTok [] = .eof [] from rfl), if_pos rfl, parse, if_neg (by simp [h1, h2])]
    rfl
  | succ n ih =>
    intro t cur outer hn h1 h2
    cases ht : lexTok t with
    | eof kept =>
      rw [parseText_eof ht, if_pos rfl, parse, if_neg (by simp [h1, h2]), after_nil]
      have hk : lexTok (t ++ u) = lexTok (kept ++ u) := by
        rw [lexTok_append, ht]
        rfl
      show _ = parseText cur outer (kept ++ u)
      cases hx : lexTok (kept ++ u) with
      | eof k' => rw [parseText_eof hx, parseText_eof (hk.trans hx)]
      | error => rw [parseText_error hx, parseText_error (hk.trans hx)]
      | tok k' w' r' => rw [parseText_tok hx, parseText_tok (hk.trans hx)]
    | error =>
      have hk : lexTok (t ++ u) = .error := by
        rw [lexTok_append, ht]
        rfl
      rw [parseText_error ht, parseText_error hk]
      rfl
    | tok k w r =>
      have hk : lexTok (t ++ u) = .tok k w (r ++ u) := by
        rw [lexTok_append, ht]
        rfl
      have hlt := lexTok_lt t ht
      rw [parseText_tok ht, parseText_tok hk]
      cases ho : onTok cur outer k w with
      | undef => rfl
      | next cur' outer' calls =>
        unfold Parsed.next
        by_cases he : cur' = .parseError ∨ cur' = .lexError
        · simp only [if_pos he]
          rfl
        · simp only [if_neg he]
          rw [not_or] at he
          rw [ih r cur' outer' (by omega) he.1 he.2]
          by_cases hs : (parseText cur' outer' r).status = .ok
          · rw [if_pos hs, if_pos (show ((parseText cur' outer' r).after calls).status = .ok from hs), after_after]
            rfl
          · rw [if_neg hs, if_neg (show ¬ ((parseText cur' outer' r).after calls).status = .ok from hs)]

/-- A parser that can be met with between two pieces of text. -/
def Parser.Good (p : Parser) : Prop := p.cur ≠ .parseError ∧ p.cur ≠ .lexError ∧ lexTok p.kept = .eof p.kept

theorem good_init : Parser.init.Good := ⟨by decide, by decide, rfl⟩

theorem parseText_good : ∀ (n : Nat) (t : Str) (cur : PSt) (outer : List PSt), t.length ≤ n →
    cur ≠ .parseError → cur ≠ .lexError → (parseText cur outer t).status = .ok → (parseText cur outer t).parser.Good := by
  intro n
  induction n with
  | zero =>
    intro t cur outer hn h1 h2 _
    obtain rfl : t = [] := List.length_eq_zero_iff.mp (by omega)
    rw [parseText_eof (show lexTok [] = .eof [] from rfl)]
    exact ⟨h1, h2, rfl⟩
  | succ n ih =>
    intro t cur outer hn h1 h2 hs
    cases ht : lexTok t with
    | eof kept =>
      rw [parseText_eof ht]
      exact ⟨h1, h2, lexTok_kept ht⟩
    | error => rw [parseText_error ht] at hs; cases hs
    | tok k w r =>
      have hlt := lexTok_lt t ht
      rw [parseText_tok ht] at hs ⊢
      cases ho : onTok cur outer k w with
      | undef => rw [ho] at hs; cases hs
      | next cur' outer' calls =>
        rw [ho] at hs
        unfold Parsed.next at hs ⊢
        by_cases he : cur' = .parseError ∨ cur' = .lexError
        · simp only [if_pos he] at hs
          cases hs
        · simp only [if_neg he] at hs ⊢
          rw [not_or] at he
          exact ih r cur' outer' (by omega) he.1 he.2 hs

theorem parse_good {p : Parser} (hp : p.Good) {t : Str} (h : (parse p t).status = .ok) : (parse p t).parser.Good := by
  rw [parse, if_neg (by simp [hp.1, hp.2.1])] at h ⊢
  exact parseText_good _ _ _ _ (Nat.le_refl _) hp.1 hp.2.1 h

theorem parse_nil {p : Parser} (hp : p.Good) : parse p [] = ⟨.ok, p, []⟩ := by
  rw [parse, if_neg (by simp [hp.1, hp.2.1]), List.append_nil, parseText_eof hp.2.2]

theorem parse_append {p : Parser} (hp : p.Good) (t u : Str) : parse p (t ++ u) =
    if (parse p t).status = .ok then (parse (parse p t).parser u).after (parse p t).calls else parse p t := by
  have hne : ¬ (p.cur = .parseError ∨ p.cur = .lexError) := by simp [hp.1, hp.2.1]
  have h1 : ∀ x, parse p x = parseText p.cur p.outer (p.kept ++ x) := fun x => by rw [parse, if_neg hne]
  rw [h1, h1, ← List.append_assoc, parseText_append u _ _ _ _ (Nat.le_refl _) hp.1 hp.2.1]

/-- The text in pieces is parsed as it is in one. -/
theorem parseAll_flatten : ∀ (ts : List Str) {p : Parser}, p.Good → parseAll p ts = parse p ts.flatten
  | [], p, hp => by
    rw [List.flatten_nil, parse_nil hp]
    rfl
  | t :: ts, p, hp => by
    rw [List.flatten_cons, parse_append hp, parseAll]
    by_cases h : (parse p t).status = .ok
    · rw [if_pos h, if_pos h, parseAll_flatten ts (parse_good hp h)]
    · rw [if_neg h, if_neg h]

end Verif.Yajl
