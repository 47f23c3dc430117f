import Verif.Lemmas.YajlText

/-!
# The generator of yajl writes what the parser reads
-/

namespace Verif.Yajl
open Verif.JsonInput

/-- The texts of the tokens that the generator writes. -/
inductive Lexeme : LTok → Str → Prop where
  | sign {c : Byte} {k : LTok} : kindOf c = .sign k → isWs c = false → Lexeme k [c]
  | str (s : Str) : Lexeme (.string (s.any escaped)) (quote :: (encode s ++ [quote]))
  | int (v : Int) : Lexeme .integer (showInt v)

theorem sign_integer {c : Byte} : kindOf c ≠ .sign .integer := by
  have : ∀ n : Fin 256, kindOf (UInt8.ofNat n.val) ≠ .sign .integer := by decide +kernel
  have h := this ⟨c.toNat, c.toNat_lt⟩
  rwa [show UInt8.ofNat c.toNat = c by simp] at h

theorem lexTok_lexeme {k : LTok} {w : Str} (h : Lexeme k w) {t : Str}
    (ht : k = .integer → ∃ c t', t = c :: t' ∧ Ends c) : lexTok (w ++ t) = .tok k w t := by
  cases h with
  | sign hk hw =>
    rw [List.cons_append, List.nil_append, lexTok, if_neg (by simp [hw]), hk]
    rfl
  | str s =>
    have := lexTok_string s t
    simpa using this
  | int v =>
    obtain ⟨c, t', rfl, hc⟩ := ht rfl
    exact lexTok_int v hc t'

theorem lexTok_ws : ∀ {a : Str}, (∀ c ∈ a, isWs c = true) → ∀ t, lexTok (a ++ t) = lexTok t
  | [], _, t => rfl
  | c :: a, h, t => by
    rw [List.cons_append, lexTok, if_pos (h c (by simp))]
    exact lexTok_ws (fun x hx => h x (by simp [hx])) t

/-- Tokens, with white space around them. -/
inductive Spaced : List (LTok × Str) → Str → Prop where
  | nil {a : Str} : (∀ c ∈ a, isWs c = true) → Spaced [] a
  | cons {a t w : Str} {k : LTok} {l} : (∀ c ∈ a, isWs c = true) → Lexeme k w → Spaced l t →
      Spaced ((k, w) :: l) (a ++ (w ++ t))

theorem Spaced.ws {a : Str} (ha : ∀ c ∈ a, isWs c = true) {l t} (h : Spaced l t) : Spaced l (a ++ t) := by
  cases h with
  | nil hb => exact .nil (fun c hc => (List.mem_append.mp hc).elim (ha c) (hb c))
  | @cons b t w k l hb hw ht =>
    rw [← List.append_assoc]
    exact .cons (fun c hc => (List.mem_append.mp hc).elim (ha c) (hb c)) hw ht

theorem Spaced.append {l1 t1} (h1 : Spaced l1 t1) {l2 t2} (h2 : Spaced l2 t2) : Spaced (l1 ++ l2) (t1 ++ t2) := by
  induction h1 with
  | nil ha => exact h2.ws ha
  | cons ha hw _ ih =>
    rw [List.append_assoc, List.append_assoc]
    exact .cons ha hw ih

theorem Spaced.one {k w} (h : Lexeme k w) : Spaced [(k, w)] w := by
  have := Spaced.cons (a := []) (by simp) h (Spaced.nil (a := []) (by simp))
  simpa using this

theorem Spaced.blank {a : Str} (h : ∀ c ∈ a, isWs c = true) : Spaced [] a := .nil h

/-! ### Lines -/

theorem encodeByte_no {c : Byte} : newline ∉ encodeByte c := by
  have : ∀ n : Fin 256, newline ∉ encodeByte (UInt8.ofNat n.val) := by decide +kernel
  have h := this ⟨c.toNat, c.toNat_lt⟩
  rwa [show UInt8.ofNat c.toNat = c by simp] at h

theorem encode_no (s : Str) : newline ∉ encode s := by
  unfold encode
  rw [List.mem_flatten]
  rintro ⟨x, hx, h⟩
  obtain ⟨c, _, rfl⟩ := List.mem_map.mp hx
  exact encodeByte_no h

theorem decimal_num (n : Nat) : ∀ x ∈ BackupNumber.decimal n, isNum x = true := by
  by_cases hn : n = 0
  · subst hn
    rw [BackupNumber.decimal]
    decide
  · obtain ⟨d, ds, h1, _, h3, h4⟩ := decimal_digits n (by omega)
    rw [h1]
    intro x hx
    rcases List.mem_cons.mp hx with hx' | hx'
    · rw [hx']; exact h3
    · exact h4 x hx'

theorem showInt_chars (v : Int) : ∀ x ∈ showInt v, x = 45 ∨ isNum x = true := by
  unfold showInt
  split
  · intro x hx
    rcases List.mem_cons.mp hx with hx | hx
    · exact .inl hx
    · exact .inr (decimal_num _ x hx)
  · intro x hx
    exact .inr (decimal_num _ x hx)

theorem lexeme_no {k w} (h : Lexeme k w) : newline ∉ w := by
  cases h with
  | sign hk hw =>
    rw [List.mem_singleton]
    intro e
    rw [← e] at hw
    exact absurd hw (by decide)
  | str s =>
    have h1 := encode_no s
    have h2 : newline ≠ quote := by decide
    simp [h1, h2]
  | int v =>
    intro h
    rcases showInt_chars v _ h with h | h <;> exact absurd h (by decide)

/-- A token ends with something that is not white space. -/
theorem lexeme_last {k w} (h : Lexeme k w) : ∃ x c, w = x ++ [c] ∧ isWs c = false := by
  cases h with
  | @sign c _ hk hw => exact ⟨[], c, rfl, hw⟩
  | str s => exact ⟨quote :: encode s, quote, rfl, by decide⟩
  | int v =>
    have hne := showInt_ne v
    refine ⟨_, _, (List.dropLast_concat_getLast hne).symm, ?_⟩
    rcases showInt_chars v _ (List.getLast_mem hne) with h | h
    · rw [h]; decide
    · exact (isNum_bytes h).2.1

/-- A text that is cut at the end of a line. -/
theorem Spaced.split {l t} (h : Spaced l t) : ∀ {a b : Str}, t = a ++ newline :: b → newline ∉ a →
    ∃ l1 l2, l = l1 ++ l2 ∧ Spaced l1 a ∧ Spaced l2 b := by
  induction h with
  | nil ha =>
    rintro a b rfl _
    exact ⟨[], [], rfl, .nil (fun c hc => ha c (by simp [hc])), .nil (fun c hc => ha c (by simp [hc]))⟩
  | @cons s t w k l hs hw ht ih =>
    intro a b he hn
    rcases List.append_eq_append_iff.mp he with ⟨x, hx, hy⟩ | ⟨x, hx, hy⟩
    · -- the white space comes first
      rcases List.append_eq_append_iff.mp hy with ⟨y, hy1, hy2⟩ | ⟨y, hy1, hy2⟩
      · obtain ⟨l1, l2, h1, h2, h3⟩ := ih hy2 (fun h => hn (by simp [hx, hy1, h]))
        refine ⟨(k, w) :: l1, l2, by rw [h1]; rfl, ?_, h3⟩
        rw [hx, hy1]
        exact .cons hs hw h2
      · cases y with
        | nil =>
          obtain ⟨l1, l2, h1, h2, h3⟩ := ih (a := []) (b := b) (by simpa using hy2.symm) (by simp)
          refine ⟨(k, w) :: l1, l2, by rw [h1]; rfl, ?_, h3⟩
          have h4 := Spaced.cons hs hw h2
          rw [List.append_nil] at hy1 h4
          rw [hx, ← hy1]
          exact h4
        | cons c y =>
          have hc : c = newline := by
            have := congrArg List.head? hy2
            simpa using this.symm
          exact absurd (by rw [hy1, hc]; simp) (lexeme_no hw)
    · cases x with
      | nil =>
        have hb : w ++ t = newline :: b := by simpa using hy.symm
        cases w with
        | nil =>
          obtain ⟨y, c, h1, _⟩ := lexeme_last hw
          exact absurd (congrArg List.length h1) (by simp)
        | cons c w =>
          have hc : c = newline := by
            have := congrArg List.head? hb
            simpa using this
          exact absurd (by rw [hc]; simp) (lexeme_no hw)
      | cons c x =>
        have hc : b = x ++ (w ++ t) := by
          have := congrArg List.tail hy
          simpa using this
        refine ⟨[], (k, w) :: l, rfl, .nil (fun d hd => hs d (by rw [hx]; simp [hd])), ?_⟩
        rw [hc]
        exact .cons (fun d hd => hs d (by rw [hx]; simp [hd])) hw ht

theorem dropWhile_nil {p : Byte → Bool} : ∀ {a : Str}, a.dropWhile p = [] ↔ ∀ c ∈ a, p c = true
  | [] => by simp
  | c :: a => by
    rw [List.dropWhile_cons]
    by_cases hc : p c = true
    · rw [if_pos hc, dropWhile_nil]
      simp [hc]
    · rw [if_neg hc]
      simp [hc]

theorem strip_ws {a : Str} (h : ∀ c ∈ a, isWs c = true) : strip a = [] := by
  unfold strip
  have : a.reverse.dropWhile isWs = [] := by
    rw [dropWhile_nil]
    intro c hc
    exact h c (List.mem_reverse.mp hc)
  rw [this]
  rfl

theorem dropWhile_append_of {p : Byte → Bool} : ∀ (a b : Str), a.dropWhile p ≠ [] →
    (a ++ b).dropWhile p = a.dropWhile p ++ b
  | [], _, h => absurd rfl h
  | c :: a, b, h => by
    rw [List.dropWhile_cons] at h
    rw [List.cons_append, List.dropWhile_cons, List.dropWhile_cons]
    by_cases hc : p c = true
    · rw [if_pos hc] at h ⊢
      rw [if_pos hc]
      exact dropWhile_append_of a b h
    · rw [if_neg hc, if_neg hc]
      rfl

/-- What comes behind something that is not white space. -/
theorem strip_append (x : Str) {c : Byte} (hc : isWs c = false) (t : Str) : strip (x ++ c :: t) = x ++ c :: strip t := by
  unfold strip
  rw [List.reverse_append, List.reverse_cons, List.append_assoc]
  by_cases h : t.reverse.dropWhile isWs = []
  · have ht : ∀ d ∈ t.reverse, isWs d = true := dropWhile_nil.mp h
    have : ∀ (a b : Str), (∀ d ∈ a, isWs d = true) → (a ++ b).dropWhile isWs = b.dropWhile isWs := by
      intro a
      induction a with
      | nil => intro b _; rfl
      | cons d a ih =>
        intro b hd
        rw [List.cons_append, List.dropWhile_cons, if_pos (hd d (by simp))]
        exact ih b (fun y hy => hd y (by simp [hy]))
    rw [this _ _ ht, h]
    rw [List.cons_append, List.nil_append, List.dropWhile_cons, if_neg (by simp [hc])]
    simp
  · rw [dropWhile_append_of _ _ h]
    simp

/-- White space at the end of a line does not matter. -/
theorem Spaced.strip {l t} (h : Spaced l t) : Spaced l (strip t) := by
  induction h with
  | nil ha =>
    rw [strip_ws ha]
    exact .nil (by simp)
  | @cons a t w k l ha hw _ ih =>
    obtain ⟨x, c, hx, hc⟩ := lexeme_last hw
    have : Yajl.strip (a ++ (w ++ t)) = a ++ (w ++ Yajl.strip t) := by
      rw [hx, List.append_assoc, ← List.append_assoc]
      show Yajl.strip (a ++ x ++ c :: t) = _
      rw [strip_append _ hc]
      simp
    rw [this]
    exact .cons ha hw ih

theorem strip_newline (t : Str) : strip (t ++ [newline]) = strip t := by
  unfold Yajl.strip
  rw [List.reverse_append]
  show (List.dropWhile isWs (newline :: t.reverse)).reverse = _
  rw [List.dropWhile_cons, if_pos (by decide)]

/-! ### The parser, token by token -/

/-- The states that tokens lead to, and the calls; `none` if something goes wrong. -/
def stepAll : PSt → List PSt → List (LTok × Str) → Option (PSt × List PSt × List Tok)
  | cur, outer, [] => some (cur, outer, [])
  | cur, outer, x :: l => match onTok cur outer x.1 x.2 with
    | .undef => none
    | .next c o calls => if c = .parseError ∨ c = .lexError then none
      else (stepAll c o l).map (fun r => (r.1, r.2.1, calls ++ r.2.2))

theorem stepAll_append : ∀ {l1 l2 : List (LTok × Str)} {cur outer c o calls c' o' calls'},
    stepAll cur outer l1 = some (c, o, calls) → stepAll c o l2 = some (c', o', calls') →
    stepAll cur outer (l1 ++ l2) = some (c', o', calls ++ calls')
  | [], l2, cur, outer, c, o, calls, c', o', calls', h1, h2 => by
    cases h1
    exact h2
  | x :: l1, l2, cur, outer, c, o, calls, c', o', calls', h1, h2 => by
    rw [List.cons_append, stepAll]
    rw [stepAll] at h1
    cases ho : onTok cur outer x.1 x.2 with
    | undef => rw [ho] at h1; cases h1
    | next c1 o1 k1 =>
      rw [ho] at h1
      simp only at h1 ⊢
      by_cases he : c1 = .parseError ∨ c1 = .lexError
      · rw [if_pos he] at h1
        cases h1
      · rw [if_neg he] at h1 ⊢
        cases hs : stepAll c1 o1 l1 with
        | none => rw [hs] at h1; cases h1
        | some r =>
          rw [hs] at h1
          obtain ⟨r1, r2, r3⟩ := r
          cases h1
          rw [stepAll_append hs h2]
          simp

/-- One token. -/
theorem stepAll_one {cur outer k w c o calls} (h : onTok cur outer k w = .next c o calls) (h1 : c ≠ .parseError)
    (h2 : c ≠ .lexError) : stepAll cur outer [(k, w)] = some (c, o, calls) := by
  rw [stepAll, h]
  simp only
  rw [if_neg (by simp [h1, h2]), stepAll]
  simp

/-! ### The generator and the parser -/

/-- Where the parser is when the generator is there. -/
def corr : GSt → PSt
  | .start => .start
  | .mapStart => .mapStart
  | .mapKey => .mapGotVal
  | .mapVal => .mapSep
  | .arrStart => .arrStart
  | .inArr => .arrGotVal
  | .complete => .complete

/-- The states below. -/
def corrOuter (l : List GSt) : List PSt := l.map (fun s => corr (appendedAtom s))

/-- A value may follow. -/
def ValPos (s : GSt) : Prop := s = .start ∨ s = .mapVal ∨ s = .arrStart ∨ s = .inArr

/-- The token between values. -/
def sepLex : GSt → List (LTok × Str)
  | .mapKey => [(.comma, [44])]
  | .inArr => [(.comma, [44])]
  | .mapVal => [(.colon, [58])]
  | _ => []

/-- Where the parser is behind it. -/
def ready : GSt → PSt
  | .mapVal => .mapNeedVal
  | .inArr => .arrNeedVal
  | .mapKey => .mapNeedKey
  | s => corr s

theorem indent_ws (n : Nat) : ∀ c ∈ indent n, isWs c = true := by
  intro c hc
  rw [List.eq_of_mem_replicate hc]
  decide

theorem insertWhitespace_ws (b : Bool) (g : Gen) : ∀ c ∈ insertWhitespace b g, isWs c = true := by
  unfold insertWhitespace
  split
  · exact indent_ws _
  · simp

theorem newline_ws (b : Bool) : ∀ c ∈ (if b then [newline] else [] : Str), isWs c = true := by
  cases b <;> decide

theorem finalNewline_ws (b : Bool) (s : GSt) : ∀ c ∈ finalNewline b s, isWs c = true := by
  unfold finalNewline
  split
  · decide
  · simp

theorem spaced_sep (b : Bool) (g : Gen) : Spaced (sepLex g.cur) (insertSep b g ++ insertWhitespace b g) := by
  have hw := Spaced.blank (insertWhitespace_ws b g)
  have hc : Lexeme .comma [44] := .sign (by decide) (by decide)
  have hd : Lexeme .colon [58] := .sign (by decide) (by decide)
  have hcomma : Spaced [(.comma, [44])] (if b then [44, newline] else [44]) := by
    cases b
    · exact Spaced.one hc
    · exact (Spaced.one hc).append (Spaced.blank (a := [newline]) (by decide))
  have hcolon : Spaced [(.colon, [58])] (if b then [58, space] else [58]) := by
    cases b
    · exact Spaced.one hd
    · exact (Spaced.one hd).append (Spaced.blank (a := [space]) (by decide))
  have hnil : Spaced [] ([] : Str) := .nil (by simp)
  have key : Spaced (sepLex g.cur) (insertSep b g) := by
    unfold insertSep
    cases h : g.cur <;> simp [sepLex] <;> assumption
  have := key.append hw
  simpa using this

theorem step_sep (s : GSt) (o : List PSt) : stepAll (corr s) o (sepLex s) = some (ready s, o, []) := by
  cases s <;> rfl

theorem gotValue_ready {s : GSt} (h : ValPos s) : gotValue (ready s) = corr (appendedAtom s) := by
  rcases h with h | h | h | h <;> subst h <;> rfl

theorem onTok_ready {s : GSt} (h : ValPos s) (o : List PSt) (k : LTok) (w : Str) :
    onTok (ready s) o k w = onValue (ready s) o k w := by
  rcases h with h | h | h | h <;> subst h <;> rfl

theorem valid_pos {g : Gen} (h : ValPos g.cur) : valid g = true ∧ notKey g = true := by
  unfold valid notKey
  rcases h with h | h | h | h <;> rw [h] <;> decide

theorem corr_ok (s : GSt) : corr s ≠ .parseError ∧ corr s ≠ .lexError := by
  cases s <;> decide

theorem genAll_append (b : Bool) : ∀ {ts us : List Tok} {g g1 g2 o1 o2}, genAll b g ts = .ok g1 o1 →
    genAll b g1 us = .ok g2 o2 → genAll b g (ts ++ us) = .ok g2 (o1 ++ o2)
  | [], us, g, g1, g2, o1, o2, h1, h2 => by
    cases h1
    exact h2
  | t :: ts, us, g, g1, g2, o1, o2, h1, h2 => by
    rw [List.cons_append, genAll]
    rw [genAll] at h1
    cases ht : genTok b g t with
    | refused => rw [ht] at h1; cases h1
    | ok g' o =>
      rw [ht] at h1
      simp only at h1 ⊢
      cases hs : genAll b g' ts with
      | refused => rw [hs] at h1; cases h1
      | ok g'' o' =>
        rw [hs] at h1
        cases h1
        rw [genAll_append b hs h2]
        simp

theorem genAll_one (b : Bool) {g g' : Gen} {t : Tok} {o : Str} (h : genTok b g t = .ok g' o) :
    genAll b g [t] = .ok g' o := by
  rw [genAll, h]
  simp [genAll]

/-- What the generator writes for some calls, and what the parser makes of it. -/
def Works (b : Bool) (g g' : Gen) (ts : List Tok) : Prop :=
  ∃ out l, genAll b g ts = .ok g' out ∧ Spaced l out ∧
    stepAll (corr g.cur) (corrOuter g.outer) l = some (corr g'.cur, corrOuter g'.outer, ts)

theorem Works.nil (b : Bool) (g : Gen) : Works b g g [] := ⟨[], [], rfl, .nil (by simp), rfl⟩

theorem Works.append {b : Bool} {g g1 g2 : Gen} {ts us : List Tok} (h1 : Works b g g1 ts) (h2 : Works b g1 g2 us) :
    Works b g g2 (ts ++ us) := by
  obtain ⟨o1, l1, a1, a2, a3⟩ := h1
  obtain ⟨o2, l2, b1, b2, b3⟩ := h2
  exact ⟨o1 ++ o2, l1 ++ l2, genAll_append b a1 b1, a2.append b2, stepAll_append a3 b3⟩

/-- A string, a number, or the beginning of something. -/
theorem works_atom {b : Bool} {g g' : Gen} {t : Tok} {k : LTok} {w a : Str}
    (hg : genTok b g t = .ok g' (insertSep b g ++ insertWhitespace b g ++ w ++ a))
    (ha : ∀ c ∈ a, isWs c = true) (hl : Lexeme k w)
    (hp : onTok (ready g.cur) (corrOuter g.outer) k w = .next (corr g'.cur) (corrOuter g'.outer) [t]) :
    Works b g g' [t] := by
  refine ⟨_, sepLex g.cur ++ ([(k, w)] ++ []), genAll_one b hg, ?_, ?_⟩
  · rw [List.append_assoc]
    exact (spaced_sep b g).append ((Spaced.one hl).append (Spaced.blank ha))
  · have := stepAll_append (step_sep g.cur (corrOuter g.outer))
      (stepAll_one hp (corr_ok _).1 (corr_ok _).2)
    simpa using this

theorem works_int {b : Bool} {g : Gen} {v : Int} (h : ValPos g.cur) (h1 : -9223372036854775807 ≤ v)
    (h2 : v ≤ 9223372036854775807) : Works b g ⟨appendedAtom g.cur, g.outer⟩ [.int v] := by
  refine works_atom (k := .integer) (w := showInt v) (a := finalNewline b (appendedAtom g.cur)) ?_
    (finalNewline_ws _ _) (.int v) ?_
  · rw [genTok, genInteger, if_pos (valid_pos h)]
    rfl
  · rw [onTok_ready h, onValue, parseInteger_show h1 h2, gotValue_ready h]

theorem works_str {b : Bool} {g : Gen} {s : Str} (h : ValPos g.cur) :
    Works b g ⟨appendedAtom g.cur, g.outer⟩ [.str s] := by
  refine works_atom (k := .string (s.any escaped)) (w := quote :: (encode s ++ [quote]))
    (a := finalNewline b (appendedAtom g.cur)) ?_ (finalNewline_ws _ _) (.str s) ?_
  · rw [genTok, genString, if_pos (valid_pos h).1, atom]
    simp
  · rw [onTok_ready h, onValue, stringOf_encode, gotValue_ready h]

theorem works_key {b : Bool} {g : Gen} {s : Str} (h : g.cur = .mapStart ∨ g.cur = .mapKey) :
    Works b g ⟨.mapVal, g.outer⟩ [.key s] := by
  refine works_atom (k := .string (s.any escaped)) (w := quote :: (encode s ++ [quote])) (a := []) ?_ (by simp) (.str s) ?_
  · rw [genTok, genString, if_pos (by unfold valid; rcases h with h | h <;> rw [h] <;> decide), atom]
    rcases h with h | h <;> simp [h, appendedAtom, finalNewline]
  · rcases h with h | h <;> rw [h] <;> simp only [ready, corr, onTok] <;> rw [stringOf_encode]

theorem works_startMap {b : Bool} {g : Gen} (h : ValPos g.cur) (hd : g.outer.length + 1 < maxDepth) :
    Works b g ⟨.mapStart, g.cur :: g.outer⟩ [.startMap] := by
  refine works_atom (k := .leftBracket) (w := [123]) (a := if b then [newline] else []) ?_ (newline_ws b)
    (.sign (by decide) (by decide)) ?_
  · rw [genTok, genOpen, if_pos (valid_pos h), if_neg (by omega)]
  · rw [onTok_ready h, onValue, gotValue_ready h]
    rfl

theorem works_startArr {b : Bool} {g : Gen} (h : ValPos g.cur) (hd : g.outer.length + 1 < maxDepth) :
    Works b g ⟨.arrStart, g.cur :: g.outer⟩ [.startArr] := by
  refine works_atom (k := .leftBrace) (w := [91]) (a := if b then [newline] else []) ?_ (newline_ws b)
    (.sign (by decide) (by decide)) ?_
  · rw [genTok, genOpen, if_pos (valid_pos h), if_neg (by omega)]
  · rw [onTok_ready h, onValue, gotValue_ready h]
    rfl

/-- The end of something. -/
theorem works_close {b : Bool} {c s : GSt} {ss : List GSt} {t : Tok} {k : LTok} {d : Byte}
    (hc : c ≠ .complete) (ht : genTok b ⟨c, s :: ss⟩ t = genClose b ⟨c, s :: ss⟩ d) (hl : Lexeme k [d])
    (hp : onTok (corr c) (corrOuter (s :: ss)) k [d] = pop (corrOuter (s :: ss)) [t]) :
    Works b ⟨c, s :: ss⟩ ⟨appendedAtom s, ss⟩ [t] := by
  refine ⟨(if b then [newline] else []) ++ insertWhitespace b ⟨appendedAtom s, ss⟩ ++ [d] ++
      finalNewline b (appendedAtom s), [] ++ ([] ++ ([(k, [d])] ++ [])), genAll_one b (ht.trans ?_), ?_, ?_⟩
  · rw [genClose, if_pos (by unfold valid; simp [hc])]
  · rw [List.append_assoc, List.append_assoc]
    exact (Spaced.blank (newline_ws b)).append ((Spaced.blank (insertWhitespace_ws _ _)).append
      ((Spaced.one hl).append (Spaced.blank (finalNewline_ws _ _))))
  · simp only [List.nil_append, List.append_nil]
    exact stepAll_one hp (corr_ok _).1 (corr_ok _).2

theorem works_endMap {b : Bool} {c s : GSt} {ss : List GSt} (hc : c = .mapStart ∨ c = .mapKey) :
    Works b ⟨c, s :: ss⟩ ⟨appendedAtom s, ss⟩ [.endMap] := by
  refine works_close (k := .rightBracket) (d := 125) (by rcases hc with h | h <;> rw [h] <;> decide) rfl
    (.sign (by decide) (by decide)) ?_
  rcases hc with h | h <;> rw [h] <;> rfl

theorem works_endArr {b : Bool} {c s : GSt} {ss : List GSt} (hc : c = .arrStart ∨ c = .inArr) :
    Works b ⟨c, s :: ss⟩ ⟨appendedAtom s, ss⟩ [.endArr] := by
  refine works_close (k := .rightBrace) (d := 93) (by rcases hc with h | h <;> rw [h] <;> decide) rfl
    (.sign (by decide) (by decide)) ?_
  rcases hc with h | h <;> rw [h] <;> rfl

mutual
/-- A value. -/
theorem works_val (b : Bool) : ∀ (v : J) (g : Gen), ValPos g.cur → v.Plain → g.outer.length + v.depth < maxDepth →
    Works b g ⟨appendedAtom g.cur, g.outer⟩ v.toks
  | .int v, g, hg, hp, _ => by
    rw [J.Plain] at hp
    rw [J.toks]
    exact works_int hg hp.1 hp.2
  | .str s, g, hg, _, _ => by
    rw [J.toks]
    exact works_str hg
  | .other, g, _, hp, _ => by
    rw [J.Plain] at hp
    exact hp.elim
  | .arr vs, g, hg, hp, hd => by
    rw [J.Plain] at hp
    rw [J.depth] at hd
    rw [J.toks]
    obtain ⟨c, hc, hv⟩ := works_vals b vs ⟨.arrStart, g.cur :: g.outer⟩ (.inl rfl) hp
      (by simp only [List.length_cons]; omega)
    exact (works_startArr hg (by omega)).append (hv.append (works_endArr hc))
  | .obj ms, g, hg, hp, hd => by
    rw [J.Plain] at hp
    rw [J.depth] at hd
    rw [J.toks]
    obtain ⟨c, hc, hv⟩ := works_mems b ms ⟨.mapStart, g.cur :: g.outer⟩ (.inl rfl) hp
      (by simp only [List.length_cons]; omega)
    exact (works_startMap hg (by omega)).append (hv.append (works_endMap hc))

/-- The values of an array. -/
theorem works_vals (b : Bool) : ∀ (vs : Js) (g : Gen), g.cur = .arrStart ∨ g.cur = .inArr → vs.Plain →
    g.outer.length + vs.depth < maxDepth →
    ∃ c, (c = .arrStart ∨ c = .inArr) ∧ Works b g ⟨c, g.outer⟩ vs.toks
  | .nil, g, hg, _, _ => ⟨g.cur, hg, by rw [Js.toks]; exact Works.nil b g⟩
  | .cons v vs, g, hg, hp, hd => by
    rw [Js.Plain] at hp
    rw [Js.depth] at hd
    have h1 := works_val b v g (by rcases hg with h | h <;> simp [ValPos, h]) hp.1 (by omega)
    have h2 : appendedAtom g.cur = .inArr := by rcases hg with h | h <;> rw [h] <;> rfl
    rw [h2] at h1
    obtain ⟨c, hc, h3⟩ := works_vals b vs ⟨.inArr, g.outer⟩ (.inr rfl) hp.2 (by simp only; omega)
    refine ⟨c, hc, ?_⟩
    rw [Js.toks]
    exact h1.append h3

/-- The members of an object. -/
theorem works_mems (b : Bool) : ∀ (ms : Ms) (g : Gen), g.cur = .mapStart ∨ g.cur = .mapKey → ms.Plain →
    g.outer.length + ms.depth < maxDepth →
    ∃ c, (c = .mapStart ∨ c = .mapKey) ∧ Works b g ⟨c, g.outer⟩ ms.toks
  | .nil, g, hg, _, _ => ⟨g.cur, hg, by rw [Ms.toks]; exact Works.nil b g⟩
  | .cons k v ms, g, hg, hp, hd => by
    rw [Ms.Plain] at hp
    rw [Ms.depth] at hd
    have h1 := works_val b v ⟨.mapVal, g.outer⟩ (by simp [ValPos]) hp.1 (by simp only; omega)
    obtain ⟨c, hc, h3⟩ := works_mems b ms ⟨.mapKey, g.outer⟩ (.inr rfl) hp.2 (by simp only; omega)
    refine ⟨c, hc, ?_⟩
    rw [Ms.toks]
    exact (works_key hg).append (h1.append h3)
end

end Verif.Yajl
