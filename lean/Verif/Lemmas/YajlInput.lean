import Verif.Lemmas.YajlRead

/-!
# Lines of JSON text, and what a monitor client makes of them
-/

namespace Verif.JsonInput

/-- How a call changes the depth. -/
def Tok.delta : Tok → Int
  | .startMap => 1
  | .endMap => -1
  | _ => 0

/-- How calls change the depth. -/
def bal (ts : List Tok) : Int := (ts.map Tok.delta).sum

theorem setEnt_depth {s s' : St} {f} (h : setEnt s f = .ok s') : s'.depth = s.depth := by
  unfold setEnt at h
  repeat' split at h
  all_goals first | (cases h; rfl) | cases h

theorem addToBuList_depth (s : St) : (addToBuList s).depth = s.depth := by
  unfold addToBuList
  split <;> rfl

theorem integer_depth {s s' : St} {v} (h : integer s v = .ok s') : s'.depth = s.depth := by
  unfold integer at h
  simp only at h
  repeat' split at h
  all_goals first | exact setEnt_depth h | (cases h; rfl) | cases h

theorem string_depth {s s' : St} {v} (h : string s v = .ok s') : s'.depth = s.depth := by
  unfold string at h
  simp only at h
  repeat' split at h
  all_goals first | (cases h; rfl) | cases h

theorem startArr_depth {now} {s s' : St} (h : startArr now s = .ok s') : s'.depth = s.depth := by
  unfold startArr startCounters at h
  simp only at h
  repeat' split at h
  all_goals first | (cases h; rfl) | cases h

theorem endArr_depth {s s' : St} (h : endArr s = .ok s') : s'.depth = s.depth := by
  unfold endArr at h
  simp only at h
  repeat' split at h
  all_goals first | (cases h; rfl) | (cases h; exact addToBuList_depth _) | cases h

theorem step_depth {now} {s s' : St} {t : Tok} (h : step now s t = .ok s') : s'.depth = s.depth + t.delta := by
  cases t with
  | int v => rw [integer_depth h]; simp [Tok.delta]
  | str v => rw [string_depth h]; simp [Tok.delta]
  | key v =>
    rw [step, mapKey] at h
    split at h
    · cases h
      simp [Tok.delta]
    · cases h
  | startMap => cases h; rfl
  | endMap =>
    rw [step, endMap] at h
    split at h
    · cases h
      rw [addToBuList_depth]
      rfl
    · cases h
      rfl
  | startArr => rw [startArr_depth h]; simp [Tok.delta]
  | endArr => rw [endArr_depth h]; simp [Tok.delta]

theorem feed_depth {now} : ∀ {ts : List Tok} {s s' : St}, feed now s ts = .ok s' → s'.depth = s.depth + bal ts
  | [], s, s', h => by
    cases h
    simp [bal]
  | t :: ts, s, s', h => by
    rw [feed] at h
    cases ht : step now s t with
    | ok s1 =>
      rw [ht] at h
      rw [feed_depth h, step_depth ht]
      simp only [bal, List.map_cons, List.sum_cons]
      omega
    | stop => rw [ht] at h; cases h
    | undefined => rw [ht] at h; cases h

/-- If all of the calls can be made, so can the first of them, and then the others. -/
theorem feed_split {now} : ∀ {ts us : List Tok} {s s' : St}, feed now s (ts ++ us) = .ok s' →
    ∃ s1, feed now s ts = .ok s1 ∧ feed now s1 us = .ok s'
  | [], us, s, s', h => ⟨s, rfl, h⟩
  | t :: ts, us, s, s', h => by
    rw [List.cons_append, feed] at h
    rw [feed]
    cases ht : step now s t with
    | ok s1 =>
      rw [ht] at h
      exact feed_split h
    | stop => rw [ht] at h; cases h
    | undefined => rw [ht] at h; cases h

end Verif.JsonInput

namespace Verif.Yajl
open Verif.JsonInput

theorem bal_append (a b : List Tok) : bal (a ++ b) = bal a + bal b := by
  simp [bal]

/-- Every piece of it leaves the depth where it is or above. -/
def Even (ts : List Tok) : Prop := bal ts = 0 ∧ ∀ q, q <+: ts → 0 ≤ bal q

theorem even_nil : Even [] := ⟨rfl, fun q h => by rw [List.prefix_nil.mp h]; decide⟩

theorem even_append {a b : List Tok} (ha : Even a) (hb : Even b) : Even (a ++ b) := by
  refine ⟨by rw [bal_append, ha.1, hb.1]; rfl, ?_⟩
  rintro q ⟨r, hr⟩
  rcases List.append_eq_append_iff.mp hr with ⟨x, hx, _⟩ | ⟨x, hx, hy⟩
  · exact ha.2 q ⟨x, hx.symm⟩
  · rw [hx, bal_append, ha.1]
    have := hb.2 x ⟨r, hy.symm⟩
    omega

theorem even_one {t : Tok} (h : t.delta = 0) : Even [t] := by
  refine ⟨by simp [bal, h], ?_⟩
  intro q hq
  cases q with
  | nil => decide
  | cons x q =>
    obtain ⟨r, hr⟩ := hq
    injection hr with h1 h2
    have h3 : q = [] := (List.append_eq_nil_iff.mp h2).1
    subst h1 h3
    simp [bal, h]

/-- Inside the object. -/
theorem bal_inside {m q : List Tok} (hm : Even m) (hq : q <+: .startMap :: m) (hne : q ≠ []) : 1 ≤ bal q := by
  cases q with
  | nil => exact absurd rfl hne
  | cons x q =>
    obtain ⟨r, hr⟩ := hq
    injection hr with h1 h2
    have := hm.2 q ⟨r, h2⟩
    subst h1
    simp only [bal, List.map_cons, List.sum_cons, Tok.delta] at this ⊢
    omega

theorem even_map {m : List Tok} (hm : Even m) : Even (.startMap :: (m ++ [.endMap])) := by
  refine ⟨?_, ?_⟩
  · have := hm.1
    simp only [bal, List.map_cons, List.map_append, List.sum_cons, List.sum_append, List.map_nil, List.sum_nil,
      Tok.delta] at this ⊢
    omega
  · intro q hq
    by_cases hne : q = []
    · subst hne
      decide
    · have hq' : q <+: (.startMap :: m) ++ [.endMap] := hq
      rcases List.prefix_concat_iff.mp hq' with h | h
      · subst h
        have := hm.1
        simp only [bal, List.map_cons, List.map_append, List.sum_cons, List.sum_append, List.map_nil, List.sum_nil,
          Tok.delta, List.cons_append] at this ⊢
        omega
      · have := bal_inside hm h hne
        omega

mutual
theorem even_val : ∀ v : J, Even v.toks
  | .int v => by rw [J.toks]; exact even_one rfl
  | .str s => by rw [J.toks]; exact even_one rfl
  | .other => by rw [J.toks]; exact even_nil
  | .arr vs => by
    rw [J.toks]
    exact even_append (a := [.startArr]) (even_one rfl) (even_append (even_vals vs) (even_one rfl))
  | .obj ms => by
    rw [J.toks]
    exact even_map (even_mems ms)
theorem even_vals : ∀ vs : Js, Even vs.toks
  | .nil => by rw [Js.toks]; exact even_nil
  | .cons v vs => by
    rw [Js.toks]
    exact even_append (even_val v) (even_vals vs)
theorem even_mems : ∀ ms : Ms, Even ms.toks
  | .nil => by rw [Ms.toks]; exact even_nil
  | .cons k v ms => by
    rw [Ms.toks]
    exact even_append (a := [.key k]) (even_one rfl) (even_append (even_val v) (even_mems ms))
end

/-! ### Lines -/

theorem takeWhile_line : ∀ {a b : Str}, newline ∉ a →
    (a ++ newline :: b).takeWhile (· ≠ newline) = a ∧ (a ++ newline :: b).dropWhile (· ≠ newline) = newline :: b
  | [], b, _ => ⟨rfl, rfl⟩
  | c :: a, b, h => by
    simp only [List.mem_cons, not_or] at h
    have hc : c ≠ newline := fun e => h.1 e.symm
    obtain ⟨h1, h2⟩ := takeWhile_line (b := b) h.2
    rw [List.cons_append, List.takeWhile_cons, List.dropWhile_cons, if_pos (by simpa using hc), if_pos (by simpa using hc),
      h1, h2]
    exact ⟨rfl, rfl⟩

theorem getLine_line {a b : Str} (h : newline ∉ a) (hl : a.length + 1 < bufMax) :
    getLine (a ++ newline :: b) = .line (strip a) b := by
  obtain ⟨h1, h2⟩ := takeWhile_line (b := b) h
  unfold getLine
  simp only [h1, h2]
  rw [if_neg (by omega), strip_newline]

theorem getLine_none {a : Str} (h : newline ∉ a) : getLine a = .none := by
  have : a.dropWhile (· ≠ newline) = [] := by
    rw [dropWhile_nil]
    intro c hc
    exact decide_eq_true (fun e => h (e ▸ hc))
  unfold getLine
  simp only [this]

theorem getLines_line {buf l rest : Str} (h : getLine buf = .line l rest) :
    getLines buf = (getLines rest).map (fun p => (l :: p.1, p.2)) := by
  rw [getLines]
  split
  · next heq => rw [h] at heq; cases heq
  · next heq => rw [h] at heq; cases heq
  · next heq => rw [h] at heq; cases heq; rfl

theorem getLines_none {buf : Str} (h : getLine buf = .none) : getLines buf = some ([], buf) := by
  rw [getLines]
  split
  · rfl
  · next heq => rw [h] at heq; cases heq
  · next heq => rw [h] at heq; cases heq

theorem short_tail {a b : Str} (h : Short (a ++ b)) : Short b := by
  intro x l y hy hl
  exact h (a ++ x) l y (by rw [hy]; simp) hl

theorem newline_split : ∀ t : Str, newline ∉ t ∨ ∃ a b, t = a ++ newline :: b ∧ newline ∉ a
  | [] => .inl (by simp)
  | c :: t => by
    by_cases hc : c = newline
    · exact .inr ⟨[], t, by rw [hc]; rfl, by simp⟩
    · rcases newline_split t with h | ⟨a, b, h1, h2⟩
      · exact .inl (by simp [h, Ne.symm hc])
      · exact .inr ⟨c :: a, b, by rw [h1]; rfl, by simp [h2, Ne.symm hc]⟩

/-- The lines of a text that ends with a bracket and the end of the line. -/
theorem getLines_spaced (rest : Str) : ∀ (n : Nat) (y : Str) (l : List (LTok × Str)), y.length ≤ n → Spaced l y →
    Short (y ++ [125, newline]) →
    ∃ (Ls : List (List (LTok × Str) × Str)) (l2 : List (LTok × Str)) (y2 : Str),
      getLines (y ++ 125 :: newline :: rest) =
        (getLines rest).map (fun p => (Ls.map (·.2) ++ (y2 ++ [125]) :: p.1, p.2)) ∧
      (∀ p ∈ Ls, Spaced p.1 p.2) ∧ Spaced l2 y2 ∧ (Ls.map (·.1)).flatten ++ l2 = l ∧
      (∀ y', y = 123 :: y' → ∀ p Ls', Ls = p :: Ls' → ∃ z, p.2 = 123 :: z)
  | n, y, l, hn, hs, hsh => by
    rcases newline_split y with h | ⟨a, b, rfl, ha⟩
    · refine ⟨[], l, y, ?_, by simp, hs, rfl, ?_⟩
      · have h1 : newline ∉ y ++ [125] := by
          simp only [List.mem_append, List.mem_singleton, not_or]
          exact ⟨h, by decide⟩
        have h2 : y ++ 125 :: newline :: rest = (y ++ [125]) ++ newline :: rest := by simp
        have h3 : (y ++ [125]).length + 1 < bufMax := hsh [] (y ++ [125]) [newline] (by simp) h1
        rw [h2, getLines_line (getLine_line h1 h3), strip_append y (by decide)]
        rfl
      · intro _ _ _ _ h
        cases h
    · cases n with
      | zero => simp at hn
      | succ n =>
        obtain ⟨l1, l2, h1, h2, h3⟩ := hs.split rfl ha
        have hlen : a.length + 1 < bufMax := hsh [] a (newline :: (b ++ [125, newline])) (by simp) ha
        obtain ⟨Ls, l3, y2, k1, k2, k3, k4, _⟩ := getLines_spaced rest n b l2
          (by simp only [List.length_append, List.length_cons] at hn; omega) h3
          (short_tail (a := a ++ [newline]) (by simpa using hsh))
        refine ⟨(l1, Yajl.strip a) :: Ls, l3, y2, ?_, ?_, k3, ?_, ?_⟩
        · have h4 : (a ++ newline :: b) ++ 125 :: newline :: rest = a ++ newline :: (b ++ 125 :: newline :: rest) := by
            simp
          rw [h4, getLines_line (getLine_line ha hlen), k1]
          cases getLines rest <;> rfl
        · intro p hp
          rcases List.mem_cons.mp hp with h | h
          · rw [h]
            exact h2.strip
          · exact k2 p h
        · rw [h1, ← k4]
          simp
        · intro y' hy' p Ls' hp
          injection hp with hp1 hp2
          rw [← hp1]
          cases a with
          | nil =>
            injection hy' with e1 e2
            exact absurd e1 (by decide)
          | cons c a =>
            injection hy' with e1 e2
            rw [e1]
            have := strip_append [] (c := 123) (by decide) a
            exact ⟨Yajl.strip a, this⟩

theorem stepAll_split : ∀ {l1 l2 : List (LTok × Str)} {cur outer c o calls},
    stepAll cur outer (l1 ++ l2) = some (c, o, calls) →
    ∃ c1 o1 k1 k2, stepAll cur outer l1 = some (c1, o1, k1) ∧ calls = k1 ++ k2
  | [], l2, cur, outer, c, o, calls, _ => ⟨cur, outer, [], calls, rfl, rfl⟩
  | x :: l1, l2, cur, outer, c, o, calls, h => by
    rw [List.cons_append, stepAll] at h
    rw [stepAll]
    cases ho : onTok cur outer x.1 x.2 with
    | undef => rw [ho] at h; cases h
    | next c1 o1 k1 =>
      rw [ho] at h
      simp only at h ⊢
      by_cases he : c1 = .parseError ∨ c1 = .lexError
      · rw [if_pos he] at h
        cases h
      · rw [if_neg he] at h ⊢
        cases hr : stepAll c1 o1 (l1 ++ l2) with
        | none => rw [hr] at h; cases h
        | some r =>
          rw [hr] at h
          obtain ⟨c', o', k'⟩ := r
          cases h
          obtain ⟨c2, o2, k2, k3, h1, h2⟩ := stepAll_split hr
          refine ⟨c2, o2, k1 ++ k2, k3, by rw [h1]; rfl, by rw [h2, List.append_assoc]⟩

theorem spaced_flatten : ∀ {Ls : List (List (LTok × Str) × Str)}, (∀ p ∈ Ls, Spaced p.1 p.2) →
    Spaced (Ls.map (·.1)).flatten (Ls.map (·.2)).flatten
  | [], _ => .nil (by simp)
  | p :: Ls, h => by
    simp only [List.map_cons, List.flatten_cons]
    exact (h p (by simp)).append (spaced_flatten (fun q hq => h q (by simp [hq])))

theorem parse_init (t : Str) : parse .init t = parseText .start [] t := by
  unfold parse Parser.init
  simp

/-- A text that begins with a bracket. -/
theorem parse_open (z : Str) : (parse .init (123 :: z)).calls ≠ [] := by
  have h1 : lexTok (123 :: z) = .tok .leftBracket [123] z := by
    have := lexTok_lexeme (k := .leftBracket) (w := [123]) (.sign (by decide) (by decide)) (t := z)
      (fun h => by cases h)
    simpa using this
  rw [parse_init, parseText_tok h1]
  simp [onTok, onValue, gotValue, Parsed.next, Parsed.after]

/-! ### Answers -/

/-- What the server writes for an object. -/
theorem answer_shape (b : Bool) {ms : Ms} (hp : (J.obj ms).Plain) (hd : (J.obj ms).depth < maxDepth) :
    ∃ y l c o, answerText b (J.obj ms).toks = some (y ++ [125, newline]) ∧ Spaced l y ∧ (∃ y', y = 123 :: y') ∧
      stepAll .start [] l = some (c, o, .startMap :: ms.toks) ∧
      stepAll c o [(.rightBracket, [125])] = some (.complete, [], [.endMap]) := by
  rw [J.Plain] at hp
  rw [J.depth] at hd
  obtain ⟨c, hc, out, l, h1, h2, h3⟩ := works_mems b ms ⟨.mapStart, [.start]⟩ (.inl rfl) hp
    (by simp only [List.length_cons, List.length_nil]; omega)
  have g0 : genAll b .init [.startMap] = .ok ⟨.mapStart, [.start]⟩ (123 :: if b then [newline] else []) := by
    cases b <;> rfl
  have g2 : genAll b ⟨c, [.start]⟩ [.endMap] =
      .ok ⟨.complete, []⟩ ((if b then [newline] else []) ++ 125 :: if b then [newline] else []) := by
    rcases hc with h | h <;> rw [h] <;> cases b <;> rfl
  have g3 := genAll_append b g0 (genAll_append b h1 g2)
  refine ⟨(123 :: if b then [newline] else []) ++ (out ++ if b then [newline] else []),
    [(.leftBracket, [123])] ++ ([] ++ (l ++ [])), corr c, corrOuter [.start], ?_, ?_, ⟨_, rfl⟩, ?_, ?_⟩
  · unfold answerText
    rw [J.toks, show Tok.startMap :: (ms.toks ++ [Tok.endMap]) = [Tok.startMap] ++ (ms.toks ++ [Tok.endMap]) from rfl, g3]
    cases b <;> simp
  · have k1 : Spaced [(.leftBracket, [123])] [123] := Spaced.one (.sign (by decide) (by decide))
    have k2 := k1.append ((Spaced.blank (newline_ws b)).append (h2.append (Spaced.blank (newline_ws b))))
    simpa using k2
  · have k1 : stepAll .start [] [(.leftBracket, [123])] = some (.mapStart, [.complete], [.startMap]) := rfl
    have k2 := stepAll_append k1 h3
    simpa using k2
  · rcases hc with h | h <;> rw [h] <;> rfl

/-- An object that is over. -/
theorem finish_complete : finish ⟨.complete, [], []⟩ = ⟨.ok, ⟨.complete, [], []⟩, []⟩ := by
  decide +kernel

/-- The lines of an object. -/
theorem inputLines_obj {now : UInt64} {s s' : St} {m : List Tok} (hm : Even m) (h0 : s.depth = 0)
    (hf : feed now s (.startMap :: (m ++ [.endMap])) = .ok s') {l l2 : List (LTok × Str)} {y2 : Str}
    {Ls : List (List (LTok × Str) × Str)} {c o}
    (h1 : stepAll .start [] l = some (c, o, .startMap :: m))
    (h2 : stepAll c o [(.rightBracket, [125])] = some (.complete, [], [.endMap]))
    (hLs : ∀ p ∈ Ls, Spaced p.1 p.2) (hl2 : Spaced l2 y2) (hl : (Ls.map (·.1)).flatten ++ l2 = l)
    (hh : ∀ p Ls', Ls = p :: Ls' → ∃ z, p.2 = 123 :: z) (more : List Str) :
    ∀ (B A : List (List (LTok × Str) × Str)) (r : Reader), Ls = A ++ B →
      r.yajl.getD .init = (parse .init (A.map (·.2)).flatten).parser →
      feed now s (parse .init (A.map (·.2)).flatten).calls = .ok r.st →
      inputLines now r (B.map (·.2) ++ (y2 ++ [125]) :: more) =
        (inputLines now ⟨none, s'⟩ more).map (fun p => (List.replicate B.length 0 ++ result s' :: p.1, p.2)) := by
  have hfull : stepAll .start [] (l ++ [(.rightBracket, [125])]) =
      some (.complete, [], .startMap :: m ++ [.endMap]) := stepAll_append h1 h2
  have hd' : s'.depth = 0 := by
    rw [feed_depth hf, h0, (even_map hm).1]
    rfl
  -- the text so far
  have hok : ∀ A B, Ls = A ++ B → (parse .init (A.map (·.2)).flatten).status = .ok ∧
      (parse .init (A.map (·.2)).flatten).calls <+: .startMap :: m := by
    intro A B hAB
    have k1 : l = (A.map (·.1)).flatten ++ ((B.map (·.1)).flatten ++ l2) := by
      rw [← hl, hAB]
      simp
    rw [k1] at h1
    obtain ⟨c1, o1, k1, k2, k3, k4⟩ := stepAll_split h1
    rw [parse_init]
    obtain ⟨e1, e2⟩ := parseText_prefix (spaced_flatten (fun p hp => hLs p (by rw [hAB]; simp [hp]))) (by decide)
      (by decide) k3
    refine ⟨e1, ?_⟩
    rw [k4]
    exact e2.trans (List.prefix_append _ _)
  have hgood : ∀ A B, Ls = A ++ B → (parse .init (A.map (·.2)).flatten).parser.Good :=
    fun A B hAB => parse_good good_init (hok A B hAB).1
  intro B
  induction B with
  | nil =>
    intro A r hA hy hst
    have hA' : Ls = A := by rw [hA, List.append_nil]
    have k1 : Spaced ((A.map (·.1)).flatten ++ (l2 ++ [(.rightBracket, [125])]))
        ((A.map (·.2)).flatten ++ (y2 ++ [125])) :=
      (spaced_flatten (fun p hp => hLs p (by rw [hA']; exact hp))).append
        (hl2.append (Spaced.one (.sign (by decide) (by decide))))
    have k2 : (A.map (·.1)).flatten ++ (l2 ++ [(LTok.rightBracket, [125])]) = l ++ [(.rightBracket, [125])] := by
      rw [← hl, hA']
      simp
    rw [k2] at k1
    have k3 : parse .init ((A.map (·.2)).flatten ++ (y2 ++ [125])) =
        ⟨.ok, ⟨.complete, [], []⟩, .startMap :: m ++ [.endMap]⟩ := by
      rw [parse_init]
      refine parseText_spaced k1 ?_ hfull
      intro x hx hi
      rw [List.getLast?_append] at hx
      cases hx
      cases hi
    have k4 := parse_append good_init (A.map (·.2)).flatten (y2 ++ [125])
    rw [if_pos (hok A [] hA).1, k3, ← hy] at k4
    have k5 : parse (r.yajl.getD .init) (y2 ++ [125]) =
        ⟨.ok, ⟨.complete, [], []⟩, (parse (r.yajl.getD .init) (y2 ++ [125])).calls⟩ ∧
        .startMap :: m ++ [.endMap] = (parse .init (A.map (·.2)).flatten).calls ++
          (parse (r.yajl.getD .init) (y2 ++ [125])).calls := by
      generalize parse (r.yajl.getD .init) (y2 ++ [125]) = w at *
      obtain ⟨w1, w2, w3⟩ := w
      simp only [Parsed.after, Parsed.mk.injEq] at k4
      obtain ⟨e1, e2, e3⟩ := k4
      subst e1 e2
      exact ⟨rfl, e3⟩
    obtain ⟨k6, k7⟩ := k5
    have k8 : feed now s ((parse .init (A.map (·.2)).flatten).calls ++
          (parse (r.yajl.getD .init) (y2 ++ [125])).calls) = .ok s' := by
      rw [← k7]
      exact hf
    obtain ⟨s1, k9, k10⟩ := feed_split k8
    rw [hst] at k9
    cases k9
    have k11 : jsonInput now r (y2 ++ [125]) = .ret (result s') ⟨none, s'⟩ := by
      unfold jsonInput
      simp only [k10]
      rw [k6]
      simp only [hd', if_true, finish_complete, feed]
    show inputLines now r ((y2 ++ [125]) :: more) = _
    rw [inputLines, k11]
    have k12 : ¬ result s' < 0 := by
      unfold result
      rw [if_pos hd']
      by_cases hw : s'.warnings = []
      · rw [if_pos hw]
        decide
      · rw [if_neg hw]
        decide
    simp only [if_neg k12]
    cases inputLines now ⟨none, s'⟩ more <;> simp
  | cons x B ih =>
    intro A r hA hy hst
    have hA' : Ls = (A ++ [x]) ++ B := by rw [hA]; simp
    have hfl : ((A ++ [x]).map (·.2)).flatten = (A.map (·.2)).flatten ++ x.2 := by simp
    obtain ⟨q1, q2⟩ := hok (A ++ [x]) B hA'
    have k4 := parse_append good_init (A.map (·.2)).flatten x.2
    rw [if_pos (hok A (x :: B) hA).1, ← hy] at k4
    rw [hfl] at q1 q2
    have hne : (parse .init ((A.map (·.2)).flatten ++ x.2)).calls ≠ [] := by
      cases A with
      | nil =>
        obtain ⟨z, hz⟩ := hh x B hA
        rw [hz]
        exact parse_open z
      | cons a A =>
        obtain ⟨z, hz⟩ := hh a (A ++ x :: B) hA
        simp only [List.map_cons, List.flatten_cons, hz, List.cons_append]
        exact parse_open _
    obtain ⟨rest, hrest⟩ := q2
    have k8 : feed now s ((parse .init ((A.map (·.2)).flatten ++ x.2)).calls ++ (rest ++ [.endMap])) = .ok s' := by
      rw [← List.append_assoc, hrest]
      exact hf
    obtain ⟨s1, k9, _⟩ := feed_split k8
    have hdep : s1.depth ≠ 0 := by
      have e1 := feed_depth k9
      have e2 := bal_inside hm ⟨rest, hrest⟩ hne
      omega
    have k10 : feed now r.st (parse (r.yajl.getD .init) x.2).calls = .ok s1 := by
      have e1 : (parse .init ((A.map (·.2)).flatten ++ x.2)).calls =
          (parse .init (A.map (·.2)).flatten).calls ++ (parse (r.yajl.getD .init) x.2).calls := by rw [k4]; rfl
      rw [e1] at k9
      obtain ⟨s2, e2, e3⟩ := feed_split k9
      rw [hst] at e2
      cases e2
      exact e3
    have k11 : jsonInput now r x.2 = .ret 0 ⟨some (parse .init ((A.map (·.2)).flatten ++ x.2)).parser, s1⟩ := by
      unfold jsonInput
      simp only [k10]
      have e1 : (parse (r.yajl.getD .init) x.2).status = .ok := by
        rw [k4] at q1
        exact q1
      have e2 : (parse .init ((A.map (·.2)).flatten ++ x.2)).parser = (parse (r.yajl.getD .init) x.2).parser := by
        rw [k4]
        rfl
      rw [e1, e2]
      simp only [if_neg hdep]
    simp only [List.map_cons, List.cons_append]
    rw [inputLines, k11]
    simp only [show ¬ ((0 : Int) < 0) by decide, if_false]
    rw [ih (A ++ [x]) ⟨some _, s1⟩ hA' (by rw [hfl]; rfl) (by rw [hfl]; exact k9)]
    cases inputLines now ⟨none, s'⟩ more <;> simp [List.replicate_succ]

/-- An object, line by line, and more after it. -/
theorem input_obj {now : UInt64} {s s' : St} {b : Bool} {ms : Ms} {t rest : Str} (hp : (J.obj ms).Plain)
    (hd : (J.obj ms).depth < maxDepth) (ht : answerText b (J.obj ms).toks = some t) (hsh : Short t)
    (h0 : s.depth = 0) (hf : feed now s (J.obj ms).toks = .ok s') :
    ∃ ls k, getLines (t ++ rest) = (getLines rest).map (fun p => (ls ++ p.1, p.2)) ∧
      ∀ more, inputLines now ⟨none, s⟩ (ls ++ more) =
        (inputLines now ⟨none, s'⟩ more).map (fun p => (List.replicate k 0 ++ result s' :: p.1, p.2)) := by
  obtain ⟨y, l, c, o, h1, h2, ⟨y', h3⟩, h4, h5⟩ := answer_shape b hp hd
  rw [h1] at ht
  injection ht with ht
  subst ht
  obtain ⟨Ls, l2, y2, k1, k2, k3, k4, k5⟩ := getLines_spaced rest y.length y l (Nat.le_refl _) h2 hsh
  refine ⟨Ls.map (·.2) ++ [y2 ++ [125]], Ls.length, ?_, ?_⟩
  · rw [show (y ++ [125, newline]) ++ rest = y ++ 125 :: newline :: rest by simp, k1]
    cases getLines rest <;> simp
  · intro more
    rw [J.toks] at hf
    have := inputLines_obj (even_mems ms) h0 hf h4 h5 k2 k3 k4 (k5 y' h3) more Ls [] ⟨none, s⟩ rfl (by
      simp only [List.map_nil, List.flatten_nil, parse_nil good_init]
      rfl) (by
      simp only [List.map_nil, List.flatten_nil, parse_nil good_init]
      rfl)
    simpa using this

end Verif.Yajl
