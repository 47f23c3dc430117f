import Verif.Lemmas.YajlMsg
import Verif.Props.JsonInput

/-!
# C94: JSON text between a server and a monitor client
-/

namespace Verif
open Yajl JsonInput Monitor

/-- Any bytes can be in a string: what is written for them is read back as them. -/
theorem C94_string (s : Str) : decode (encode s) = some s := decode_encode s

/-- The text for an object can be written, on one line or on many, and however it is cut into pieces on its way, the
pieces of the object come out of it, no more and no less, and the end is found. -/
theorem C94_roundtrip (b : Bool) {ms : Ms} (hp : (J.obj ms).Plain) (hd : (J.obj ms).depth < 128) :
    ∃ t, answerText b (J.obj ms).toks = some t ∧ ∀ cs : List Str, cs.flatten = t →
      (parseAll .init cs).status = .ok ∧ (parseAll .init cs).calls = (J.obj ms).toks ∧
      (finish (parseAll .init cs).parser).status = .ok ∧ (finish (parseAll .init cs).parser).calls = [] := by
  obtain ⟨y, l, c, o, h1, h2, _, h4, h5⟩ := answer_shape b hp hd
  refine ⟨_, h1, fun cs hcs => ?_⟩
  have k1 : Spaced (l ++ [(.rightBracket, [125])]) (y ++ [125, newline]) := by
    have := h2.append ((Spaced.one (.sign (by decide) (by decide) : Lexeme .rightBracket [125])).append
      (Spaced.blank (a := [newline]) (by decide)))
    simpa using this
  have k2 := stepAll_append h4 h5
  have k3 : parse .init (y ++ [125, newline]) = ⟨.ok, ⟨.complete, [], []⟩, (J.obj ms).toks⟩ := by
    rw [parse_init, parseText_spaced k1 ?_ k2, J.toks]
    · rfl
    · intro x hx hi
      rw [List.getLast?_append] at hx
      cases hx
      cases hi
  rw [parseAll_flatten cs good_init, hcs, k3, finish_complete]
  exact ⟨rfl, rfl, rfl, rfl⟩

/-- Objects with the same text have the same pieces. -/
theorem C94_injective {b b' : Bool} {ms ms' : Ms} (hp : (J.obj ms).Plain) (hd : (J.obj ms).depth < 128)
    (hp' : (J.obj ms').Plain) (hd' : (J.obj ms').depth < 128)
    (h : answerText b (J.obj ms).toks = answerText b' (J.obj ms').toks) : (J.obj ms).toks = (J.obj ms').toks := by
  obtain ⟨t, h1, h2⟩ := C94_roundtrip b hp hd
  obtain ⟨t', k1, k2⟩ := C94_roundtrip b' hp' hd'
  rw [h1, k1] at h
  injection h with h
  rw [← (h2 [t] (by simp)).2.1, ← (k2 [t] (by simp [h])).2.1]

/-- Where a text is cut makes no difference, whatever the text is. -/
theorem C94_chunks (cs cs' : List Str) (h : cs.flatten = cs'.flatten) : parseAll .init cs = parseAll .init cs' := by
  rw [parseAll_flatten cs good_init, parseAll_flatten cs' good_init, h]

/-- No text makes the parser go wrong in a way that is not defined, unless a number with nineteen digits is in
it. -/
theorem C94_defined_partial (cs : List Str) (h : ¬ digitRun 19 cs.flatten) : (parseAll .init cs).status ≠ .undef := by
  intro e
  rw [parseAll_flatten cs good_init, parse_init] at e
  exact h ((parseText_part _ _ .start [] [] (Nat.le_refl _) (by decide) (by decide) .start).2.2.2 e)

/-- Digits are read as the number that they stand for, or, if that is not a number of 64 bits, refused: unless the
first nineteen of them or so are one of seven numbers from 922337203685477581 on, see `C94_defined_violated`. -/
theorem C94_number_partial (ds : Str) (hne : ds ≠ []) (hd : ∀ c ∈ ds, 48 ≤ c.toNat ∧ c.toNat ≤ 57)
    (h : ∀ p q, p ++ q = ds → q ≠ [] →
      digitsValue 0 p < 922337203685477581 ∨ 922337203685477587 < digitsValue 0 p) :
    (digitsValue 0 ds ≤ 9223372036854775807 →
      parseInteger ds = .val (digitsValue 0 ds) ∧ parseInteger (45 :: ds) = .val (-digitsValue 0 ds)) ∧
    (9223372036854775807 < digitsValue 0 ds → parseInteger ds = .erange ∧ parseInteger (45 :: ds) = .erange) := by
  have hv := parseDigits_value (r := 0) (by decide) ds hd (by decide) h
  have hm : llongMax = 9223372036854775807 := rfl
  have sign : ∀ b : Byte, b.toNat < 48 → ds.head? ≠ some b := by
    intro b hb he
    cases ds with
    | nil => exact hne rfl
    | cons c t =>
      cases he
      have := hd b (List.mem_cons_self ..)
      omega
  have s1 := sign 45 (by decide)
  have s2 := sign 43 (by decide)
  have k1 : parseInteger ds = parseDigits 0 ds := by
    unfold parseInteger
    simp only [s1, if_false, s2]
    cases parseDigits 0 ds <;> rfl
  have k2 : parseInteger (45 :: ds) = match parseDigits 0 ds with
      | .val v => .val (-v)
      | r => r := by
    unfold parseInteger
    simp only [List.head?_cons, if_true, List.tail_cons, s2, if_false]
    cases parseDigits 0 ds <;> rfl
  rw [k1, k2, hv]
  constructor
  · intro hle
    rw [if_pos (by omega)]
    exact ⟨rfl, rfl⟩
  · intro hgt
    rw [if_neg (by omega)]
    exact ⟨rfl, rfl⟩

/-- Whatever the text is, what comes out of it are the first pieces of some value, and numbers that are in range; and
if the parser finds nothing wrong with the text up to its end, they are all the pieces of a value. -/
theorem C94_wellformed (cs : List Str) :
    (∃ v : J, (parseAll .init cs).calls <+: v.toks) ∧
    (∀ n, Tok.int n ∈ (parseAll .init cs).calls → -9223372036854775807 ≤ n ∧ n ≤ 9223372036854775807) ∧
    ((parseAll .init cs).status = .ok → (finish (parseAll .init cs).parser).status = .ok →
      ∃ v : J, (parseAll .init cs).calls ++ (finish (parseAll .init cs).parser).calls = v.toks) := by
  have key := fun t => parseText_part t.length t .start [] [] (Nat.le_refl _) (by decide) (by decide) .start
  rw [parseAll_flatten cs good_init]
  refine ⟨?_, ?_, ?_⟩
  · rw [parse_init]
    exact (key _).1
  · rw [parse_init]
    exact (key _).2.1
  · intro h1 h2
    have h3 := parse_append good_init cs.flatten [space]
    rw [if_pos h1] at h3
    unfold finish at h2 ⊢
    simp only at h2 ⊢
    by_cases hs : (parse (parse .init cs.flatten).parser [space]).status = .ok
    · rw [if_neg (by simp [hs])] at h2 ⊢
      by_cases hc : (parse (parse .init cs.flatten).parser [space]).parser.cur = .complete
      · rw [if_pos hc]
        have h4 := (key (cs.flatten ++ [space])).2.2.1
        rw [← parse_init, h3] at h4
        have h5 := h4 hs
        simp only [Parsed.after, List.nil_append] at h5
        rw [hc] at h5
        generalize (parse (parse .init cs.flatten).parser [space]).parser.outer = o at h5
        generalize (parse .init cs.flatten).calls ++ (parse (parse .init cs.flatten).parser [space]).calls = w at h5
        cases h5 with
        | complete v => exact ⟨v, rfl⟩
        | arr vs _ _ h => simp at h
        | obj ms _ _ h => simp at h
        | key ms k _ _ h => simp at h
      · rw [if_neg hc] at h2
        cases h2
    · rw [if_pos hs] at h2
      exact absurd h2 hs

/-- The lines of what the server sends come out of the buffer whole and in order, without the space at their ends,
however the bytes arrive; and there is always room for more. -/
theorem C94_lines (reads : List Str) (hs : Short reads.flatten) (ha : Arrive [] reads) :
    readLines [] reads = some ((cut reads.flatten).1.map Yajl.strip, (cut reads.flatten).2) ∧
      (cut reads.flatten).2.length + 1 < bufMax := by
  constructor
  · exact readLines_cut reads [] [] rfl (by simpa using hs) ha
  · obtain ⟨h1, a, h2⟩ := cut_rest reads.flatten.length reads.flatten (Nat.le_refl _)
    exact hs a _ [] (by rw [List.append_nil]; exact h2) h1

/-- A text of several answers. -/
theorem texts {now : UInt64} : ∀ (vs : List (Bool × Ms)) (ts : List Str) (s s' : St) (rs : List Int), s.depth = 0 →
    (∀ v ∈ vs, (J.obj v.2).Plain ∧ (J.obj v.2).depth < 128) →
    vs.map (fun v => answerText v.1 (J.obj v.2).toks) = ts.map some → Short ts.flatten →
    tell now s (vs.map (fun v => .obj v.2)) = some (rs, s') →
    ∃ ls ns, getLines ts.flatten = some (ls, []) ∧ inputLines now ⟨none, s⟩ ls = some (ns, ⟨none, s'⟩) ∧
      ns.filter (· ≠ 0) = rs
  | [], ts, s, s', rs, _, _, ht, _, htell => by
    cases ts with
    | cons t ts => cases ht
    | nil =>
      cases htell
      exact ⟨[], [], by rw [List.flatten_nil, getLines_none (getLine_none (by simp))], rfl, rfl⟩
  | v :: vs, ts, s, s', rs, h0, hv, ht, hs, htell => by
    cases ts with
    | nil => cases ht
    | cons t ts =>
      simp only [List.map_cons, List.cons.injEq] at ht
      rw [List.flatten_cons] at hs ⊢
      rw [List.map_cons, tell] at htell
      cases hf : feed now s (J.obj v.2).toks with
      | stop => rw [hf] at htell; cases htell
      | undefined => rw [hf] at htell; cases htell
      | ok s1 =>
        rw [hf] at htell
        simp only at htell
        cases hr : tell now s1 (vs.map (fun v => .obj v.2)) with
        | none => rw [hr] at htell; cases htell
        | some p =>
          obtain ⟨rs', s2⟩ := p
          rw [hr] at htell
          cases htell
          obtain ⟨hp, hd⟩ := hv v (by simp)
          have hsh : Short t := by
            intro a l b he hl
            exact hs a l (b ++ ts.flatten) (by rw [he]; simp) hl
          have hd1 : s1.depth = 0 := by
            rw [feed_depth hf, h0, (even_val (.obj v.2)).1]
            rfl
          obtain ⟨ls, k, e1, e2⟩ := input_obj (rest := ts.flatten) hp hd ht.1 hsh h0 hf
          obtain ⟨ls', ns', f1, f2, f3⟩ := texts vs ts s1 s2 rs' hd1 (fun x hx => hv x (by simp [hx])) ht.2
            (short_tail hs) hr
          refine ⟨ls ++ ls', List.replicate k 0 ++ result s1 :: ns', ?_, ?_, ?_⟩
          · rw [e1, f1]
            rfl
          · rw [e2, f2]
            rfl
          · have h6 : ∀ k : Nat, (List.replicate k (0 : Int)).filter (· ≠ 0) = [] := by
              intro k
              rw [List.filter_eq_nil_iff]
              intro a ha
              rw [List.eq_of_mem_replicate ha]
              decide
            rw [List.filter_append, h6, List.nil_append]
            have h7 : result s1 = if s1.warnings = [] then 1 else 2 := by
              rw [result, if_pos hd1]
            have h8 : result s1 ≠ 0 := by
              rw [h7]
              split <;> decide
            rw [List.filter_cons, if_pos (by simpa using h8), f3, h7]

/-- Answers, one after the other: the client goes through the lines, however the bytes arrive, and after the last line
of each answer it knows what the pieces of the answers tell it, and says so. For all the other lines it says that
there is more to come. -/
theorem C94_answers {now : UInt64} {vs : List (Bool × Ms)} {ts : List Str} {s s' : St} {rs : List Int}
    {reads : List Str} (h0 : s.depth = 0) (hv : ∀ v ∈ vs, (J.obj v.2).Plain ∧ (J.obj v.2).depth < 128)
    (ht : vs.map (fun v => answerText v.1 (J.obj v.2).toks) = ts.map some) (hs : Short ts.flatten)
    (hr : reads.flatten = ts.flatten) (ha : Arrive [] reads)
    (htell : tell now s (vs.map (fun v => .obj v.2)) = some (rs, s')) :
    ∃ ls ns, readLines [] reads = some (ls, []) ∧ inputLines now ⟨none, s⟩ ls = some (ns, ⟨none, s'⟩) ∧
      ns.filter (· ≠ 0) = rs := by
  obtain ⟨ls, ns, h1, h2, h3⟩ := texts vs ts s s' rs h0 hv ht hs htell
  refine ⟨ls, ns, ?_, h2, h3⟩
  rw [(C94_lines reads (by rw [hr]; exact hs) ha).1, hr, ← h1, getLines_cut _ _ (Nat.le_refl _) hs]

/-- From the server to what the client knows: an answer as the server makes it up is written as a text; the client
reads it, however it arrives, and knows what it should. -/
theorem C94_server_partial {now : UInt64} {field : Cmd → Str} {asked : Option Log} {s : St} {m : Msg} {b : Bool}
    (hs : Ready s) (h0 : s.depth = 0) (hm : AnswerOk asked m)
    (hi : ∀ n, Tok.int n ∈ msgToks field asked m → n ≠ -9223372036854775808 ∧ -9223372036854775808 ≤ n ∧
      n ≤ 9223372036854775807) :
    ∃ s' t, feed now s (msgToks field asked m) = .ok s' ∧ Ready s' ∧ s'.depth = 0 ∧
      answerText b (msgToks field asked m) = some t ∧
      (Short t → ∀ reads, reads.flatten = t → Arrive [] reads →
        ∃ ls k, readLines [] reads = some (ls, []) ∧
          inputLines now ⟨none, s⟩ ls =
            some (List.replicate k 0 ++ [if s'.warnings = [] then 1 else 2], ⟨none, s'⟩)) := by
  obtain ⟨s', h1, h2, h3⟩ := feed_answer (now := now) (field := field) hs hm
  obtain ⟨v, e1, e2, e3⟩ := isVal_msg field asked m
  have hobj : ∃ ms, v = .obj ms := by
    cases v with
    | obj ms => exact ⟨ms, rfl⟩
    | int n => rw [J.toks] at e1; cases m <;> cases e1
    | str n => rw [J.toks] at e1; cases m <;> cases e1
    | other => rw [J.toks] at e1; cases m <;> cases e1
    | arr vs => rw [J.toks] at e1; cases m <;> cases e1
  obtain ⟨ms, rfl⟩ := hobj
  have hp : (J.obj ms).Plain := e3 (fun n hn => by have := hi n hn; omega)
  have hd : (J.obj ms).depth < maxDepth := by rw [maxDepth]; omega
  obtain ⟨t, ht, _⟩ := C94_roundtrip b hp hd
  rw [← e1]
  refine ⟨s', t, by rw [e1]; exact h1, h2, by omega, ht, ?_⟩
  intro hsh reads hr ha
  rw [← e1] at h1
  obtain ⟨ls, k, f1, f2⟩ := input_obj (rest := []) hp hd ht hsh h0 h1
  rw [List.append_nil, show getLines [] = some ([], []) from getLines_none (getLine_none (by simp))] at f1
  refine ⟨ls, k, ?_, ?_⟩
  · rw [(C94_lines reads (by rw [hr]; exact hsh) ha).1, hr, ← getLines_cut _ _ (Nat.le_refl _) hsh, f1]
    simp
  · have := f2 []
    rw [List.append_nil] at this
    rw [this]
    have h7 : result s' = if s'.warnings = [] then 1 else 2 := by
      rw [result, if_pos (by omega)]
    simp [inputLines, h7]

/-- A message of a monitor that has no backslash in it is read as it is, but for quotes and what cannot be
printed. -/
theorem C94_message_partial {msg : Str} (h : backslash ∉ msg) :
    parse .init (logText msg) = ⟨.ok, ⟨.complete, [], []⟩,
      [.startMap, .key (bytes "logline"), .str (msg.map logByte), .endMap]⟩ := by
  have hesc : (msg.map logByte).any escaped = false := by
    rw [List.any_eq_false]
    intro c hc
    obtain ⟨d, hd, rfl⟩ := List.mem_map.mp hc
    have hne : d ≠ backslash := fun e => h (e ▸ hd)
    have : ∀ n : Fin 256, UInt8.ofNat n.val ≠ backslash → escaped (logByte (UInt8.ofNat n.val)) = false := by
      decide +kernel
    have h1 := this ⟨d.toNat, d.toNat_lt⟩
    rw [show UInt8.ofNat d.toNat = d by simp] at h1
    simp [h1 hne]
  have k1 : ∀ s, Spaced [(.string (s.any escaped), quote :: (encode s ++ [quote]))] (quote :: (encode s ++ [quote])) :=
    fun s => Spaced.one (.str s)
  have k2 : Spaced [(.leftBracket, [123])] [123] := Spaced.one (.sign (by decide) (by decide))
  have k3 : Spaced [(.rightBracket, [125])] [125] := Spaced.one (.sign (by decide) (by decide))
  have k4 : Spaced [(.colon, [58])] [58] := Spaced.one (.sign (by decide) (by decide))
  have k5 : Spaced [] [space] := Spaced.blank (by decide)
  have k6 : Spaced [] [newline] := Spaced.blank (by decide)
  have key := k2.append (k5.append ((k1 (bytes "logline")).append (k4.append (k5.append
    ((k1 (msg.map logByte)).append (k5.append (k3.append k6)))))))
  have htext : logText msg = [123] ++ ([space] ++ (quote :: (encode (bytes "logline") ++ [quote]) ++ ([58] ++ ([space] ++
      (quote :: (encode (msg.map logByte) ++ [quote]) ++ ([space] ++ ([125] ++ [newline]))))))) := by
    rw [encode_plain hesc]
    unfold logText
    rw [show bytes "{ \"logline\": \"" = [123, space] ++ (quote :: (encode (bytes "logline") ++ [quote])) ++
      [58, space, quote] by decide, show bytes "\" }" = [quote, space, 125] by decide]
    simp
  rw [htext, parse_init]
  refine parseText_spaced key ?_ ?_
  · intro x hx hi
    simp only [List.nil_append, List.append_nil, List.cons_append, List.getLast?_cons_cons,
      List.getLast?_singleton] at hx
    cases hx
    cases hi
  · have s1 : stepAll .start [] [(.leftBracket, [123])] = some (.mapStart, [.complete], [.startMap]) := rfl
    have s2 : ∀ s, stepAll .mapStart [.complete] [(.string (s.any escaped), quote :: (encode s ++ [quote]))] =
        some (.mapSep, [.complete], [.key s]) := fun s =>
      stepAll_one (by rw [onTok]; simp only [stringOf_encode]) (by decide) (by decide)
    have s3 : stepAll .mapSep [.complete] [(.colon, [58])] = some (.mapNeedVal, [.complete], []) := rfl
    have s4 : ∀ s, stepAll .mapNeedVal [.complete] [(.string (s.any escaped), quote :: (encode s ++ [quote]))] =
        some (.mapGotVal, [.complete], [.str s]) := fun s =>
      stepAll_one (by rw [onTok, onValue, stringOf_encode]; rfl) (by decide) (by decide)
    have s5 : stepAll .mapGotVal [.complete] [(.rightBracket, [125])] = some (.complete, [], [.endMap]) := rfl
    exact stepAll_append s1 (stepAll_append (s2 (bytes "logline")) (stepAll_append s3
      (stepAll_append (s4 (msg.map logByte)) s5)))

end Verif
