import Verif.Props.Yajl

/-!
# C94: cases
-/

namespace Verif
open Yajl JsonInput Monitor

namespace YajlCases

theorem short_of_length {t : Str} (h : t.length + 1 < 32032) : Short t := by
  intro a l b he _
  have := congrArg List.length he
  simp only [List.length_append] at this
  omega

/-- An object with an array, an object, numbers, and a string in which there are all kinds of bytes. -/
def sample : Ms :=
  .cons (bytes "clients") (.arr (.cons (.obj (.cons (bytes "name") (.str (bytes "a \"b\"\\c\n" ++ [1, 195, 169]))
    (.cons (bytes "pid") (.int (-42)) (.cons (bytes "backups") (.arr .nil) .nil)))) (.cons (.int 7) .nil))) .nil

theorem sample_plain : (J.obj sample).Plain ∧ (J.obj sample).depth < 128 := by
  simp [sample, J.Plain, Js.Plain, Ms.Plain, J.depth, Js.depth, Ms.depth]

/-- On one line. -/
example : answerText false (J.obj sample).toks =
    some (bytes "{\"clients\":[{\"name\":\"a \\\"b\\\"\\\\c\\n\\u0001" ++ [195, 169] ++
      bytes "\",\"pid\":-42,\"backups\":[]},7]}\n") := by decide +kernel

/-- On many. -/
example : answerText true [.startMap, .key (bytes "clients"), .startArr, .startMap, .key (bytes "name"), .str (bytes "a"),
      .endMap, .int 7, .endArr, .endMap] =
    some (bytes "{\n    \"clients\": [\n        {\n            \"name\": \"a\"\n        },\n        7\n    ]\n}\n") := by
  decide +kernel

example := C94_roundtrip true sample_plain.1 sample_plain.2

/-- Two pieces, cut inside an escape. -/
example : (parseAll .init [bytes "{\"a\\u00", bytes "e9\":1", bytes "2}"]) =
    ⟨.ok, ⟨.complete, [], []⟩, [.startMap, .key (97 :: [195, 169]), .int 12, .endMap]⟩ := by decide +kernel

/-- Two surrogates make one character; one alone becomes a question mark. -/
example : decode (bytes "\\ud83d\\ude00") = some [240, 159, 152, 128] ∧ decode (bytes "\\ud83dx") = some (bytes "?x") := by
  decide +kernel

/-- Texts in which something is wrong. -/
example : (parse .init (bytes "{\"a\":1,}")).status = .error ∧ (parse .init (bytes "{\"a\" 1}")).status = .error ∧
    (parse .init (bytes "[1 2]")).status = .error ∧ (parse .init (bytes "{} {}")).status = .error ∧
    (parse .init (bytes "[01]")).status = .error ∧ (parse .init (bytes "\"\n\"")).status = .error ∧
    (parse .init (bytes "[\"\\x\"]")).status = .error ∧ (parse .init (bytes "nul ")).status = .error := by
  decide +kernel

/-- The end comes too early. -/
example : (parse .init (bytes "{\"a\":[1,2]")).status = .ok ∧
    (finish (parse .init (bytes "{\"a\":[1,2]")).parser).status = .error := by decide +kernel

/-- A number may be the whole text; it is known at the end. -/
example : parse .init (bytes "12") = ⟨.ok, ⟨.start, [], bytes "12"⟩, []⟩ ∧
    finish ⟨.start, [], bytes "12"⟩ = ⟨.ok, ⟨.complete, [], []⟩, [.int 12]⟩ := by decide +kernel

/-- Numbers of eighteen digits do no harm. -/
theorem eighteen {n : Nat} {u v : Str} {x y : Byte} (hx : isNum x = false) (hy : isNum y = false) (hu : u.length = 18)
    (hn : n = 19) (hv : v = x :: (u ++ [y])) : ¬ digitRun n v := by
  rintro ⟨a, d, b, h1, h2, h3⟩
  subst hn
  rw [hv] at h1
  have hl := congrArg List.length h1
  simp only [List.length_append, List.length_cons, List.length_nil, h2, hu] at hl
  cases a with
  | cons x a =>
    cases a with
    | cons y a => simp only [List.length_cons] at hl; omega
    | nil =>
      have hb : b = [] := List.length_eq_zero_iff.mp (by simp only [List.length_cons, List.length_nil] at hl; omega)
      subst hb
      injection h1 with _ h1
      have h1 : u ++ [y] = d := by simpa using h1
      have := h3 y (by rw [← h1]; simp)
      rw [hy] at this
      cases this
  | nil =>
    cases d with
    | nil => cases h2
    | cons x d =>
      injection h1 with h1 _
      have := h3 x (by simp)
      rw [← h1, hx] at this
      cases this

example : ¬ digitRun 19 (bytes "[999999999999999999]") :=
  eighteen (u := bytes "999999999999999999") (x := 91) (y := 93) (by decide) (by decide) (by decide) rfl
    (by decide +kernel)

/-! Two answers, a warning after a list of clients, in three reads. -/

/-- What the client knows in the end. -/
def heard : Option (List Int × St) :=
  tell 5 St.init [.obj (.cons (bytes "clients") (.arr .nil) .nil), .obj (.cons (bytes "warning") (.str (bytes "oh")) .nil)]

/-- The texts of the answers. -/
def two : List Str := [bytes "{\n    \"clients\": [\n\n    ]\n}\n", bytes "{\"warning\":\"oh\"}\n"]

/-- How they arrive. -/
def threeReads : List Str := [bytes "{\n    \"cl", bytes "ients\": [\n\n    ]\n}\n{\"warn", bytes "ing\":\"oh\"}\n"]

example : (heard.map (fun p => (p.1, p.2.warnings))) = some ([1, 2], [bytes "oh"]) := by decide +kernel

example : [(true, Ms.cons (bytes "clients") (.arr .nil) .nil), (false, .cons (bytes "warning") (.str (bytes "oh")) .nil)].map
    (fun v => answerText v.1 (J.obj v.2).toks) = two.map some := by decide +kernel

example : Short two.flatten ∧ threeReads.flatten = two.flatten ∧ Arrive [] threeReads :=
  ⟨short_of_length (by decide +kernel), by decide +kernel, by
    simp only [threeReads, Arrive]
    decide +kernel⟩

example : (readLines [] threeReads).map (fun p => (inputLines 5 ⟨none, St.init⟩ p.1).map (fun q => q.1)) =
    some (some [0, 0, 0, 0, 1, 2]) := by decide +kernel

/-- An answer of a server. -/
example : Ready St.init ∧ St.init.depth = 0 ∧ AnswerOk none (.warning (bytes "oh")) ∧
    ∀ n, Tok.int n ∈ msgToks (fun _ => []) none (.warning (bytes "oh")) → n ≠ -9223372036854775808 ∧
      -9223372036854775808 ≤ n ∧ n ≤ 9223372036854775807 :=
  ⟨by constructor <;> rfl, rfl, .warning (by decide), by intro n hn; simp [msgToks, strPair] at hn⟩

/-- A message. -/
example : backslash ∉ bytes "it's \"here\"\n" ∧ (bytes "it's \"here\"\n").map logByte = bytes "it's 'here'." := by
  decide +kernel

/-- A line with no end cannot be read. -/
theorem tooLong {t : Str} (hn : newline ∉ t) (hl : bufMax ≤ t.length + 1) : ∀ (reads : List Str) (buf : Str),
    newline ∉ buf → buf ++ reads.flatten = t ++ [newline] → readLines buf reads = none
  | [], buf, hb, h => by
    rw [List.flatten_nil, List.append_nil] at h
    rw [h] at hb
    simp at hb
  | r :: rs, buf, hb, h => by
    rw [readLines]
    by_cases h1 : r.length = 0 ∨ buf.length + r.length > bufMax
    · rw [if_pos h1]
    · rw [if_neg h1]
      rw [List.flatten_cons, ← List.append_assoc] at h
      rcases newline_split (buf ++ r) with h2 | ⟨x, y, h2, h3⟩
      · rw [getLines_none (getLine_none h2)]
        simp only [tooLong hn hl rs (buf ++ r) h2 h, Option.map_none]
      · have h4 : x = t := by
          rw [h2, List.append_assoc, List.cons_append] at h
          obtain ⟨e1, _⟩ := takeWhile_line (b := y ++ rs.flatten) h3
          obtain ⟨e2, _⟩ := takeWhile_line (b := []) hn
          rw [← e1, ← e2, h]
        have h5 : getLine (buf ++ r) = .tooLong := by
          obtain ⟨e1, e2⟩ := takeWhile_line (b := y) h3
          unfold getLine
          rw [h2]
          simp only [e1, e2]
          rw [if_pos (by rw [h4]; exact hl)]
        have h6 : getLines (buf ++ r) = none := by
          rw [getLines]
          split
          · next heq => rw [h5] at heq; cases heq
          · rfl
          · next heq => rw [h5] at heq; cases heq
        rw [h6]

end YajlCases

open YajlCases

/-- C94 fails: a number with nineteen digits can make the parser of the client overflow a signed number. It looks for
the greatest number that it may multiply by ten, and takes one that is too great by seven. -/
theorem C94_defined_violated : (parse .init (bytes "[9223372036854775810]")).status = .undef := by decide +kernel

/-- `C94_number_partial` is about numbers of any length. -/
example : digitsValue 0 (bytes "9223372036854775807") = 9223372036854775807 ∧
    parseInteger (bytes "9223372036854775807") = .val 9223372036854775807 ∧
    parseInteger (bytes "99999999999999999999999999") = .erange ∧
    (∀ k < 19, digitsValue 0 ((bytes "9223372036854775807").take k) < 922337203685477581) := by decide +kernel

/-- C94 fails: the least number can be written, but not be read. -/
theorem C94_least_violated : answerText false (J.obj (.cons (bytes "a") (.int (-9223372036854775808)) .nil)).toks =
      some (bytes "{\"a\":-9223372036854775808}\n") ∧
    (parse .init (bytes "{\"a\":-9223372036854775808}\n")).status = .error := by decide +kernel

/-- A long warning. -/
theorem long_warning {s : Str} (hs : s.any escaped = false) (hl : 32032 ≤ s.length) :
    ∃ t, answerText false (msgToks (fun _ => []) none (.warning s)) = some t ∧
      ∀ reads, reads.flatten = t → readLines [] reads = none := by
  have h1 : answerText false (msgToks (fun _ => []) none (.warning s)) =
      some ((bytes "{\"warning\":\"" ++ s ++ bytes "\"}") ++ [newline]) := by
    have e1 : encode (bytes "warning") = bytes "warning" := by decide +kernel
    have e2 : bytes "{\"warning\":\"" = 123 :: quote :: (bytes "warning" ++ [quote, 58, quote]) := by decide +kernel
    have e3 : bytes "\"}" = [quote, 125] := by decide +kernel
    rw [e2, e3]
    simp [msgToks, strPair, answerText, genAll, genTok, genOpen, genString, genClose, atom, valid, notKey, Gen.init,
      maxDepth, insertSep, insertWhitespace, appendedAtom, finalNewline, encode_plain hs, e1]
  refine ⟨_, h1, fun reads hr => tooLong ?_ ?_ reads [] (by simp) (by rw [List.nil_append]; exact hr)⟩
  · simp only [List.mem_append, not_or]
    refine ⟨⟨by decide +kernel, ?_⟩, by decide +kernel⟩
    intro hx
    rw [List.any_eq_false] at hs
    exact hs newline hx (by decide)
  · simp only [List.length_append, bufMax]
    omega

/-- C94 fails: an answer with a line of more than 32030 bytes, as it is when it is not pretty, cannot be read by the
client, however it arrives. -/
theorem C94_lines_violated : ∃ s t, answerText false (msgToks (fun _ => []) none (.warning s)) = some t ∧
    ∀ reads, reads.flatten = t → readLines [] reads = none := by
  refine ⟨List.replicate 32032 97, long_warning ?_ ?_⟩
  · rw [List.any_eq_false]
    intro x hx
    rw [List.eq_of_mem_replicate hx]
    decide
  · rw [List.length_replicate]
    exact Nat.le_refl _

/-- C94 fails: a message of a monitor with a backslash in it is not JSON, and the client that reads it gives up. -/
theorem C94_message_violated : logText (bytes "no C:\\dir") = bytes "{ \"logline\": \"no C:\\dir\" }\n" ∧
    (parse .init (logText (bytes "no C:\\dir"))).status = .error := by decide +kernel

end Verif
