import Verif.Lemmas.Printable

/-!
# C127: how a message that was not expected is shown in the log
-/

namespace Verif
open Printable Iobuf

/-- **C127, in part.** Whatever the other side sends, what is put into the log of it has only characters that a terminal
shows as they are, and newlines. If the command of the message is such a character. -/
theorem C127_text_partial (cmd : Byte) (buf : Str) (hc : Shown cmd) (hl : buf.length < 65536) : Text (toPrintable cmd buf) := by
  have h := text_take (line_text hc hl) 255
  unfold toPrintable
  rw [text_nonul h]
  exact h

/-- C127 fails for a command that is not such a character, which nothing keeps the other side from sending: it gets into
the log. With an escape the other side can so send the beginning of a sequence for the terminal of who reads the log. -/
theorem C127_escape_violated : ∃ (cmd : Byte) (buf : Str), Text buf ∧ (toPrintable cmd buf).head? = some 27 :=
  ⟨27, bytes "x", bytes_text (by decide +kernel), by
    unfold toPrintable
    rw [if_pos (by decide +kernel)]
    unfold cstr
    rw [List.take_succ_cons, List.takeWhile_cons, if_pos (by decide)]
    rfl⟩

/-- C127 fails for a message with a newline: what comes after it is a line of the log of its own. -/
theorem C127_forged_violated (fake : Str) (hf : Text fake) (hl : fake.length ≤ 240) :
    toPrintable 99 (newline :: fake) = 99 :: (bytes ":" ++ hex04 (fake.length + 1) ++ bytes ":" ++ newline :: fake) := by
  have ht : Text (newline :: fake) := by
    intro c hc
    rcases List.mem_cons.mp hc with rfl | hc
    · exact .inr rfl
    · exact hf c hc
  rw [toPrintable_short ⟨by decide, by decide⟩ ht (by simp only [List.length_cons]; omega)]
  rfl

/-- **C127.** What is put into the log is never longer than the buffer. -/
theorem C127_length (cmd : Byte) (buf : Str) : (toPrintable cmd buf).length ≤ 255 := by
  unfold toPrintable cstr
  exact Nat.le_trans (List.takeWhile_prefix _).length_le (by rw [List.length_take]; omega)

/-- **C127.** Different messages look different, if they are text and fit. -/
theorem C127_distinct (c d : Byte) (a b : Str) (hc : Shown c) (hd : Shown d) (ha : Text a) (hb : Text b)
    (la : a.length ≤ 248) (lb : b.length ≤ 248) (h : toPrintable c a = toPrintable d b) : c = d ∧ a = b := by
  rw [toPrintable_short hc ha la, toPrintable_short hd hb lb] at h
  injection h with h1 h2
  refine ⟨h1, ?_⟩
  have e : ∀ {x : Str}, x.length ≤ 248 → (bytes ":" ++ hex04 x.length ++ bytes ":").length = 6 := by
    intro x hx
    have k1 : (bytes ":").length = 1 := by decide +kernel
    have k4 : (hex04 x.length).length = 4 := Dpth.hex04_len (by omega)
    simp only [List.length_append]
    omega
  exact (List.append_inj h2 (by rw [e la, e lb])).2

/-- **C127.** Of data that is not text nothing but its length gets into the log. -/
theorem C127_binary (cmd : Byte) (a b : Str) (ha : ¬ Text a) (hb : ¬ Text b) (hl : a.length = b.length) :
    toPrintable cmd a = toPrintable cmd b := by
  unfold toPrintable
  rw [if_neg (fun h => ha ((printable_iff a).mp h)), if_neg (fun h => hb ((printable_iff b).mp h)), hl]

/-- **C127.** And it is said that it is such data. -/
theorem C127_binary_said (cmd : Byte) (a : Str) (hc : Shown cmd) (hl : a.length < 65536) (ha : ¬ Text a) :
    toPrintable cmd a = cmd :: (bytes ":" ++ hex04 a.length ++ bytes ":(binary data)") := by
  have h := line_text hc hl
  unfold toPrintable
  rw [text_nonul (text_take h _), if_neg (fun h => ha ((printable_iff a).mp h)), List.take_of_length_le]
  have h1 : (bytes ":").length = 1 := by decide +kernel
  have h2 : (bytes ":(binary data)").length = 14 := by decide +kernel
  have h4 : (hex04 a.length).length = 4 := Dpth.hex04_len hl
  simp only [List.length_cons, List.length_append]
  omega

/-- A message as it is shown, and one that is not text. -/
example : toPrintable 99 (bytes "ok") = bytes "c:0002:ok" ∧ toPrintable 99 [1, 2] = bytes "c:0002:(binary data)" := by
  have h99 : Shown 99 := ⟨by decide, by decide⟩
  have e2 : hex04 2 = bytes "0002" := by rw [hex04_small (by omega)]; decide +kernel
  constructor
  · rw [toPrintable_short h99 (bytes_text (by decide +kernel)) (by decide +kernel)]
    have : (bytes "ok").length = 2 := by decide +kernel
    rw [this, e2]; decide +kernel
  · rw [C127_binary_said 99 [1, 2] h99 (by decide) (fun h => absurd ((printable_iff _).mpr h) (by decide +kernel))]
    show 99 :: (bytes ":" ++ hex04 2 ++ bytes ":(binary data)") = _
    rw [e2]; decide +kernel

end Verif
