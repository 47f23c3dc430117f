import Verif.Spec.Printable
import Verif.Lemmas.Dpth

/-!
# Lemmas about messages in the log
-/

namespace Verif.Printable
open Iobuf

theorem isprint_iff (c : Byte) : isprint c = true ↔ Shown c := by
  unfold isprint Shown
  rw [Bool.and_eq_true, decide_eq_true_iff, decide_eq_true_iff, UInt8.le_iff_toNat_le, UInt8.le_iff_toNat_le]
  exact Iff.rfl

theorem printable_iff : ∀ s : Str, printable s = true ↔ Text s
  | [] => by simp [printable, Text]
  | c :: cs => by
    unfold printable
    by_cases h1 : isprint c = true
    · rw [h1]
      simp only [Bool.not_true, Bool.false_and, Bool.false_eq_true, if_false]
      rw [printable_iff cs]
      have := (isprint_iff c).mp h1
      simp [Text, this]
    · by_cases h2 : c = newline
      · rw [if_neg (by simp [h2])]
        rw [printable_iff cs]
        simp [Text, h2]
      · have h1' : isprint c = false := by cases h : isprint c <;> simp_all
        rw [if_pos (by simp [h1', h2])]
        constructor
        · intro h; cases h
        · intro h
          rcases h c List.mem_cons_self with h | h
          · exact absurd ((isprint_iff c).mpr h) h1
          · exact absurd h h2

theorem hexChar_text : ∀ k : Fin 16, 32 ≤ (hexDigit k.val).toNat ∧ (hexDigit k.val).toNat ≤ 126 := by decide +kernel

theorem text_append {a b : Str} (ha : Text a) (hb : Text b) : Text (a ++ b) := by
  intro c hc
  rcases List.mem_append.mp hc with h | h
  · exact ha c h
  · exact hb c h

theorem text_nonul {s : Str} (h : Text s) : cstr s = s := by
  unfold cstr
  induction s with
  | nil => rfl
  | cons c s ih =>
    have hc : c ≠ 0 := by
      rintro rfl
      rcases h 0 List.mem_cons_self with h | h
      · exact absurd h.1 (by decide)
      · exact absurd h (by decide)
    rw [List.takeWhile_cons, if_pos (by simp [hc]), ih (fun d hd => h d (List.mem_cons_of_mem _ hd))]

theorem text_take {s : Str} (h : Text s) (n : Nat) : Text (s.take n) := fun c hc => h c (List.mem_of_mem_take hc)

theorem hexDigit_text (n : Nat) : Shown (hexDigit n) := by
  have h := hexChar_text ⟨n % 16, Nat.mod_lt _ (by omega)⟩
  have e : hexDigit (n % 16) = hexDigit n := by unfold hexDigit; rw [Nat.mod_mod]
  simp only at h
  rwa [e] at h

theorem hex04_text {n : Nat} (h : n < 65536) : Text (hex04 n) := by
  rw [hex04_small h]
  intro c hc
  simp only [List.mem_cons, List.not_mem_nil, or_false] at hc
  rcases hc with rfl | rfl | rfl | rfl <;> exact .inl (hexDigit_text _)

theorem bytes_text {s : Str} (h : printable s = true) : Text s := (printable_iff s).mp h

/-- What comes before the data. -/
theorem lead_text {cmd : Byte} (hc : Shown cmd) {n : Nat} (h : n < 65536) : Text (cmd :: (bytes ":" ++ hex04 n ++ bytes ":")) := by
  intro c hm
  rcases List.mem_cons.mp hm with rfl | hm
  · exact .inl hc
  · exact text_append (text_append (bytes_text (by decide +kernel)) (hex04_text h)) (bytes_text (by decide +kernel)) c hm

theorem line_text {cmd : Byte} (hc : Shown cmd) {buf : Str} (h : buf.length < 65536) :
    Text (if printable buf then cmd :: (bytes ":" ++ hex04 buf.length ++ bytes ":" ++ buf)
      else cmd :: (bytes ":" ++ hex04 buf.length ++ bytes ":(binary data)")) := by
  split
  · rename_i hp
    have := text_append (lead_text hc h) (bytes_text hp)
    simpa using this
  · have e : bytes ":(binary data)" = bytes ":" ++ bytes "(binary data)" := by decide +kernel
    have := text_append (lead_text hc h) (bytes_text (s := bytes "(binary data)") (by decide +kernel))
    rw [e]
    simpa using this

/-- A message that is shown as it is. -/
theorem toPrintable_short {cmd : Byte} (hc : Shown cmd) {buf : Str} (ht : Text buf) (hl : buf.length ≤ 248) :
    toPrintable cmd buf = cmd :: (bytes ":" ++ hex04 buf.length ++ bytes ":" ++ buf) := by
  have h := line_text hc (buf := buf) (by omega)
  unfold toPrintable
  rw [text_nonul (text_take h _), if_pos ((printable_iff buf).mpr ht), List.take_of_length_le]
  have h1 : (bytes ":").length = 1 := by decide +kernel
  have h4 : (hex04 buf.length).length = 4 := Dpth.hex04_len (by omega)
  simp only [List.length_cons, List.length_append]
  omega

end Verif.Printable
