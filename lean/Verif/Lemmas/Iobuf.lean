import Verif.Model.Iobuf

namespace Verif.Iobuf
open Verif

theorem hexDigit_mod (n : Nat) : hexDigit n = hexDigit (n % 16) := by
  unfold hexDigit; simp

theorem hexDigit_table : ∀ k : Fin 16,
    hexVal (hexDigit k.val) = some k.val ∧ hexDigit k.val ≠ 0 ∧ isSpace (hexDigit k.val) = false ∧
    hexDigit k.val ≠ 45 ∧ hexDigit k.val ≠ 43 ∧ hexDigit k.val ≠ 120 ∧ hexDigit k.val ≠ 88 := by
  decide

theorem hexDigit_facts (n : Nat) :
    hexVal (hexDigit n) = some (n % 16) ∧ hexDigit n ≠ 0 ∧ isSpace (hexDigit n) = false ∧
    hexDigit n ≠ 45 ∧ hexDigit n ≠ 43 ∧ hexDigit n ≠ 120 ∧ hexDigit n ≠ 88 := by
  rw [hexDigit_mod]
  exact hexDigit_table ⟨n % 16, Nat.mod_lt _ (by decide)⟩

theorem hexDigits_pos {n : Nat} (h : n ≠ 0) : hexDigits n = hexDigits (n / 16) ++ [hexDigit n] := by
  rw [hexDigits, if_neg h]

theorem hexDigits_zero : hexDigits 0 = [] := by rw [hexDigits]; rfl

theorem hexDigit_small_zero {n : Nat} (h : n % 16 = 0) : hexDigit n = 48 := by
  unfold hexDigit; rw [h]; decide

/-- `%04X` of a number that fits four digits. -/
theorem hex04_small {n : Nat} (h : n < 65536) :
    hex04 n = [hexDigit (n / 4096), hexDigit (n / 256), hexDigit (n / 16), hexDigit n] := by
  have e2 : n / 16 / 16 = n / 256 := by omega
  have e3 : n / 256 / 16 = n / 4096 := by omega
  have e4 : n / 4096 / 16 = 0 := by omega
  unfold hex04
  by_cases h0 : n = 0
  · subst h0; rw [hexDigits_zero]; decide
  · rw [hexDigits_pos h0]
    by_cases h1 : n / 16 = 0
    · have a : n / 256 = 0 := by omega
      have b : n / 4096 = 0 := by omega
      rw [h1, a, b, hexDigits_zero]
      simp only [List.nil_append, List.length_singleton]
      rw [hexDigit_small_zero (n := 0) rfl]; rfl
    · rw [hexDigits_pos h1, e2]
      by_cases h2 : n / 256 = 0
      · have b : n / 4096 = 0 := by omega
        rw [h2, b, hexDigits_zero, hexDigit_small_zero (n := 0) rfl]; rfl
      · rw [hexDigits_pos h2, e3]
        by_cases h3 : n / 4096 = 0
        · rw [h3, hexDigits_zero, hexDigit_small_zero (n := 0) rfl]; rfl
        · rw [hexDigits_pos h3, e4, hexDigits_zero]; rfl

theorem hexDigits_length_le {n k : Nat} (h : n < 16 ^ k) : (hexDigits n).length ≤ k := by
  induction k generalizing n with
  | zero =>
    have : n = 0 := by simp at h; exact h
    subst this; rw [hexDigits_zero]; simp
  | succ k ih =>
    by_cases h0 : n = 0
    · subst h0; rw [hexDigits_zero]; simp
    · rw [hexDigits_pos h0]
      have : n / 16 < 16 ^ k := by
        rw [Nat.pow_succ] at h; omega
      have := ih this
      simp; omega

theorem hexDigits_length_ge {n : Nat} (h : 65536 ≤ n) : 5 ≤ (hexDigits n).length := by
  have p : ∀ m, m ≠ 0 → 1 ≤ (hexDigits m).length := by
    intro m hm; rw [hexDigits_pos hm]; simp
  rw [hexDigits_pos (n := n) (by omega), hexDigits_pos (n := n / 16) (by omega),
    hexDigits_pos (n := n / 16 / 16) (by omega), hexDigits_pos (n := n / 16 / 16 / 16) (by omega)]
  have := p (n / 16 / 16 / 16 / 16) (by omega)
  simp; omega

theorem hex04_length (n : Nat) : (hex04 n).length = 4 ↔ n < 65536 := by
  constructor
  · intro h
    by_cases hn : n < 65536
    · exact hn
    · have := hexDigits_length_ge (n := n) (by omega)
      unfold hex04 at h
      simp at h; omega
  · intro h; rw [hex04_small h]; rfl

/-- Reading back a lead, whatever follows it. -/
theorem scanX_hex04 {n : Nat} (h : n < 65536) (t : Str) : scanX (hex04 n ++ t) = some n := by
  rw [hex04_small h]
  obtain ⟨a1, a2, a3, a4, a5, a6, a7⟩ := hexDigit_facts (n / 4096)
  obtain ⟨b1, b2, b3, b4, b5, b6, b7⟩ := hexDigit_facts (n / 256)
  obtain ⟨c1, c2, c3, c4, c5, c6, c7⟩ := hexDigit_facts (n / 16)
  obtain ⟨d1, d2, d3, d4, d5, d6, d7⟩ := hexDigit_facts n
  simp only [List.cons_append, List.nil_append]
  generalize hA : hexDigit (n / 4096) = A at *
  generalize hB : hexDigit (n / 256) = B at *
  generalize hC : hexDigit (n / 16) = C at *
  generalize hD : hexDigit n = D at *
  have hdw : List.dropWhile isSpace (A :: B :: C :: D :: t) = A :: B :: C :: D :: t := by
    simp [a3]
  have m1 : scanSign (A :: B :: C :: D :: t) = (false, 4, A :: B :: C :: D :: t) := by
    simp only [scanSign, a4, a5, if_false]
  have m2 : scanPrefix 4 (A :: B :: C :: D :: t) = (4, A :: B :: C :: D :: t) := by
    simp only [scanPrefix, b6, b7, or_self, false_and, and_false, if_false]
  have hv : ((((none : Option Nat).getD 0 * 16 + n / 4096 % 16) * 16 + n / 256 % 16) * 16
      + n / 16 % 16) * 16 + n % 16 = n := by
    simp only [Option.getD_none]; omega
  unfold scanX
  simp only [hdw, m1, m2, scanDigits, a1, b1, c1, d1, Option.getD_some, hv, Option.map_some]
  rfl

theorem cstr_hex04 {n : Nat} (h : n < 65536) (t : Str) : cstr (hex04 n ++ t) = hex04 n ++ cstr t := by
  rw [hex04_small h]
  have a2 := (hexDigit_facts (n / 4096)).2.1
  have b2 := (hexDigit_facts (n / 256)).2.1
  have c2 := (hexDigit_facts (n / 16)).2.1
  have d2 := (hexDigit_facts n).2.1
  simp [cstr, a2, b2, c2, d2]

theorem scanLead_append {c : Byte} {n : Nat} (hc : c ≠ 0) (h : n < 65536) (t : Str) :
    scanLead (c :: hex04 n ++ t) = some (c, n) := by
  have hcs : cstr (c :: hex04 n ++ t) = c :: (hex04 n ++ cstr t) := by
    have := cstr_hex04 h t
    simp only [cstr, List.cons_append] at this ⊢
    rw [List.takeWhile_cons_of_pos (by simpa using hc), this]
  unfold scanLead
  rw [hcs]
  simp only [scanX_hex04 h]
  rfl

theorem scanLead_hex04 {c : Byte} {n : Nat} (hc : c ≠ 0) (h : n < 65536) :
    scanLead (c :: hex04 n) = some (c, n) := by
  have := scanLead_append hc h []
  rwa [List.append_nil] at this

/-- The bytes of one record in a file. -/
def enc (r : Rec) : Str := r.cmd :: hex04 r.buf.length ++ r.buf ++ [newline]

/-- Records that can be written: a real command byte, and a payload that four hex digits can
announce. -/
def Rec.Ok (r : Rec) : Prop := r.cmd ≠ 0 ∧ r.buf.length ≤ 65535

instance (r : Rec) : Decidable r.Ok := by unfold Rec.Ok; infer_instance

theorem sendMsgFzp_ok (out : Str) {r : Rec} (h : r.buf.length ≤ 65535) :
    sendMsgFzp out r = (out ++ enc r, true) := by
  have hm : r.buf.length % 2 ^ 32 = r.buf.length := Nat.mod_eq_of_lt (by omega)
  have hl : (r.cmd :: hex04 r.buf.length).length = 5 := by
    have := (hex04_length r.buf.length).2 (by omega)
    simp [this]
  unfold sendMsgFzp
  rw [hm]
  simp only [hl, ne_eq, not_true_eq_false, if_false]
  simp [enc]

theorem writeAll_ok {rs : List Rec} (h : ∀ r ∈ rs, r.buf.length ≤ 65535) (out : Str) :
    writeAll out rs = (out ++ (rs.map enc).flatten, true) := by
  induction rs generalizing out with
  | nil => simp [writeAll]
  | cons r rs ih =>
    rw [writeAll, sendMsgFzp_ok out (h r (by simp))]
    simp only
    rw [ih (fun x hx => h x (by simp [hx]))]
    simp

theorem readEnsure_append {a b : Str} : readEnsure a.length (a ++ b) = .ok a b := by
  unfold readEnsure; simp

theorem fill_enc {r : Rec} (h : r.Ok) (rest : Str) : fill (enc r ++ rest) = .ok r rest := by
  have hl : (r.cmd :: hex04 r.buf.length).length = 5 := by
    have := (hex04_length r.buf.length).2 (by have := h.2; omega)
    simp [this]
  have e : enc r ++ rest = (r.cmd :: hex04 r.buf.length) ++ ((r.buf ++ [newline]) ++ rest) := by
    simp [enc]
  unfold fill fillFzp
  have h1 : readEnsure 5 (enc r ++ rest) =
      .ok (r.cmd :: hex04 r.buf.length) ((r.buf ++ [newline]) ++ rest) := by
    rw [e, ← hl]; exact readEnsure_append
  rw [h1]
  simp only [scanLead_hex04 h.1 (show r.buf.length < 65536 by have := h.2; omega)]
  have h2 : readEnsure (r.buf.length + 1) ((r.buf ++ [newline]) ++ rest) =
      .ok (r.buf ++ [newline]) rest := by
    have : r.buf.length + 1 = (r.buf ++ [newline]).length := by simp
    rw [this]; exact readEnsure_append
  rw [h2]
  simp

theorem readAll_nil : readAll [] = ([], true) := by
  unfold readAll
  split
  · rfl
  · rename_i h; exact absurd h (by decide)
  · rename_i h
    have e : fill [] = .eof := by decide
    rw [e] at h; simp at h

theorem readAll_enc {r : Rec} (h : r.Ok) (rest : Str) :
    readAll (enc r ++ rest) = (r :: (readAll rest).1, (readAll rest).2) := by
  rw [readAll]
  have := fill_enc h rest
  split
  · rename_i h'; rw [this] at h'; simp at h'
  · rename_i h'; rw [this] at h'; simp at h'
  · rename_i r' rest' h'
    rw [this] at h'
    simp only [Fill.ok.injEq] at h'
    obtain ⟨rfl, rfl⟩ := h'
    rfl

theorem readAll_encs {rs : List Rec} (h : ∀ r ∈ rs, r.Ok) (rest : Str) :
    readAll ((rs.map enc).flatten ++ rest) = (rs ++ (readAll rest).1, (readAll rest).2) := by
  induction rs with
  | nil => simp
  | cons r rs ih =>
    simp only [List.map_cons, List.flatten_cons, List.append_assoc]
    rw [readAll_enc (h r (by simp)), ih (fun x hx => h x (by simp [hx]))]
    simp

/-- Cutting inside a record: nothing is read, and the end looks clean exactly when nothing or
exactly the lead is left. -/
theorem fill_cut {r : Rec} (h : r.Ok) {k : Nat} (hk : k < (enc r).length) :
    fill ((enc r).take k) = if k = 0 ∨ k = 5 then .eof else .err := by
  have hl : (hex04 r.buf.length).length = 4 :=
    (hex04_length r.buf.length).2 (by have := h.2; omega)
  have hlen : (enc r).length = r.buf.length + 6 := by simp [enc, hl]; omega
  have e : enc r = (r.cmd :: hex04 r.buf.length) ++ (r.buf ++ [newline]) := by simp [enc]
  by_cases h0 : k = 0
  · subst h0; simp; decide
  · by_cases h5 : k < 5
    · have hne : ¬ k = 5 := by omega
      simp only [h0, hne, or_self, if_false]
      unfold fill fillFzp
      have : readEnsure 5 ((enc r).take k) = .err := by
        unfold readEnsure
        have h1 : ¬ 5 ≤ ((enc r).take k).length := by simp; omega
        have h2 : (enc r).take k ≠ [] := by
          intro hh
          have := congrArg List.length hh
          rw [List.length_take] at this
          simp only [List.length_nil] at this; omega
        rw [if_neg h1, if_neg h2]
      rw [this]
    · have htake : (enc r).take k =
          (r.cmd :: hex04 r.buf.length) ++ (r.buf ++ [newline]).take (k - 5) := by
        rw [e, List.take_append]
        congr 1
        · apply List.take_of_length_le; simp [hl]; omega
        · simp [hl]
      unfold fill fillFzp
      have h1 : readEnsure 5 ((enc r).take k) =
          .ok (r.cmd :: hex04 r.buf.length) ((r.buf ++ [newline]).take (k - 5)) := by
        rw [htake]
        have : (5 : Nat) = (r.cmd :: hex04 r.buf.length).length := by simp [hl]
        rw [this]; exact readEnsure_append
      rw [h1]
      simp only [scanLead_hex04 h.1 (show r.buf.length < 65536 by have := h.2; omega)]
      have hlt : ¬ r.buf.length + 1 ≤ ((r.buf ++ [newline]).take (k - 5)).length := by
        simp; omega
      unfold readEnsure
      rw [if_neg hlt]
      by_cases hk5 : k = 5
      · subst hk5; simp
      · have : (r.buf ++ [newline]).take (k - 5) ≠ [] := by
          intro hh
          have := congrArg List.length hh
          simp at this; omega
        rw [if_neg this]
        simp [h0, hk5]

theorem readAll_cut {r : Rec} (h : r.Ok) {k : Nat} (hk : k < (enc r).length) :
    readAll ((enc r).take k) = ([], if k = 0 ∨ k = 5 then true else false) := by
  have := fill_cut h hk
  rw [readAll]
  split
  · rename_i h'; rw [this] at h'; split at h' <;> simp_all
  · rename_i h'; rw [this] at h'; split at h' <;> simp_all
  · rename_i h'; rw [this] at h'; split at h' <;> simp_all

/-- A cut anywhere in a concatenation: what comes before the piece that is cut. -/
theorem cut_split {α : Type} (f : α → Str) {rs : List α} (k : Nat) :
    (rs.map f).flatten.length ≤ k ∨
    ∃ pre r post j, rs = pre ++ r :: post ∧ j < (f r).length ∧
      ((rs.map f).flatten).take k = (pre.map f).flatten ++ (f r).take j ∧
      k = (pre.map f).flatten.length + j := by
  induction rs generalizing k with
  | nil => left; simp
  | cons r rs ih =>
    by_cases hk : k < (f r).length
    · right
      refine ⟨[], r, rs, k, rfl, hk, ?_, by simp⟩
      simp only [List.map_cons, List.flatten_cons, List.map_nil, List.flatten_nil, List.nil_append]
      rw [List.take_append_of_le_length (by omega)]
    · rcases ih (k - (f r).length) with h | ⟨pre, r', post, j, h1, h2, h3, h4⟩
      · left
        simp only [List.map_cons, List.flatten_cons, List.length_append]; omega
      · right
        refine ⟨r :: pre, r', post, j, by rw [h1]; rfl, h2, ?_, ?_⟩
        · simp only [List.map_cons, List.flatten_cons]
          rw [List.take_append, List.take_of_length_le (by omega), h3]
          simp
        · simp only [List.map_cons, List.flatten_cons, List.length_append]; omega

theorem ofByte_toByte (c : Cmd) : Cmd.ofByte c.toByte = some c := by
  cases c <;> decide

end Verif.Iobuf
