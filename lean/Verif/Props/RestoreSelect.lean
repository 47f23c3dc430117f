import Verif.Model.Restore

/-!
# C32: which backup is restored
-/

namespace Verif
open Verif.PathCmp Verif.Restore Verif.BackupNumber

/-- The value of a decimal number. -/
def decimal (s : Str) : Nat := s.foldl (fun n c => n * 10 + (c.toNat - 48)) 0

/-- A decimal number, within the limits of the machine. -/
def IsNumber (s : Str) : Prop := s ≠ [] ∧ (∀ c ∈ s, 48 ≤ c.toNat ∧ c.toNat ≤ 57) ∧ decimal s < 2 ^ 64

/-- The list of backups: each number once, and the number is at the beginning of the time stamp, followed by
a blank. -/
structure GoodList (l : List Bak) : Prop where
  nodup : (l.map (·.bno)).Nodup
  stamp : ∀ b ∈ l, ∃ n rest, b.timestamp = n ++ space :: rest ∧ IsNumber n ∧ decimal n = b.bno ∧ 0 < b.bno

theorem decValue_digits : ∀ (s t : Str) (acc : Nat), (∀ c ∈ s, 48 ≤ c.toNat ∧ c.toNat ≤ 57) →
    (∀ c, t.head? = some c → isDigit c = false) →
    decValue acc (s ++ t) = s.foldl (fun n c => n * 10 + (c.toNat - 48)) acc
  | [], t, acc, _, ht => by
    cases t with
    | nil => rfl
    | cons c t => simp [decValue, ht c rfl]
  | c :: s, t, acc, hs, ht => by
    have hc := hs c (by simp)
    have : isDigit c = true := by simp [isDigit, hc.1, hc.2]
    rw [List.cons_append, decValue, if_pos this, List.foldl_cons]
    exact decValue_digits s t _ (fun x hx => hs x (by simp [hx])) ht

theorem requestNumber_digits (n t : Str) (h : IsNumber n) (ht : ∀ c, t.head? = some c → isDigit c = false) :
    requestNumber (n ++ t) = decimal n := by
  obtain ⟨hne, hd, hl⟩ := h
  obtain ⟨c, cs, rfl⟩ := List.exists_cons_of_ne_nil hne
  have hc := hd c (by simp)
  have hdrop : (c :: cs ++ t).dropWhile (fun c => c = 32 || (9 ≤ c && c ≤ 13)) = c :: cs ++ t := by
    rw [List.cons_append, List.dropWhile_cons, if_neg]
    intro h
    simp only [Bool.or_eq_true, decide_eq_true_eq, Bool.and_eq_true] at h
    rcases h with h | ⟨_, h⟩
    · subst h; exact absurd hc.1 (by decide)
    · have : c.toNat ≤ 13 := UInt8.le_iff_toNat_le.1 h
      omega
  rw [requestNumber, hdrop, strtoul, decValue_digits _ t 0 hd ht]
  show min (decimal (c :: cs)) _ = _
  omega

theorem number_not_a {n t : Str} (h : IsNumber n) : deref (n ++ t) ≠ 97 := by
  obtain ⟨hne, hd, _⟩ := h
  obtain ⟨c, cs, rfl⟩ := List.exists_cons_of_ne_nil hne
  intro e
  have : c = 97 := e
  subst this
  exact absurd (hd 97 (by simp)).2 (by decide)

/-- The first of a list, at most one of which has the property. -/
theorem selectLoop_eq (req : Str) (ha : deref req ≠ 97) : ∀ (l : List Bak),
    selectLoop req l = (l.find? (fun b => decide (b.timestamp = req ∨ b.bno = requestNumber req))).toList
  | [] => rfl
  | b :: l => by
    rw [selectLoop, List.find?_cons]
    by_cases h : b.timestamp = req ∨ b.bno = requestNumber req
    · rw [if_pos (by rcases h with h | h <;> simp [h]), if_neg ha]
      simp [h]
    · rw [if_neg (by rintro (h1 | h1 | h1) <;> simp_all), selectLoop_eq req ha l]
      simp [h]

theorem stamp_number {l : List Bak} (hl : GoodList l) {b : Bak} (hb : b ∈ l) :
    requestNumber b.timestamp = b.bno ∧ deref b.timestamp ≠ 97 ∧ ¬ IsNumber b.timestamp := by
  obtain ⟨n, rest, h1, h2, h3, _⟩ := hl.stamp b hb
  have hs : ∀ c, (space :: rest).head? = some c → isDigit c = false := by
    intro c hc; simp at hc; subst hc; decide
  refine ⟨?_, ?_, ?_⟩
  · rw [h1, requestNumber_digits n _ h2 hs, h3]
  · rw [h1]; exact number_not_a h2
  · intro h
    rw [h1] at h
    exact absurd (h.2.1 space (by simp)).1 (by decide)

theorem find_bno {l : List Bak} (hl : GoodList l) {b : Bak} (hb : b ∈ l) {p : Bak → Bool}
    (hp : ∀ x ∈ l, p x = true ↔ x.bno = b.bno) : l.find? p = some b := by
  have hn := hl.nodup
  clear hl
  induction l with
  | nil => simp at hb
  | cons x l ih =>
    rw [List.map_cons, List.nodup_cons] at hn
    rw [List.find?_cons]
    rcases List.mem_cons.1 hb with rfl | hb'
    · rw [(hp b (by simp)).2 rfl]
    · have : p x = false := by
        cases hx : p x with
        | false => rfl
        | true =>
          exact absurd (List.mem_map_of_mem hb' (f := (·.bno))) (by
            rw [← (hp x (by simp)).1 hx]; exact hn.1)
      rw [this]
      exact ih hb' (fun y hy => hp y (by simp [hy])) hn.2

/-- C32: with no backup given, the most recent one is restored. -/
theorem C32_latest (l : List Bak) : select none l = l.getLast?.toList ∧ select (some []) l = l.getLast?.toList := by
  simp [select]

/-- C32: all backups are restored with `a`. -/
theorem C32_all (l : List Bak) (rest : Str) : select (some (97 :: rest)) l = l := by
  rw [select, if_neg (by simp [deref])]
  induction l with
  | nil => rfl
  | cons b l ih => simp [selectLoop, deref, ih]

/-- C32: with a number, the backup with that number is restored, if there is one, and otherwise none. -/
theorem C32_number (l : List Bak) (hl : GoodList l) (n : Str) (hn : IsNumber n) (h0 : decimal n ≠ 0) :
    (∀ b ∈ l, b.bno = decimal n → select (some n) l = [b]) ∧
    ((∀ b ∈ l, b.bno ≠ decimal n) → select (some n) l = []) := by
  have hr : requestNumber n = decimal n := by
    have := requestNumber_digits n [] hn (by simp)
    rwa [List.append_nil] at this
  have ha : deref n ≠ 97 := by have := number_not_a (t := []) hn; rwa [List.append_nil] at this
  have hsel : select (some n) l = selectLoop n l := by
    rw [select, if_neg]
    rintro (h | ⟨h, _⟩)
    · exact hn.1 h
    · rw [hr] at h; exact h0 h
  have hp : ∀ x ∈ l, decide (x.timestamp = n ∨ x.bno = requestNumber n) = true ↔ x.bno = decimal n := by
    intro x hx
    rw [decide_eq_true_eq, hr]
    constructor
    · rintro (h | h)
      · exact absurd (h ▸ hn) (stamp_number hl hx).2.2
      · exact h
    · exact .inr
  constructor
  · intro b hb he
    rw [hsel, selectLoop_eq n ha, find_bno hl hb (fun x hx => by rw [hp x hx, he])]
    rfl
  · intro hno
    rw [hsel, selectLoop_eq n ha]
    have : l.find? (fun b => decide (b.timestamp = n ∨ b.bno = requestNumber n)) = none := by
      rw [List.find?_eq_none]
      intro x hx h
      exact hno x hx ((hp x hx).1 h)
    rw [this]; rfl

/-- C32: with the time stamp of a backup, that one is restored. -/
theorem C32_timestamp (l : List Bak) (hl : GoodList l) (b : Bak) (hb : b ∈ l) :
    select (some b.timestamp) l = [b] := by
  obtain ⟨h1, h2, _⟩ := stamp_number hl hb
  obtain ⟨n, rest, k1, k2, k3, k4⟩ := hl.stamp b hb
  have hsel : select (some b.timestamp) l = selectLoop b.timestamp l := by
    rw [select, if_neg]
    rintro (h | ⟨h, _⟩)
    · rw [k1] at h; simp at h
    · rw [h1] at h; omega
  rw [hsel, selectLoop_eq _ h2, find_bno hl hb]
  · rfl
  · intro x hx
    rw [decide_eq_true_eq, h1]
    constructor
    · rintro (h | h)
      · rw [← (stamp_number hl hx).1, h, h1]
      · exact h
    · exact .inr

/-- C32: when nothing is restored, that is reported. -/
theorem C32_none (ending : Int) : restoreResult [] ending = -1 := rfl

def exList : List Bak := [⟨5, bytes "0000005 2026-01-01 00:00:00"⟩, ⟨12, bytes "0000012 2026-02-01 00:00:00"⟩]

example : GoodList exList ∧ IsNumber (bytes "12") ∧ select (some (bytes "5")) exList = [⟨5, bytes "0000005 2026-01-01 00:00:00"⟩] := by
  refine ⟨⟨by decide, ?_⟩, ⟨by decide, by decide, by decide⟩, by decide⟩
  intro b hb
  simp only [exList, List.mem_cons, List.not_mem_nil, or_false] at hb
  rcases hb with rfl | rfl
  · exact ⟨bytes "0000005", bytes "2026-01-01 00:00:00", by decide, ⟨by decide, by decide, by decide⟩, by decide, by decide⟩
  · exact ⟨bytes "0000012", bytes "2026-02-01 00:00:00", by decide, ⟨by decide, by decide, by decide⟩, by decide, by decide⟩

/-- C32, violated: a request that is not a number, or is zero, gets the most recent backup, not an error. -/
theorem C32_junk_violated : select (some (bytes "yesterday")) exList = [⟨12, bytes "0000012 2026-02-01 00:00:00"⟩] ∧
    select (some (bytes "0")) exList = [⟨12, bytes "0000012 2026-02-01 00:00:00"⟩] := by decide

/-- C32, violated: of a time stamp that no backup has, the number at its beginning is enough. A date alone is
taken for the number of the year. -/
theorem C32_other_time_violated :
    select (some (bytes "0000005 1999-12-31 00:00:00")) exList = [⟨5, bytes "0000005 2026-01-01 00:00:00"⟩] ∧
    select (some (bytes "2026-02-01 00:00:00")) exList = [] := by decide

/-- C32, violated: that the restore of the backup failed does not show in the result. -/
theorem C32_failure_lost_violated : restoreResult [-1] 0 = 0 := rfl

end Verif
