import Verif.Spec.StatsFile

/-! Helper lemmas for `Verif/Props/StatsFile.lean`. -/

namespace Verif.StatsFile
open Verif

/-- What holds while `sofar` has been given to be written over `old`. -/
structure Ok (old sofar : Str) (o : Out) : Prop where
  le : o.off ≤ sofar.length
  buf : o.buf = sofar.drop o.off
  file : o.file = over sofar old o.off

theorem put_over {old sofar s : Str} {off : Nat} (h : off ≤ sofar.length)
    (hs : s = (sofar.drop off).take s.length) :
    put (over sofar old off) off s = over sofar old (off + s.length) := by
  have hl : (sofar.take off).length = off := by simp [h]
  unfold put over
  have h1 : (sofar.take off ++ old.drop off).take off = sofar.take off := by
    rw [List.take_append_of_le_length (by omega), List.take_of_length_le (by omega)]
  have h2 : (sofar.take off ++ old.drop off).drop (off + s.length) = old.drop (off + s.length) := by
    rw [List.drop_append, List.drop_of_length_le (by omega), hl]
    simp only [List.nil_append, List.drop_drop]
    congr 1
    omega
  rw [h1, h2]
  congr 1
  have h3 : sofar.take (off + s.length) = sofar.take off ++ (sofar.drop off).take s.length := List.take_add
  rw [h3, ← hs]

theorem Ok.take {old sofar : Str} {o : Out} (h : Ok old sofar o) (n : Nat) : Ok old sofar (o.take n) := by
  have hs : o.buf.take n = (sofar.drop o.off).take (o.buf.take n).length := by
    rw [h.buf, List.length_take]
    rcases Nat.le_total n (sofar.drop o.off).length with hn | hn
    · rw [Nat.min_eq_left hn]
    · rw [Nat.min_eq_right hn, List.take_of_length_le hn, List.take_of_length_le (Nat.le_refl _)]
  have hlb : o.buf.length = sofar.length - o.off := by rw [h.buf, List.length_drop]
  have hle := h.le
  refine ⟨?_, ?_, ?_⟩
  · show o.off + (o.buf.take n).length ≤ sofar.length
    rw [List.length_take]
    omega
  · show o.buf.drop n = sofar.drop (o.off + (o.buf.take n).length)
    rw [← List.drop_drop, ← h.buf, List.length_take]
    rcases Nat.le_total n o.buf.length with hn | hn
    · rw [Nat.min_eq_left hn]
    · rw [Nat.min_eq_right hn, List.drop_of_length_le hn, List.drop_of_length_le (Nat.le_refl _)]
  · show put o.file o.off (o.buf.take n) = _
    rw [h.file]
    exact put_over h.le hs

theorem Ok.give {old sofar : Str} {o : Out} (h : Ok old sofar o) (c : Str) :
    Ok old (sofar ++ c) { o with buf := o.buf ++ c } := by
  have hle := h.le
  refine ⟨?_, ?_, ?_⟩
  · show o.off ≤ (sofar ++ c).length
    rw [List.length_append]; omega
  · show o.buf ++ c = (sofar ++ c).drop o.off
    rw [List.drop_append_of_le_length h.le, h.buf]
  · show o.file = over (sofar ++ c) old o.off
    rw [h.file]
    unfold over
    rw [List.take_append_of_le_length h.le]

theorem flush_ok {old sofar : Str} {o : Out} {ts : List Take} (h : Ok old sofar o) :
    Ok old sofar (flush o ts).1 := by
  cases ts with
  | nil => exact h.take _
  | cons t ts =>
    cases t with
    | took n => exact h.take _
    | error => exact h

theorem write_ok {old c : Str} : ∀ {ts : List Take} {sofar : Str} {o : Out}, Ok old sofar o →
    (write c o ts).2.2 = true → Ok old (sofar ++ c) (write c o ts).1
  | [], sofar, o, h, _ => by
    unfold write
    simp only
    refine flush_ok (Ok.give ?_ c)
    split
    · exact h.take _
    · exact h
  | t :: ts, sofar, o, h, hw => by
    unfold write at hw ⊢
    by_cases hb : o.buf.length + c.length ≥ 32032 - 1
    · rw [if_pos hb] at hw ⊢
      cases t with
      | took n => exact write_ok (h.take n) hw
      | error => cases hw
    · rw [if_neg hb] at hw ⊢
      exact flush_ok (h.give c)

theorem writeAll_ok {old : Str} : ∀ {fuel : Nat} {s sofar : Str} {o : Out} {ts : List Take},
    s.length < fuel → Ok old sofar o → (writeAll fuel s o ts).2 = true →
    Ok old (sofar ++ s) (writeAll fuel s o ts).1
  | 0, s, _, _, _, hl, _, _ => by omega
  | fuel + 1, s, sofar, o, ts, hl, h, hw => by
    unfold writeAll at hw ⊢
    by_cases hs : s = []
    · rw [if_pos hs] at hw ⊢
      rw [hs, List.append_nil]
      exact h
    · rw [if_neg hs] at hw ⊢
      have h1 := write_ok (c := s.take 16000) (ts := ts) h
      have hpos : 0 < s.length := by cases s with
        | nil => exact absurd rfl hs
        | cons a s => simp
      generalize write (s.take 16000) o ts = r at h1 hw ⊢
      obtain ⟨o1, ts1, b⟩ := r
      cases b with
      | false => cases hw
      | true =>
        have := writeAll_ok (by rw [List.length_drop]; omega) (h1 rfl) hw
        rwa [List.append_assoc, List.take_append_drop] at this

/-- When all that is given is taken, nothing stays in the buffer. -/
theorem write_full (c : Str) (o : Out) : ∃ o', write c o [] = (o', [], true) ∧ o'.buf = [] := by
  unfold write flush
  exact ⟨_, rfl, List.drop_of_length_le (Nat.le_refl _)⟩

theorem writeAll_full : ∀ {fuel : Nat} {s : Str} {o : Out}, s.length < fuel → o.buf = [] →
    (writeAll fuel s o []).2 = true ∧ (writeAll fuel s o []).1.buf = []
  | 0, s, _, hl, _ => by omega
  | fuel + 1, s, o, hl, hb => by
    unfold writeAll
    by_cases hs : s = []
    · rw [if_pos hs]; exact ⟨rfl, hb⟩
    · rw [if_neg hs]
      have hpos : 0 < s.length := by cases s with
        | nil => exact absurd rfl hs
        | cons a s => simp
      obtain ⟨o1, hw, h1⟩ := write_full (s.take 16000) o
      rw [hw]
      exact writeAll_full (by rw [List.length_drop]; omega) h1

theorem ok_start (old : Str) : Ok old [] ⟨old, 0, [], []⟩ := ⟨Nat.le_refl _, rfl, rfl⟩

/-- The file at the end. -/
def written (text : Str) (l : Luck) (d : Dir) (tmp : Str) : Out × Bool :=
  writeAll (text.length + 1) text ⟨(d tmp).getD [], 0, [], []⟩ l.takes

/-- The ways in which it ends. -/
theorem save_cases {act : Action} {text : Str} {l : Luck} {d : Dir} {path : Str} (hp : fileName act = some path) :
    ((save act text l d).2.2 = false ∧
      ∀ x, x ∈ (save act text l d).1 ∨ x = (save act text l d).2.1 → ∃ v, x = d ∨ x = d.set (path ++ bytes ".tmp") v)
    ∨ ((written text l d (path ++ bytes ".tmp")).2 = true
      ∧ (save act text l d).2.2 = true
      ∧ (save act text l d).2.1
        = (d.set (path ++ bytes ".tmp") none).set path (some (written text l d (path ++ bytes ".tmp")).1.file)
      ∧ ∀ x ∈ (save act text l d).1, x = (save act text l d).2.1 ∨ ∃ v, x = d.set (path ++ bytes ".tmp") v) := by
  unfold save
  rw [hp]
  simp only
  show _ ∨ _
  by_cases ho : l.opens = true
  · rw [if_pos ho]
    have hw : writeAll (text.length + 1) text ⟨(d (path ++ bytes ".tmp")).getD [], 0, [], []⟩ l.takes
      = written text l d (path ++ bytes ".tmp") := rfl
    rw [hw]
    generalize written text l d (path ++ bytes ".tmp") = o
    have hds : ∀ x ∈ d.set (path ++ bytes ".tmp") (some ((d (path ++ bytes ".tmp")).getD []))
        :: o.1.seen.map (fun f => d.set (path ++ bytes ".tmp") (some f)), ∃ v, x = d.set (path ++ bytes ".tmp") v := by
      intro x hx
      rcases List.mem_cons.1 hx with hx | hx
      · exact ⟨_, hx⟩
      · obtain ⟨f, _, hf⟩ := List.mem_map.1 hx
        exact ⟨_, hf.symm⟩
    by_cases hr : (o.2 && l.renames) = true
    · right
      rw [if_pos hr]
      simp only [Bool.and_eq_true] at hr
      refine ⟨hr.1, rfl, rfl, ?_⟩
      intro x hx
      rcases List.mem_append.1 hx with hx | hx
      · exact .inr (hds x hx)
      · exact .inl (List.mem_singleton.1 hx)
    · left
      rw [if_neg hr]
      refine ⟨rfl, ?_⟩
      rintro x (hx | hx)
      · obtain ⟨v, hv⟩ := hds x hx
        exact ⟨v, .inr hv⟩
      · exact ⟨_, .inr hx⟩
  · left
    rw [if_neg ho]
    refine ⟨rfl, ?_⟩
    rintro x (hx | hx)
    · cases hx
    · exact ⟨none, .inl hx⟩

theorem tmp_ne (path : Str) : path ≠ path ++ bytes ".tmp" := by
  intro h
  have := congrArg List.length h
  rw [List.length_append] at this
  have h4 : (bytes ".tmp").length = 4 := by decide
  omega

end Verif.StatsFile
