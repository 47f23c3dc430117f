import Verif.Spec.TimedOps
import Verif.Props.Timer

/-!
# Lemmas about what is done from time to time
-/

namespace Verif.TimedOps
open Verif

theorem runTimer_zero {c : Conf} {m : Moment} {st st' : Store} {r : Int}
    (h : TimedOps.runTimer c m st = some (r, st')) : r = 0 ↔ (Allowed c m st ∨ Asked c st) := by
  unfold TimedOps.runTimer at h
  by_cases hs : c.useScript = true
  · simp only [hs, if_true, Option.some.injEq, Prod.mk.injEq] at h
    simp [Allowed, Asked, hs, h.1]
  · have hs' : c.useScript = false := by simpa using hs
    simp only [hs', Bool.false_eq_true, if_false] at h
    have key := C35_run_iff ⟨st.manual, c.args, m.day, m.hour, m.now, st.hasCurrent, st.last⟩
    have e : (Allowed c m st ∨ Asked c st) ↔
        Timer.runTimer ⟨st.manual, c.args, m.day, m.hour, m.now, st.hasCurrent, st.last⟩ = .run := by
      rw [key]
      simp only [Allowed, Asked, hs', Bool.false_eq_true, if_false, true_and]
      exact Or.comm
    rw [e]
    split at h
    · cases h
    · rename_i hr
      simp only [Option.some.injEq, Prod.mk.injEq] at h
      simp [hr, ← h.1]
    · rename_i hr
      simp only [Option.some.injEq, Prod.mk.injEq] at h
      simp [hr, ← h.1]
    · rename_i hr
      simp only [Option.some.injEq, Prod.mk.injEq] at h
      simp [hr, ← h.1]

theorem runTimer_store {c : Conf} {m : Moment} {st st' : Store} {r : Int}
    (h : TimedOps.runTimer c m st = some (r, st')) :
    st'.hasCurrent = st.hasCurrent ∧ st'.last = st.last ∧ (st'.manual = true → st.manual = true) := by
  unfold TimedOps.runTimer at h
  split at h
  · cases h; exact ⟨rfl, rfl, id⟩
  · split at h
    · cases h
    · cases h; exact ⟨rfl, rfl, id⟩
    · cases h; exact ⟨rfl, rfl, by simp⟩
    · cases h; exact ⟨rfl, rfl, id⟩

theorem allowed_congr {c : Conf} {m : Moment} {st st' : Store} (h1 : st'.hasCurrent = st.hasCurrent)
    (h2 : st'.last = st.last) : Allowed c m st' ↔ Allowed c m st := by
  simp [Allowed, h1, h2]

/-- The cases of `writeStatus`. -/
theorem writeStatus_cases (p : Proc) (now : Int) (w : Wire) :
    (now < p.statusLast ∧ writeStatus p now w = (true, { p with statusLast := now })) ∨
    (p.statusLast ≤ now ∧ writeStatus p now w = (true, p)) ∨
    (p.statusLast + 2 ≤ now ∧
      ((writeStatus p now w = (true, { p with statusLast := now })) ∨
       ((w.append = .error ∨ w.line = []) ∧ writeStatus p now w = (false, { p with statusLast := now })) ∨
       (writeStatus p now w =
          (true, { p with statusLast := now, pending := none, sent := (now, p.pending.getD w.line) :: p.sent })) ∨
       (writeStatus p now w =
          (true, { p with statusLast := now, pending := some (p.pending.getD w.line) })))) := by
  by_cases h1 : now - p.statusLast < 2
  · by_cases h0 : now - p.statusLast < 0
    · left; exact ⟨by omega, by simp [writeStatus, h1, h0]⟩
    · right; left; exact ⟨by omega, by simp [writeStatus, h1, h0]⟩
  · right; right
    refine ⟨by omega, ?_⟩
    by_cases h2 : w.pipe = false
    · left; simp [writeStatus, h1, h2]
    · have h2' : w.pipe = true := by simpa using h2
      by_cases h3 : w.bno = 0
      · left; simp [writeStatus, h1, h3]
      · right
        cases hp : p.pending with
        | none =>
          cases hl : w.line with
          | nil => left; exact ⟨Or.inr rfl, by simp [writeStatus, h1, h2', h3, hp, hl]⟩
          | cons x xs =>
            cases ha : w.append with
            | ok => right; left; simp [writeStatus, h1, h2', h3, hp, hl, ha]
            | blocked => right; right; simp [writeStatus, h1, h2', h3, hp, hl, ha]
            | error => left; exact ⟨Or.inl rfl, by simp [writeStatus, h1, h2', h3, hp, hl, ha]⟩
        | some l =>
          cases ha : w.append with
          | ok => right; left; simp [writeStatus, h1, h2', h3, hp, ha]
          | blocked => right; right; simp [writeStatus, h1, h2', h3, hp, ha]
          | error => left; exact ⟨Or.inl rfl, by simp [writeStatus, h1, h2', h3, hp, ha]⟩

theorem writeStatus_ok {p : Proc} {now : Int} {w : Wire} (ha : w.append ≠ .error) (hl : w.line ≠ []) :
    (writeStatus p now w).1 = true := by
  rcases writeStatus_cases p now w with ⟨_, h⟩ | ⟨_, h⟩ | ⟨_, h | ⟨h', h⟩ | h | h⟩
  · rw [h]
  · rw [h]
  · rw [h]
  · rcases h' with h' | h'
    · exact absurd h' ha
    · exact absurd h' hl
  · rw [h]
  · rw [h]

theorem writeStatus_timer (p : Proc) (now : Int) (w : Wire) : (writeStatus p now w).2.timerLast = p.timerLast := by
  rcases writeStatus_cases p now w with ⟨_, h⟩ | ⟨_, h⟩ | ⟨_, h | ⟨_, h⟩ | h | h⟩ <;> rw [h]

theorem checkTimer_status {c : Conf} {d : Doing} {m : Moment} {p p' : Proc} {st st' : Store} {r : Int}
    (h : checkTimer c d m p st = some (r, p', st')) :
    p'.statusLast = p.statusLast ∧ p'.pending = p.pending ∧ p'.sent = p.sent := by
  unfold checkTimer at h
  split at h
  · cases h; exact ⟨rfl, rfl, rfl⟩
  · dsimp only at h
    split at h
    · cases h
    · split at h
      · cases h; exact ⟨rfl, rfl, rfl⟩
      · split at h
        · cases h
          split <;> exact ⟨rfl, rfl, rfl⟩
        · split at h
          · cases h
          · cases h; exact ⟨rfl, rfl, rfl⟩

/-- What a check of the timer is for. -/
theorem checkTimer_cases {c : Conf} {d : Doing} {m : Moment} {p p' : Proc} {st st' : Store} {r : Int}
    (h : checkTimer c d m p st = some (r, p', st')) :
    (st'.hasCurrent = st.hasCurrent ∧ st'.last = st.last ∧ (st'.manual = true → st.manual = true)) ∧
    ((r = 0 ∧ ¬ WithClient d ∧ p' = p) ∨ (r = 0 ∧ c.repeatMin = 0) ∨
      (WithClient d ∧ c.repeatMin ≠ 0 ∧ r = 0 ∧ m.now - p.timerLast < c.repeatMin * 60 ∧
        (p' = p ∨ (m.now < p.timerLast ∧ p'.timerLast = m.now))) ∨
      (WithClient d ∧ c.repeatMin ≠ 0 ∧ c.repeatMin * 60 ≤ m.now - p.timerLast ∧ p'.timerLast = m.now ∧
        (r = 0 ↔ (Allowed c m st ∨ Asked c st)))) := by
  unfold checkTimer at h
  split at h
  · rename_i hd
    cases h
    refine ⟨⟨rfl, rfl, id⟩, Or.inl ⟨rfl, ?_, rfl⟩⟩
    rintro (h | h)
    · exact hd.1 h
    · exact hd.2 h
  · rename_i hd
    have hw : WithClient d := by
      cases d with
      | scanning => exact Or.inl rfl
      | backup => exact Or.inr rfl
      | other => exact absurd ⟨by decide, by decide⟩ hd
    dsimp only at h
    split at h
    · cases h
    · split at h
      · cases h
        exact ⟨⟨rfl, rfl, id⟩, Or.inr (Or.inl ⟨rfl, by omega⟩)⟩
      · have hr : c.repeatMin ≠ 0 := by omega
        split at h
        · rename_i hdiff
          cases h
          refine ⟨⟨rfl, rfl, id⟩, Or.inr (Or.inr (Or.inl ⟨hw, hr, rfl, hdiff, ?_⟩))⟩
          split
          · exact Or.inr ⟨by omega, rfl⟩
          · exact Or.inl rfl
        · rename_i hdiff
          split at h
          · cases h
          · rename_i r' st1 ht
            cases h
            exact ⟨runTimer_store ht, Or.inr (Or.inr (Or.inr ⟨hw, hr, by omega, rfl, runTimer_zero ht⟩))⟩

theorem run_append (c : Conf) (timed : Bool) (a b : List Ev) (p : Proc) (st : Store) :
    run c timed p st (a ++ b) = match run c timed p st a with
      | .going p st => run c timed p st b
      | x => x := by
  induction a generalizing p st with
  | nil => rfl
  | cons e es ih =>
    cases e with
    | touch => exact ih p _
    | entry d m w =>
      simp only [List.cons_append, run]
      cases timedOp c timed d m w p st with
      | none => rfl
      | some x =>
        obtain ⟨r, p', st'⟩ := x
        dsimp only
        split
        · rfl
        · exact ih p' st'

end Verif.TimedOps
