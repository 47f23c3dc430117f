import Verif.Spec.RateLimit

/-!
# C86: the rate of sending is limited
-/

namespace Verif.RateLimit

theorem run_append (limit : Int) (r : Rl) (a b : List Try) :
    run limit r (a ++ b) = run limit (run limit r a) b := by
  unfold run
  rw [List.foldl_append]

/-- What an attempt does when it has begun already and the clock has not gone back. -/
theorem write_cases (limit : Int) (hl : limit ≠ 0) (r : Rl) (t : Try) (hs : r.start ≠ 0)
    (ht : r.start ≤ t.now) :
    (write limit r t).start = r.start ∧
    (((t.now = r.start ∨ ((r.bytes / (t.now - r.start).toNat : Nat) : Int) < limit) ∧
        (write limit r t).sent = r.sent + min t.takes t.queued ∧
        (write limit r t).bytes = r.bytes + min t.takes t.queued)
     ∨ (r.start < t.now ∧ limit ≤ ((r.bytes / (t.now - r.start).toNat : Nat) : Int) ∧
        (write limit r t).sent = r.sent ∧ (write limit r t).bytes = r.bytes)) := by
  unfold write check
  rw [if_neg hl]
  simp only [if_neg hs]
  have h1 : ¬ t.now - r.start < 0 := by omega
  rw [if_neg h1]
  by_cases h2 : t.now - r.start = 0
  · rw [if_pos h2]
    exact ⟨rfl, Or.inl ⟨Or.inl (by omega), rfl, rfl⟩⟩
  · rw [if_neg h2]
    by_cases h3 : limit ≤ ((r.bytes / (t.now - r.start).toNat : Nat) : Int)
    · rw [if_pos h3]
      exact ⟨rfl, Or.inr ⟨by omega, h3, rfl, rfl⟩⟩
    · rw [if_neg h3]
      exact ⟨rfl, Or.inl ⟨Or.inr (by omega), rfl, rfl⟩⟩

/-- The first attempt. -/
theorem write_first (limit : Int) (hl : limit ≠ 0) (t : Try) (ht : t.now ≤ t.clock) :
    (write limit {} t).start = t.clock ∧
    (write limit {} t).bytes = min t.takes t.queued ∧ (write limit {} t).sent = min t.takes t.queued := by
  unfold write check
  rw [if_neg hl]
  simp only [if_true]
  by_cases h1 : t.now - t.clock < 0
  · rw [if_pos h1]; exact ⟨rfl, by simp, by simp⟩
  · rw [if_neg h1]
    have h2 : t.now - t.clock = 0 := by omega
    rw [if_pos h2]
    exact ⟨rfl, by simp, by simp⟩

theorem run_inv (limit : Int) (hl : limit ≠ 0) (ts : List Try) :
    ∀ r : Rl, r.start ≠ 0 → r.bytes = r.sent → ∀ t0, r.start ≤ t0 → Clock t0 ts →
      (run limit r ts).start = r.start ∧ (run limit r ts).bytes = (run limit r ts).sent := by
  induction ts with
  | nil => intro r _ h _ _ _; exact ⟨rfl, h⟩
  | cons t rest ih =>
    intro r hs hb t0 h0 hc
    obtain ⟨h1, h2, h3⟩ := hc
    obtain ⟨e, h⟩ := write_cases limit hl r t hs (by omega)
    have hb' : (write limit r t).bytes = (write limit r t).sent := by
      rcases h with ⟨-, a, b⟩ | ⟨-, -, a, b⟩ <;> omega
    have := ih (write limit r t) (by rw [e]; exact hs) hb' t.clock (by rw [e]; omega) h3
    rw [e] at this
    exact this

/-- The state after some attempts, of which there is a first one. -/
theorem run_state (limit : Int) (hl : limit ≠ 0) (first : Try) (ts : List Try) (hpos : 1 ≤ first.now)
    (hc : Clock first.now (first :: ts)) :
    (run limit {} (first :: ts)).start = first.clock ∧
    (run limit {} (first :: ts)).bytes = (run limit {} (first :: ts)).sent := by
  obtain ⟨-, h2, h3⟩ := hc
  obtain ⟨a, b, c⟩ := write_first limit hl first h2
  have := run_inv limit hl ts (write limit {} first) (by rw [a]; omega) (by rw [b, c]) first.clock
    (by rw [a]; omega) h3
  rw [a] at this
  exact this

theorem clock_last (t0 : Int) (ts : List Try) (t : Try) (h : Clock t0 (ts ++ [t])) :
    Clock t0 ts ∧ t0 ≤ t.now := by
  induction ts generalizing t0 with
  | nil => exact ⟨trivial, h.1⟩
  | cons x rest ih =>
    obtain ⟨h1, h2, h3⟩ := h
    obtain ⟨a, b⟩ := ih x.clock h3
    exact ⟨⟨h1, h2, a⟩, by omega⟩

theorem lt_mul_of_div_lt {b d : Nat} {limit : Int} (hd : 0 < d)
    (h : ((b / d : Nat) : Int) < limit) : (b : Int) < limit * d := by
  have h1 : ((b / d : Nat) : Int) + 1 ≤ limit := by omega
  have h2 : (((b / d : Nat) : Int) + 1) * d ≤ limit * d :=
    Int.mul_le_mul_of_nonneg_right h1 (by omega)
  have h3 : b < (b / d + 1) * d := by
    have := Nat.lt_mul_div_succ b hd
    rw [Nat.mul_comm]; exact this
  have h4 : ((b : Nat) : Int) < (((b / d + 1) * d : Nat) : Int) := by exact_mod_cast h3
  simp only [Int.natCast_mul, Int.natCast_add] at h4
  have h5 : ((1 : Nat) : Int) = 1 := rfl
  rw [h5] at h4
  omega

theorem div_lt_of_lt_mul {b d : Nat} {limit : Int} (hd : 0 < d)
    (h : (b : Int) < limit * d) : ((b / d : Nat) : Int) < limit := by
  apply Decidable.byContradiction
  intro hn
  have h1 : limit ≤ ((b / d : Nat) : Int) := by omega
  have h2 : limit * d ≤ ((b / d : Nat) : Int) * d := Int.mul_le_mul_of_nonneg_right h1 (by omega)
  have h3 : b / d * d ≤ b := Nat.div_mul_le_self b d
  have h4 : (((b / d * d : Nat)) : Int) ≤ (b : Int) := by exact_mod_cast h3
  simp only [Int.natCast_mul] at h4
  omega

theorem sleep_inv (limit : Int) (r : Rl) (t : Try) (h : 10000 ≤ r.sleep ∧ r.sleep ≤ 500000) :
    10000 ≤ (write limit r t).sleep ∧ (write limit r t).sleep ≤ 500000 := by
  unfold write check
  by_cases hl : limit = 0
  · rw [if_pos hl]; exact h
  · rw [if_neg hl]
    by_cases hs : r.start = 0
    · simp only [hs, if_true]
      by_cases h1 : t.now - t.clock < 0
      · rw [if_pos h1]; exact h
      · rw [if_neg h1]
        by_cases h2 : t.now - t.clock = 0
        · rw [if_pos h2]; exact h
        · rw [if_neg h2]
          by_cases h3 : limit ≤ ((r.bytes / (t.now - t.clock).toNat : Nat) : Int)
          · rw [if_pos h3]
            by_cases h4 : r.sleep * 2 ≥ 500000 <;> simp [h4] <;> omega
          · rw [if_neg h3]
            by_cases h4 : r.sleep / 2 ≤ 9999 <;> simp [h4] <;> omega
    · simp only [hs, if_false]
      by_cases h1 : t.now - r.start < 0
      · rw [if_pos h1]; exact h
      · rw [if_neg h1]
        by_cases h2 : t.now - r.start = 0
        · rw [if_pos h2]; exact h
        · rw [if_neg h2]
          by_cases h3 : limit ≤ ((r.bytes / (t.now - r.start).toNat : Nat) : Int)
          · rw [if_pos h3]
            by_cases h4 : r.sleep * 2 ≥ 500000 <;> simp [h4] <;> omega
          · rw [if_neg h3]
            by_cases h4 : r.sleep / 2 ≤ 9999 <;> simp [h4] <;> omega

end Verif.RateLimit

namespace Verif
open Verif.RateLimit

/-- C86: after the first second, burp sends something only if what it has sent since the first
attempt to write is less than the limit allows for the time that has passed. `t` is an attempt to
write at a time after that of the first one; the clock does not go backwards. -/
theorem C86_rate (limit : Int) (hl : 0 < limit) (first : Try) (ts : List Try) (t : Try)
    (hpos : 1 ≤ first.now) (hclock : Clock first.now (first :: ts ++ [t]))
    (hlater : first.clock < t.now)
    (hsent : total limit (first :: ts ++ [t]) ≠ total limit (first :: ts)) :
    (total limit (first :: ts) : Int) < limit * (t.now - first.clock) := by
  obtain ⟨hc, -⟩ := clock_last _ _ _ hclock
  obtain ⟨h1, h2⟩ := run_state limit (by omega) first ts hpos hc
  unfold total at *
  rw [run_append] at hsent
  obtain ⟨-, h⟩ := write_cases limit (by omega) (run limit {} (first :: ts)) t
    (by rw [h1]; have := hc.2.1; omega) (by rw [h1]; omega)
  rw [h1, h2] at h
  rcases h with ⟨h3 | h3, -⟩ | ⟨-, -, h3, -⟩
  · omega
  · have := lt_mul_of_div_lt (by omega) h3
    have e : (((t.now - first.clock).toNat : Nat) : Int) = t.now - first.clock := by omega
    rw [e] at this
    exact this
  · exact absurd h3 hsent

/-- C86: so that the total is at most one buffer above what the limit allows, if anything was sent
after the first second. -/
theorem C86_total (limit : Int) (hl : 0 < limit) (first : Try) (ts : List Try) (t : Try)
    (hpos : 1 ≤ first.now) (hclock : Clock first.now (first :: ts ++ [t]))
    (hlater : first.clock < t.now)
    (hsent : total limit (first :: ts ++ [t]) ≠ total limit (first :: ts)) :
    (total limit (first :: ts ++ [t]) : Int) < limit * (t.now - first.clock) + t.queued := by
  have h := C86_rate limit hl first ts t hpos hclock hlater hsent
  have h2 : total limit (first :: ts ++ [t]) ≤ total limit (first :: ts) + t.queued := by
    obtain ⟨hc, -⟩ := clock_last _ _ _ hclock
    obtain ⟨h1, -⟩ := run_state limit (by omega) first ts hpos hc
    unfold total
    rw [run_append]
    obtain ⟨-, h⟩ := write_cases limit (by omega) (run limit {} (first :: ts)) t
      (by rw [h1]; have := hc.2.1; omega) (by rw [h1]; omega)
    have e : run limit (run limit {} (first :: ts)) [t] = write limit (run limit {} (first :: ts)) t := rfl
    rw [e]
    rcases h with ⟨-, h3, -⟩ | ⟨-, -, h3, -⟩
    · rw [h3]; omega
    · rw [h3]; omega
  omega

/-- C86: and it does not hold back more than that: as soon as less has been sent than the limit
allows, an attempt to write sends what the operating system takes. -/
theorem C86_goes_on (limit : Int) (hl : 0 < limit) (first : Try) (ts : List Try) (t : Try)
    (hpos : 1 ≤ first.now) (hclock : Clock first.now (first :: ts ++ [t]))
    (hroom : (total limit (first :: ts) : Int) < limit * (t.now - first.clock)) :
    total limit (first :: ts ++ [t]) = total limit (first :: ts) + min t.takes t.queued := by
  obtain ⟨hc, -⟩ := clock_last _ _ _ hclock
  obtain ⟨h1, h2⟩ := run_state limit (by omega) first ts hpos hc
  have hge : first.clock ≤ t.now := by
    have := (clock_last _ _ _ hclock.2.2).2
    exact this
  unfold total at *
  rw [run_append]
  have e : run limit (run limit {} (first :: ts)) [t] = write limit (run limit {} (first :: ts)) t := rfl
  rw [e]
  obtain ⟨-, h⟩ := write_cases limit (by omega) (run limit {} (first :: ts)) t
    (by rw [h1]; have := hc.2.1; omega) (by rw [h1]; omega)
  rw [h1, h2] at h
  rcases h with ⟨-, h3, -⟩ | ⟨h4, h5, -, -⟩
  · exact h3
  · have e : (((t.now - first.clock).toNat : Nat) : Int) = t.now - first.clock := by omega
    rw [← e] at hroom
    have := div_lt_of_lt_mul (by omega) hroom
    omega

/-- C86: when the clock has been set back, the count begins anew: at a later time, burp sends what it can if
what it has sent since the clock was seen to be back is less than the limit allows for the time since the first
attempt to write, and otherwise nothing. `back` is the last attempt before that time. -/
theorem C86_set_back (limit : Int) (hl : 0 < limit) (first : Try) (ts : List Try) (back : Try) (after : List Try)
    (t : Try) (hpos : first.clock ≠ 0) (hback : back.now < first.clock)
    (hafter : ∀ x ∈ after, first.clock ≤ x.now) (hlater : first.clock < t.now) :
    let before := first :: ts
    let since := total limit (before ++ [back] ++ after) - total limit before
    total limit (before ++ [back] ++ after ++ [t]) = total limit (before ++ [back] ++ after) +
      if (since : Int) < limit * (t.now - first.clock) then min t.takes t.queued else 0 := by
  have hl' : limit ≠ 0 := by omega
  have hstart : ∀ (ts : List Try) (r : Rl), r.start = first.clock → (run limit r ts).start = first.clock := by
    intro ts
    induction ts with
    | nil => intro r h; exact h
    | cons x rest ih =>
      intro r h
      refine ih _ ?_
      unfold write check
      rw [if_neg hl']
      simp only [if_neg (show ¬ r.start = 0 by rw [h]; exact hpos)]
      split
      · rename_i r' heq
        split at heq
        · cases heq
        · split at heq
          · cases heq
          · split at heq <;> cases heq
            exact h
      · rename_i r' heq
        split at heq
        · cases heq; exact h
        · split at heq
          · cases heq; exact h
          · split at heq <;> cases heq
            exact h
  have h0 : (run limit {} (first :: ts)).start = first.clock := by
    show (run limit (write limit {} first) ts).start = _
    apply hstart
    unfold write check
    rw [if_neg hl']
    simp only [if_true]
    split
    · rename_i r' heq
      split at heq
      · cases heq
      · split at heq
        · cases heq
        · split at heq <;> cases heq
          rfl
    · rename_i r' heq
      split at heq
      · cases heq; rfl
      · split at heq
        · cases heq; rfl
        · split at heq <;> cases heq
          rfl
  dsimp only
  unfold total
  rw [run_append, run_append, run_append]
  generalize run limit {} (first :: ts) = r0 at h0
  have hb : (write limit r0 back).start = first.clock ∧
      (write limit r0 back).sent = r0.sent + (write limit r0 back).bytes := by
    unfold write check
    rw [if_neg hl']
    simp only [if_neg (show ¬ r0.start = 0 by rw [h0]; exact hpos)]
    rw [if_pos (show back.now - r0.start < 0 by omega)]
    exact ⟨h0, by simp⟩
  have hrun : ∀ (l : List Try) (r : Rl), (∀ x ∈ l, first.clock ≤ x.now) → r.start = first.clock →
      r.sent = r0.sent + r.bytes →
      (run limit r l).start = first.clock ∧ (run limit r l).sent = r0.sent + (run limit r l).bytes := by
    intro l
    induction l with
    | nil => intro r _ h1 h2; exact ⟨h1, h2⟩
    | cons x rest ih =>
      intro r hx h1 h2
      obtain ⟨e, h⟩ := write_cases limit hl' r x (by rw [h1]; exact hpos) (by rw [h1]; exact hx x (by simp))
      refine ih _ (fun y hy => hx y (List.mem_cons_of_mem _ hy)) (e.trans h1) ?_
      rcases h with ⟨-, a, b⟩ | ⟨-, -, a, b⟩ <;> omega
  obtain ⟨e1, e2⟩ := hrun after (write limit r0 back) hafter hb.1 hb.2
  change (write limit (run limit (write limit r0 back) after) t).sent =
    (run limit (write limit r0 back) after).sent + if ((((run limit (write limit r0 back) after).sent - r0.sent : Nat)) : Int) <
      limit * (t.now - first.clock) then min t.takes t.queued else 0
  generalize run limit (write limit r0 back) after = r at e1 e2
  obtain ⟨-, h⟩ := write_cases limit hl' r t (by rw [e1]; exact hpos) (by rw [e1]; omega)
  have hs : r.sent - r0.sent = r.bytes := by omega
  rw [hs]
  have hd : ((t.now - r.start).toNat : Int) = t.now - first.clock := by rw [e1]; omega
  rcases h with ⟨h, a, -⟩ | ⟨-, h, a, -⟩
  · have h := h.resolve_left (by omega)
    have := lt_mul_of_div_lt (by omega) h
    rw [hd] at this
    rw [if_pos this, a]
  · rw [if_neg, a, Nat.add_zero]
    intro hlt
    rw [← hd] at hlt
    have := div_lt_of_lt_mul (by omega) hlt
    omega

/-- C86: whatever has happened, the next pause is between a hundredth of a second and half a
second. -/
theorem C86_pause (limit : Int) (ts : List Try) :
    10000 ≤ (run limit {} ts).sleep ∧ (run limit {} ts).sleep ≤ 500000 := by
  have : ∀ r : Rl, 10000 ≤ r.sleep ∧ r.sleep ≤ 500000 →
      10000 ≤ (run limit r ts).sleep ∧ (run limit r ts).sleep ≤ 500000 := by
    induction ts with
    | nil => intro r h; exact h
    | cons t rest ih => intro r h; exact ih _ (sleep_inv limit r t h)
  exact this {} ⟨by decide, by decide⟩

/-- C86: without the setting nothing is held back. -/
theorem C86_unlimited (ts : List Try) (t : Try) :
    total 0 (ts ++ [t]) = total 0 ts + min t.takes t.queued := by
  unfold total
  rw [run_append]
  rfl

end Verif
