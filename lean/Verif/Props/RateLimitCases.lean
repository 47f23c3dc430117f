import Verif.Props.RateLimit

/-!
# C86: cases
-/

namespace Verif.RateLimit

/-- Ten bytes a second. In the first second anything goes; then five bytes have to wait until the
third second; then they go. -/
example : total 10 [⟨1, 1, 15, 15⟩] = 15 ∧ total 10 [⟨1, 1, 15, 15⟩, ⟨2, 2, 5, 5⟩] = 15 ∧
    total 10 [⟨1, 1, 15, 15⟩, ⟨2, 2, 5, 5⟩, ⟨3, 3, 5, 5⟩] = 20 := by decide

/-- The hypotheses of `C86_rate`, `C86_total` and `C86_goes_on` hold for it. -/
example :
    let first : Try := ⟨1, 1, 15, 15⟩
    let ts : List Try := [⟨2, 2, 5, 5⟩]
    let t : Try := ⟨3, 3, 5, 5⟩
    1 ≤ first.now ∧ Clock first.now (first :: ts ++ [t]) ∧ first.clock < t.now ∧
    total 10 (first :: ts ++ [t]) ≠ total 10 (first :: ts) ∧
    (total 10 (first :: ts) : Int) < 10 * (t.now - first.clock) := by decide

/-- The clock may tick between reading it for the call and the first attempt. -/
example : total 10 [⟨1, 2, 15, 15⟩] = 15 ∧ total 10 [⟨1, 2, 15, 15⟩, ⟨2, 2, 5, 5⟩, ⟨3, 3, 5, 5⟩] = 20 := by
  decide

/-- Pauses get longer while waiting, and shorter again. -/
example : (run 10 {} [⟨1, 1, 99, 99⟩, ⟨2, 2, 5, 5⟩, ⟨2, 2, 5, 5⟩]).sleep = 40000 ∧
    (run 10 {} [⟨1, 1, 99, 99⟩, ⟨2, 2, 5, 5⟩, ⟨2, 2, 5, 5⟩, ⟨12, 12, 5, 5⟩]).sleep = 20000 := by decide
example : (run 10 {} ([⟨1, 1, 99, 99⟩] ++ List.replicate 9 ⟨2, 2, 5, 5⟩)).sleep = 500000 := by decide +kernel

/-- Some bytes at the same time, again and again, on a connection that has just begun. -/
theorem same_second (limit : Int) (hl : limit ≠ 0) (n : Nat) :
    (run limit {} (List.replicate (n + 1) ⟨1, 1, 1000, 1000⟩)).sent = (n + 1) * 1000 ∧
    (run limit {} (List.replicate (n + 1) ⟨1, 1, 1000, 1000⟩)).start = 1 := by
  induction n with
  | zero =>
    obtain ⟨a, -, c⟩ := write_first limit hl ⟨1, 1, 1000, 1000⟩ (by decide)
    exact ⟨c, a⟩
  | succ n ih =>
    rw [List.replicate_succ', run_append]
    generalize run limit {} (List.replicate (n + 1) ⟨1, 1, 1000, 1000⟩) = r at ih
    obtain ⟨h1, h2⟩ := ih
    obtain ⟨e, h⟩ := write_cases limit hl r ⟨1, 1, 1000, 1000⟩ (by rw [h2]; decide)
      (by rw [h2]; decide)
    have e2 : run limit r [⟨1, 1, 1000, 1000⟩] = write limit r ⟨1, 1, 1000, 1000⟩ := rfl
    rw [e2, e]
    refine ⟨?_, h2⟩
    rcases h with ⟨-, h3, -⟩ | ⟨h3, -⟩
    · rw [h3, h1]; show (n + 1) * 1000 + 1000 = (n + 1 + 1) * 1000; omega
    · rw [h2] at h3; exact absurd h3 (by decide)

/-- A clock that has gone back, to before the first attempt. -/
theorem gone_back (limit : Int) (hl : limit ≠ 0) (r : Rl) (now : Int) (hs : r.start ≠ 0)
    (hb : now < r.start) (n : Nat) :
    (run limit r (List.replicate n ⟨now, now, 1000, 1000⟩)).sent = r.sent + n * 1000 ∧
    (run limit r (List.replicate n ⟨now, now, 1000, 1000⟩)).start = r.start := by
  induction n with
  | zero => exact ⟨rfl, rfl⟩
  | succ n ih =>
    rw [List.replicate_succ', run_append]
    generalize run limit r (List.replicate n ⟨now, now, 1000, 1000⟩) = q at ih
    obtain ⟨h1, h2⟩ := ih
    have e2 : run limit q [⟨now, now, 1000, 1000⟩] = write limit q ⟨now, now, 1000, 1000⟩ := rfl
    rw [e2]
    unfold write check
    rw [if_neg hl]
    simp only [if_neg (show ¬ q.start = 0 by rw [h2]; exact hs)]
    rw [if_pos (show now - q.start < 0 by omega)]
    refine ⟨?_, h2⟩
    show q.sent + 1000 = _
    omega

/-- Nothing more is sent with a limit below zero. -/
theorem negative (limit : Int) (hl : limit < 0) (r : Rl) (hs : r.start ≠ 0) (ts : List Try)
    (hlate : ∀ t ∈ ts, r.start < t.now) : (run limit r ts).sent = r.sent := by
  induction ts generalizing r with
  | nil => rfl
  | cons t rest ih =>
    have ht := hlate t (List.mem_cons_self ..)
    obtain ⟨e, h⟩ := write_cases limit (by omega) r t hs (by omega)
    have hq : (write limit r t).sent = r.sent := by
      rcases h with ⟨h1 | h1, -⟩ | ⟨-, -, h1, -⟩
      · omega
      · have : (0 : Int) ≤ ((r.bytes / (t.now - r.start).toNat : Nat) : Int) := Int.natCast_nonneg _
        omega
      · exact h1
    have := ih (write limit r t) (by rw [e]; exact hs)
      (fun x hx => by rw [e]; exact hlate x (List.mem_cons_of_mem _ hx))
    rw [← hq]
    exact this

/-- Bytes that are sent one second, after a pause, as long as less has been sent than allowed. -/
theorem after_pause (limit : Int) (hl : 0 < limit) (r : Rl) (now : Int) (hs : r.start ≠ 0)
    (hb : r.start < now) (hr : r.bytes = r.sent) (n : Nat)
    (hn : (r.sent : Int) + n * 1000 ≤ limit * (now - r.start)) :
    (run limit r (List.replicate n ⟨now, now, 1000, 1000⟩)).sent = r.sent + n * 1000 ∧
    (run limit r (List.replicate n ⟨now, now, 1000, 1000⟩)).bytes = r.sent + n * 1000 ∧
    (run limit r (List.replicate n ⟨now, now, 1000, 1000⟩)).start = r.start := by
  induction n with
  | zero => exact ⟨rfl, by simp [run, hr], rfl⟩
  | succ n ih =>
    obtain ⟨h1, h3, h2⟩ := ih (by omega)
    rw [List.replicate_succ', run_append]
    generalize run limit r (List.replicate n ⟨now, now, 1000, 1000⟩) = q at h1 h2 h3
    have e2 : run limit q [⟨now, now, 1000, 1000⟩] = write limit q ⟨now, now, 1000, 1000⟩ := rfl
    rw [e2]
    obtain ⟨e, h⟩ := write_cases limit (by omega) q ⟨now, now, 1000, 1000⟩ (by rw [h2]; exact hs)
      (by rw [h2]; exact Int.le_of_lt hb)
    rw [e]
    rcases h with ⟨-, h4, h5⟩ | ⟨-, h4, -⟩
    · refine ⟨?_, ?_, h2⟩
      · rw [h4, h1]; show r.sent + n * 1000 + 1000 = _; omega
      · rw [h5, h3]; show r.sent + n * 1000 + 1000 = _; omega
    · exfalso
      have e : (((now - q.start).toNat : Nat) : Int) = now - q.start := by omega
      have : (q.bytes : Int) < limit * ((now - q.start).toNat : Nat) := by
        rw [e, h2, h3]; omega
      have := div_lt_of_lt_mul (by omega) this
      simp only at h4
      omega

end Verif.RateLimit

namespace Verif
open Verif.RateLimit

/-- C86 fails: in the first second there is no limit at all. For every limit, and any number of bytes,
that many bytes are sent in one second. -/
theorem C86_first_second_violated (limit : Int) (hl : 0 < limit) (n : Nat) :
    ∃ ts : List Try, Clock 1 ts ∧ (∀ t ∈ ts, t.now = 1 ∧ t.clock = 1) ∧ n ≤ total limit ts := by
  refine ⟨List.replicate (n + 1) ⟨1, 1, 1000, 1000⟩, ?_, ?_, ?_⟩
  · have : ∀ k : Nat, Clock 1 (List.replicate k ⟨1, 1, 1000, 1000⟩) := by
      intro k
      induction k with
      | zero => trivial
      | succ k ih => exact ⟨by decide, by decide, ih⟩
    exact this _
  · intro t ht
    rw [List.eq_of_mem_replicate ht]
    exact ⟨rfl, rfl⟩
  · unfold total
    rw [(same_second limit (by omega) n).1]
    omega

/-- C86 fails: the limit is one on the average since the beginning. After `d` seconds during which
nothing was sent (the other side was busy), what was not sent is made up for, and as much is sent in
one second as the limit allows for `d` seconds. The limit is `n` thousand bytes a second. -/
theorem C86_made_up_violated (n d : Nat) (hn : 0 < n) (hd : 0 < d) :
    ∃ late : List Try, (∀ t ∈ late, t.now = 1 + (d : Int) ∧ t.clock = 1 + (d : Int)) ∧
      total (n * 1000 : Nat) (⟨1, 1, 0, 0⟩ :: late) = d * (n * 1000) := by
  refine ⟨List.replicate (d * n) ⟨1 + d, 1 + d, 1000, 1000⟩, ?_, ?_⟩
  · intro t ht
    rw [List.eq_of_mem_replicate ht]
    exact ⟨rfl, rfl⟩
  · have hl : (0 : Int) < ((n * 1000 : Nat) : Int) := by omega
    obtain ⟨a, b, c⟩ := write_first ((n * 1000 : Nat) : Int) (by omega) ⟨1, 1, 0, 0⟩ (by decide)
    have e : total (n * 1000 : Nat) (⟨1, 1, 0, 0⟩ :: List.replicate (d * n) ⟨1 + d, 1 + d, 1000, 1000⟩)
        = (run (n * 1000 : Nat) (write (n * 1000 : Nat) {} ⟨1, 1, 0, 0⟩)
            (List.replicate (d * n) ⟨1 + d, 1 + d, 1000, 1000⟩)).sent := rfl
    rw [e]
    generalize write ((n * 1000 : Nat) : Int) {} ⟨1, 1, 0, 0⟩ = r at a b c
    have a' : r.start = 1 := a
    have b' : r.bytes = 0 := b
    have c' : r.sent = 0 := c
    have := (after_pause _ hl r (1 + d) (by omega) (by omega) (by omega) (d * n) ?_).1
    · rw [this, c', Nat.mul_assoc]; omega
    · rw [a', c']
      have h1 : (1 + (d : Int) - 1) = (d : Int) := by omega
      rw [h1]
      have h2 : ((d * n : Nat) : Int) * 1000 = ((n * 1000 : Nat) : Int) * (d : Int) := by
        have : d * n * 1000 = n * 1000 * d := by
          rw [Nat.mul_comm d n, Nat.mul_assoc, Nat.mul_comm d 1000, Nat.mul_assoc]
        have h3 : ((d * n * 1000 : Nat) : Int) = ((n * 1000 * d : Nat) : Int) := by rw [this]
        rw [Int.natCast_mul (d * n), Int.natCast_mul (n * 1000)] at h3
        exact h3
      omega

/-- C86 fails: if the clock is set back, to any time before the first attempt, there is no limit until
it gets back to where it was. It is not the beginning that is set again, but the time of the call,
which is read again each time. -/
theorem C86_clock_violated (limit : Int) (hl : 0 < limit) (n : Nat) :
    total limit (⟨3600, 3600, 0, 0⟩ :: List.replicate n ⟨60, 60, 1000, 1000⟩) = n * 1000 := by
  obtain ⟨a, -, c⟩ := write_first limit (by omega) ⟨3600, 3600, 0, 0⟩ (by decide)
  have e : total limit (⟨3600, 3600, 0, 0⟩ :: List.replicate n ⟨60, 60, 1000, 1000⟩)
      = (run limit (write limit {} ⟨3600, 3600, 0, 0⟩) (List.replicate n ⟨60, 60, 1000, 1000⟩)).sent := rfl
  rw [e, (gone_back limit (by omega) _ 60 (by rw [a]; decide) (by rw [a]; decide) n).1, c]
  show 0 + n * 1000 = _
  omega

/-- C86 fails: "ratelimit should be greater than zero", says the program, but it accepts every setting
other than zero, and with one below zero nothing at all is sent after the first second, for ever.
(Each attempt counts as activity of the connection, so that it is not given up, either.) -/
theorem C86_negative_violated (rate : Int) (hr : rate < 0) (first : Try) (hpos : 1 ≤ first.now)
    (hc : first.now ≤ first.clock) (ts : List Try) (hlate : ∀ t ∈ ts, first.clock < t.now) :
    setting rate = some rate ∧ total rate (first :: ts) = min first.takes first.queued := by
  refine ⟨if_neg (by omega), ?_⟩
  obtain ⟨a, -, c⟩ := write_first rate (by omega) first hc
  have e : total rate (first :: ts) = (run rate (write rate {} first) ts).sent := rfl
  rw [e, negative rate hr _ (by rw [a]; omega) ts (by rw [a]; exact hlate), c]

end Verif
