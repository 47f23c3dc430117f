import Verif.Lemmas.TimedOps

/-!
# C106: a timed backup begins and goes on when it should
-/

namespace Verif
open TimedOps

theorem timedOp_cases {c : TimedOps.Conf} {d : Doing} {m : Moment} {w : Wire} {p p' : Proc} {st st' : Store} {r : Int}
    (hw : w.append ≠ .error ∧ w.line ≠ []) (h : timedOp c true d m w p st = some (r, p', st')) :
    checkTimer c d m (writeStatus p m.now w).2 st = some (r, p', st') := by
  simpa [timedOp, writeStatus_ok hw.1 hw.2] using h

/-- C106: a backup is stopped only because the timer does not allow it at that time, when it is set to be run
again, and when nobody has asked for the backup. -/
theorem C106_stopped_only (c : TimedOps.Conf) (timed : Bool) (p : Proc) (st st' : Store) (r : Int) (evs : List Ev)
    (hw : WiresOk evs) (h : run c timed p st evs = .stopped r st') :
    ∃ pre d m w post p₁ st₁, evs = pre ++ Ev.entry d m w :: post ∧ run c timed p st pre = .going p₁ st₁ ∧
      timed = true ∧ c.repeatMin ≠ 0 ∧ WithClient d ∧ ¬ Allowed c m st ∧ ¬ Asked c st₁ := by
  induction evs generalizing p st with
  | nil => simp [run] at h
  | cons e es ih =>
    have hw' : WiresOk es := fun d m w hm => hw d m w (List.mem_cons_of_mem _ hm)
    cases e with
    | touch =>
      obtain ⟨pre, d, m, w, post, p₁, st₁, rfl, hgo, ht, hr, hd, ha, hk⟩ := ih _ _ hw' h
      refine ⟨.touch :: pre, d, m, w, post, p₁, st₁, rfl, hgo, ht, hr, hd, ?_, hk⟩
      exact fun x => ha ((allowed_congr rfl rfl).2 x)
    | entry d m w =>
      simp only [run] at h
      have hw1 := hw d m w (by simp)
      cases hop : timedOp c timed d m w p st with
      | none => rw [hop] at h; cases h
      | some x =>
        obtain ⟨r', p', st''⟩ := x
        rw [hop] at h
        dsimp only at h
        have facts : timed = true → checkTimer c d m (writeStatus p m.now w).2 st = some (r', p', st'') :=
          fun ht => by subst ht; exact timedOp_cases hw1 hop
        have same : st''.hasCurrent = st.hasCurrent ∧ st''.last = st.last := by
          cases timed with
          | true =>
            obtain ⟨⟨h1, h2, _⟩, _⟩ := checkTimer_cases (facts rfl)
            exact ⟨h1, h2⟩
          | false =>
            simp [timedOp, writeStatus_ok hw1.1 hw1.2] at hop
            rw [← hop.2.2]; exact ⟨rfl, rfl⟩
        by_cases hr : r' = 0
        · rw [if_neg (by simpa using hr)] at h
          obtain ⟨pre, d', m', w', post, p₁, st₁, rfl, hgo, ht, hrep, hd, ha, hk⟩ := ih _ _ hw' h
          refine ⟨.entry d m w :: pre, d', m', w', post, p₁, st₁, rfl, ?_, ht, hrep, hd, ?_, hk⟩
          · simp only [run, hop]
            rw [if_neg (by simpa using hr)]
            exact hgo
          · exact fun x => ha ((allowed_congr same.1 same.2).2 x)
        · cases timed with
          | false =>
            simp [timedOp, writeStatus_ok hw1.1 hw1.2] at hop
            exact absurd hop.1.symm hr
          | true =>
            obtain ⟨_, hc⟩ := checkTimer_cases (facts rfl)
            rcases hc with hc | hc | hc | hc
            · exact absurd hc.1 hr
            · exact absurd hc.1 hr
            · exact absurd hc.2.2.1 hr
            · obtain ⟨hd, hrep, _, _, hz⟩ := hc
              have := fun x => hr (hz.2 x)
              exact ⟨[], d, m, w, es, p, st, rfl, rfl, rfl, hrep, hd, fun x => this (Or.inl x), fun x => this (Or.inr x)⟩

/-- The interval in seconds is an `int`. -/
def IntervalFits (c : TimedOps.Conf) : Prop := -2 ^ 31 ≤ c.repeatMin * 60 ∧ c.repeatMin * 60 < 2 ^ 31

instance (c : TimedOps.Conf) : Decidable (IntervalFits c) := by unfold IntervalFits; infer_instance

/-- C106: without `timer_repeat_interval` a backup that has begun is not stopped; and one that is not timed
never is. -/
theorem C106_goes_on (c : TimedOps.Conf) (timed : Bool) (p : Proc) (st : Store) (evs : List Ev) (hw : WiresOk evs)
    (h : timed = false ∨ c.repeatMin = 0) : ∃ p' st', run c timed p st evs = .going p' st' := by
  induction evs generalizing p st with
  | nil => exact ⟨p, st, rfl⟩
  | cons e es ih =>
    have hw' : WiresOk es := fun d m w hm => hw d m w (List.mem_cons_of_mem _ hm)
    cases e with
    | touch => exact ih p _ hw'
    | entry d m w =>
      have hw1 := hw d m w (by simp)
      have : timedOp c timed d m w p st = some (0, (writeStatus p m.now w).2, st) := by
        rcases h with rfl | h
        · simp [timedOp, writeStatus_ok hw1.1 hw1.2]
        · cases timed with
          | false => simp [timedOp, writeStatus_ok hw1.1 hw1.2]
          | true => simp [timedOp, writeStatus_ok hw1.1 hw1.2, checkTimer, h]
      simp only [run, this]
      exact ih _ st hw'

/-- C106: without a script, a backup that the timer has begun, and that nobody had to ask for, is not stopped
as long as the time is in a time band. The clock does not go back before the beginning. -/
theorem C106_in_time_band (c : TimedOps.Conf) (m₀ : Moment) (st st₀ : Store) (evs : List Ev) (p : Proc)
    (hs : c.useScript = false) (hi : IntervalFits c) (hman : st.manual = false)
    (hb : begin c false m₀ st = some (.begun, st₀)) (hw : WiresOk evs)
    (hband : ∀ d m w, Ev.entry d m w ∈ evs → m₀.now ≤ m.now ∧
      ∃ tb ∈ c.args.tail, Timer.inTimeband m.day m.hour tb = true) :
    ∃ p' st', run c true p st₀ evs = .going p' st' := by
  -- the timer allows it at the beginning
  have hstart : Allowed c m₀ st ∧ st₀.hasCurrent = st.hasCurrent ∧ st₀.last = st.last := by
    unfold begin at hb
    split at hb
    · cases hb
    · rename_i r st1 ht
      simp only [Option.some.injEq, Prod.mk.injEq] at hb
      obtain ⟨hb1, rfl⟩ := hb
      have hr : r = 0 := by
        by_cases h1 : r < 0
        · simp [h1] at hb1
        · by_cases h2 : r = 0
          · exact h2
          · simp [h1, h2] at hb1
      obtain ⟨e1, e2, _⟩ := runTimer_store ht
      rcases (runTimer_zero ht).1 hr with h | h
      · exact ⟨h, e1, e2⟩
      · exact absurd h.2 (by simp [hman])
  obtain ⟨hal, e1, e2⟩ := hstart
  simp only [Allowed, hs, Bool.false_eq_true, if_false] at hal
  obtain ⟨interval, bands, hargs, _, hint⟩ := hal
  -- and so it does later
  have later : ∀ m : Moment, m₀.now ≤ m.now → (∃ tb ∈ c.args.tail, Timer.inTimeband m.day m.hour tb = true) →
      ∀ s : Store, s.hasCurrent = st.hasCurrent → s.last = st.last → Allowed c m s := by
    intro m hm hb s h1 h2
    simp only [Allowed, hs, Bool.false_eq_true, if_false]
    rw [hargs] at hb
    refine ⟨interval, bands, hargs, hb, ?_⟩
    rcases hint with h | ⟨n, hn, hl⟩
    · exact Or.inl (by rw [h1, h])
    · refine Or.inr ⟨n, hn, fun t ht => ?_⟩
      have := hl t (by rw [← h2, ht])
      omega
  have hstart' : st₀.hasCurrent = st.hasCurrent ∧ st₀.last = st.last := ⟨e1, e2⟩
  clear hb hman e1 e2
  induction evs generalizing p st₀ with
  | nil => exact ⟨p, st₀, rfl⟩
  | cons e es ih =>
    have hw' : WiresOk es := fun d m w hm => hw d m w (List.mem_cons_of_mem _ hm)
    have hb' : ∀ d m w, Ev.entry d m w ∈ es → m₀.now ≤ m.now ∧
      ∃ tb ∈ c.args.tail, Timer.inTimeband m.day m.hour tb = true :=
      fun d m w hm => hband d m w (List.mem_cons_of_mem _ hm)
    cases e with
    | touch => exact ih _ p hw' hb' hstart'
    | entry d m w =>
      have hw1 := hw d m w (by simp)
      obtain ⟨hm, htb⟩ := hband d m w (by simp)
      have hallow := later m hm htb st₀ hstart'.1 hstart'.2
      have hrun : Timer.runTimer ⟨st₀.manual, c.args, m.day, m.hour, m.now, st₀.hasCurrent, st₀.last⟩ = .run := by
        rw [C35_run_iff]
        right
        simpa [Allowed, hs] using hallow
      have hop : ∃ p' st', timedOp c true d m w p st₀ = some (0, p', st') := by
        simp only [timedOp, writeStatus_ok hw1.1 hw1.2]
        simp only [Bool.not_true, Bool.false_eq_true, if_false, checkTimer]
        by_cases hd : d ≠ .scanning ∧ d ≠ .backup
        · rw [if_pos hd]; exact ⟨_, _, rfl⟩
        · rw [if_neg hd, if_neg (by have := hi; unfold IntervalFits at this; omega)]
          by_cases h0 : c.repeatMin * 60 = 0
          · rw [if_pos h0]; exact ⟨_, _, rfl⟩
          · rw [if_neg h0]
            by_cases hdiff : m.now - (writeStatus p m.now w).2.timerLast < c.repeatMin * 60
            · rw [if_pos hdiff]; exact ⟨_, _, rfl⟩
            · rw [if_neg hdiff]
              simp only [TimedOps.runTimer, hs, Bool.false_eq_true, if_false, hrun]
              exact ⟨_, _, rfl⟩
      obtain ⟨p', st', hop⟩ := hop
      obtain ⟨⟨h1, h2, _⟩, _⟩ := checkTimer_cases (timedOp_cases hw1 hop)
      simp only [run, hop]
      exact ih st' p' hw' hb' ⟨h1.trans hstart'.1, h2.trans hstart'.2⟩

/-- Somebody has asked for a backup, by the end of these events. -/
def EverAsked (c : TimedOps.Conf) (st : Store) (evs : List Ev) : Prop :=
  c.useScript = false ∧ (st.manual = true ∨ Ev.touch ∈ evs)

/-- The state of a backup that goes on. -/
theorem going_checked (c : TimedOps.Conf) (hr : 0 < c.repeatMin) (evs : List Ev) (p p' : Proc) (st st' : Store)
    (hw : WiresOk evs) (hf : (p.timerLast :: times evs).Pairwise (· ≤ ·))
    (hbig : ∀ d m w, Ev.entry d m w ∈ evs → c.repeatMin * 60 ≤ m.now)
    (h : run c true p st evs = .going p' st')
    (P : Int → Prop)
    (hP : P p.timerLast ∨ p.timerLast = 0)
    (hstep : ∀ d m w, Ev.entry d m w ∈ evs → WithClient d → (Allowed c m st ∨ EverAsked c st evs) → P m.now)
    (d : Doing) (m : Moment) (w : Wire) (hlast : evs.getLast? = some (.entry d m w)) (hd : WithClient d) :
    ∃ t, P t ∧ m.now - c.repeatMin * 60 < t ∧ t ≤ m.now := by
  induction evs generalizing p st with
  | nil => simp at hlast
  | cons e es ih =>
    have hw' : WiresOk es := fun d m w hm => hw d m w (List.mem_cons_of_mem _ hm)
    have hbig' : ∀ d m w, Ev.entry d m w ∈ es → c.repeatMin * 60 ≤ m.now :=
      fun d m w hm => hbig d m w (List.mem_cons_of_mem _ hm)
    cases e with
    | touch =>
      have hes : es.getLast? = some (.entry d m w) := by
        cases es with
        | nil => simp at hlast
        | cons x xs => simpa [List.getLast?_cons_cons] using hlast
      refine ih p { st with manual := true } hw' hf hbig' h hP ?_ hes
      rintro d1 m1 w1 hm hd1 (ha | ha)
      · exact hstep d1 m1 w1 (List.mem_cons_of_mem _ hm) hd1 (Or.inl ((allowed_congr rfl rfl).1 ha))
      · exact hstep d1 m1 w1 (List.mem_cons_of_mem _ hm) hd1 (Or.inr ⟨ha.1, Or.inr (by simp)⟩)
    | entry d1 m1 w1 =>
      have hw1 := hw d1 m1 w1 (by simp)
      simp only [run] at h
      cases hop : timedOp c true d1 m1 w1 p st with
      | none => rw [hop] at h; cases h
      | some x =>
        obtain ⟨r, p1, st1⟩ := x
        rw [hop] at h
        dsimp only at h
        by_cases hr0 : r = 0
        · rw [if_neg (by simpa using hr0)] at h
          obtain ⟨⟨s1, s2, s3⟩, hc⟩ := checkTimer_cases (timedOp_cases hw1 hop)
          rw [writeStatus_timer] at hc
          have hle : p.timerLast ≤ m1.now := by
            have := (List.pairwise_cons.1 hf).1 m1.now (by simp [times])
            exact this
          have hb1 := hbig d1 m1 w1 (by simp)
          -- the state after the entry
          have hnew : (P p1.timerLast ∨ p1.timerLast = 0) ∧ p1.timerLast ≤ m1.now ∧
              (WithClient d1 → P p1.timerLast ∧ m1.now - c.repeatMin * 60 < p1.timerLast) := by
            have htl := writeStatus_timer p m1.now w1
            rcases hc with ⟨_, hnd, hp⟩ | ⟨_, h0⟩ | ⟨hd1, _, _, hdiff, hp⟩ | ⟨hd1, _, hdiff, hp, hz⟩
            · rw [hp, htl]
              exact ⟨hP, hle, fun x => absurd x hnd⟩
            · omega
            · rcases hp with hp | hp
              · rw [hp, htl]
                refine ⟨hP, hle, fun _ => ⟨?_, by omega⟩⟩
                rcases hP with hP | hP
                · exact hP
                · omega
              · omega
            · rw [hp]
              have : P m1.now := by
                refine hstep d1 m1 w1 (by simp) hd1 ?_
                rcases hz.1 hr0 with ha | ha
                · exact Or.inl ha
                · exact Or.inr ⟨ha.1, Or.inl ha.2⟩
              exact ⟨Or.inl this, Int.le_refl _, fun _ => ⟨this, by omega⟩⟩
          cases hes : es with
          | nil =>
            subst hes
            simp only [List.getLast?_singleton, Option.some.injEq, Ev.entry.injEq] at hlast
            obtain ⟨rfl, rfl, rfl⟩ := hlast
            obtain ⟨h1, h2⟩ := hnew.2.2 hd
            exact ⟨p1.timerLast, h1, h2, hnew.2.1⟩
          | cons x xs =>
            have hlast' : es.getLast? = some (.entry d m w) := by
              rw [hes]
              rw [hes] at hlast
              simpa [List.getLast?_cons_cons] using hlast
            refine ih p1 st1 hw' ?_ hbig' h hnew.1 ?_ hlast'
            · have hf' : (m1.now :: times es).Pairwise (· ≤ ·) := (List.pairwise_cons.1 hf).2
              rw [List.pairwise_cons] at hf' ⊢
              exact ⟨fun t ht => Int.le_trans hnew.2.1 (hf'.1 t ht), hf'.2⟩
            · rintro d2 m2 w2 hm hd2 (ha | ha)
              · exact hstep d2 m2 w2 (List.mem_cons_of_mem _ hm) hd2 (Or.inl ((allowed_congr s1 s2).1 ha))
              · refine hstep d2 m2 w2 (List.mem_cons_of_mem _ hm) hd2 (Or.inr ⟨ha.1, ?_⟩)
                rcases ha.2 with ha | ha
                · exact Or.inl (s3 ha)
                · exact Or.inr (List.mem_cons_of_mem _ ha)
        · rw [if_pos hr0] at h
          cases h

/-- C106: while a timed backup goes on, the timer has allowed it (or somebody has asked for it) at some time
within the last `timer_repeat_interval` minutes, if the clock is not set back. So a backup is stopped when its
time has been over for as long as that. -/
theorem C106_checked (c : TimedOps.Conf) (hr : 0 < c.repeatMin) (st st' : Store) (p' : Proc) (pre : List Ev)
    (d : Doing) (m : Moment) (w : Wire) (hd : WithClient d) (hw : WiresOk (pre ++ [.entry d m w]))
    (hf : Forward (pre ++ [.entry d m w]))
    (hbig : ∀ d' m' w', Ev.entry d' m' w' ∈ pre ++ [.entry d m w] → c.repeatMin * 60 ≤ m'.now)
    (h : run c true {} st (pre ++ [.entry d m w]) = .going p' st') :
    ∃ d' m' w', Ev.entry d' m' w' ∈ pre ++ [.entry d m w] ∧ WithClient d' ∧
      m.now - c.repeatMin * 60 < m'.now ∧ m'.now ≤ m.now ∧ (Allowed c m' st ∨ EverAsked c st pre) := by
  obtain ⟨t, ⟨d', m', w', h1, h2, h3, rfl⟩, h4, h5⟩ := going_checked c hr (pre ++ [.entry d m w]) {} p' st st' hw (show ((0 : Int) :: times (pre ++ [Ev.entry d m w])).Pairwise (· ≤ ·) from hf) hbig h
    (fun t => ∃ d' m' w', Ev.entry d' m' w' ∈ pre ++ [.entry d m w] ∧ WithClient d' ∧
      (Allowed c m' st ∨ EverAsked c st pre) ∧ m'.now = t)
    (Or.inr rfl)
    (by
      rintro d1 m1 w1 hm hd1 ha
      refine ⟨d1, m1, w1, hm, hd1, ?_, rfl⟩
      rcases ha with ha | ha
      · exact Or.inl ha
      · refine Or.inr ⟨ha.1, ?_⟩
        rcases ha.2 with ha | ha
        · exact Or.inl ha
        · right
          simpa using ha)
    d m w (by simp) hd
  exact ⟨d', m', w', h1, h2, h4, h5, h3⟩

/-- C106: a backup that an administrator has asked for begins when the client next asks for a timed one; and
the request is then done with. -/
theorem C106_asked_partial (c : TimedOps.Conf) (m : Moment) (st : Store) (h : Asked c st) :
    begin c false m st = some (.begun, { st with manual := false }) := by
  have : Timer.runTimer ⟨st.manual, c.args, m.day, m.hour, m.now, st.hasCurrent, st.last⟩ = .run := by
    rw [C35_run_iff]; exact Or.inl h.2
  simp [begin, TimedOps.runTimer, h.1, this]

/-- C106: a timed backup begins if and only if the timer allows it or it has been asked for. -/
theorem C106_begins (c : TimedOps.Conf) (check : Bool) (m : Moment) (st st' : Store) (b : Begin)
    (h : begin c check m st = some (b, st')) :
    (b = (if check then .met else .begun)) ↔ (Allowed c m st ∨ Asked c st) := by
  unfold begin at h
  split at h
  · cases h
  · rename_i r st1 ht
    simp only [Option.some.injEq, Prod.mk.injEq] at h
    obtain ⟨rfl, rfl⟩ := h
    rw [← runTimer_zero ht]
    by_cases h1 : r < 0
    · have : r ≠ 0 := by omega
      cases check <;> simp [h1, this]
    · by_cases h2 : r = 0
      · simp [h2]
      · cases check <;> simp [h1, h2]

/-- Every 20 hours, at any time; the timer is run again every five minutes. -/
def fiveMinutes : TimedOps.Conf := ⟨5, false, [bytes "20h", bytes "always"]⟩

/-- Some time, so many seconds after midnight. -/
def atSecond (n : Int) : Moment := ⟨1600000000 + n, bytes "Mon", bytes "12", 0⟩

/-- The last backup was made an hour before that, and another one is asked for. -/
def askedStore : Store := ⟨true, true, some (1600000000 - 3600)⟩

def plainWire : Wire := ⟨true, 7, bytes "c1", .ok⟩

/-- C106 fails: if `timer_repeat_interval` is set, a backup that an administrator has asked for by creating the
file `backup` is stopped at the first entry: the file has been removed when the backup began, and the timer, run
again at once, does not know about it any more. The next request for a timed backup does not begin one. -/
theorem C106_asked_violated :
    Asked fiveMinutes askedStore ∧
    ∃ st₁ st₂, begin fiveMinutes false (atSecond 0) askedStore = some (.begun, st₁) ∧
      run fiveMinutes true {} st₁ [.entry .scanning (atSecond 1) plainWire] = .stopped 1 st₂ ∧
      begin fiveMinutes false (atSecond 1200) st₂ = some (.notMet, st₂) :=
  ⟨⟨rfl, rfl⟩, ⟨false, true, some (1600000000 - 3600)⟩, ⟨false, true, some (1600000000 - 3600)⟩,
    by decide +kernel, by decide +kernel, by decide +kernel⟩

/-- C106 fails: a client that only asks whether the timer conditions are met (`-a T`) makes
the server forget that a backup has been asked for. -/
theorem C106_check_violated :
    Asked fiveMinutes askedStore ∧
    ∃ st₁, begin fiveMinutes true (atSecond 0) askedStore = some (.met, st₁) ∧
      begin fiveMinutes false (atSecond 1) st₁ = some (.notMet, st₁) :=
  ⟨⟨rfl, rfl⟩, ⟨false, true, some (1600000000 - 3600)⟩, by decide +kernel, by decide +kernel⟩

/-! ### Status lines -/

/-- What is kept about status lines. -/
theorem status_kept (c : TimedOps.Conf) (timed : Bool) (evs : List Ev) (p p' : Proc) (st st' : Store) (ls : List Str)
    (hls : (p.sent.reverse.map Prod.snd ++ p.pending.toList).Sublist ls)
    (h : run c timed p st evs = .going p' st') :
    (p'.sent.reverse.map Prod.snd ++ p'.pending.toList).Sublist (ls ++ statusLines evs) := by
  induction evs generalizing p st ls with
  | nil =>
    simp only [run, Run.going.injEq] at h
    obtain ⟨rfl, rfl⟩ := h
    simpa [statusLines] using hls
  | cons e es ih =>
    cases e with
    | touch => exact ih p _ ls hls h
    | entry d m w =>
      simp only [run] at h
      cases hop : timedOp c timed d m w p st with
      | none => rw [hop] at h; cases h
      | some x =>
        obtain ⟨r, p1, st1⟩ := x
        rw [hop] at h
        dsimp only at h
        by_cases hr : r = 0
        · rw [if_neg (by simpa using hr)] at h
          have hsame : p1.sent = (writeStatus p m.now w).2.sent ∧ p1.pending = (writeStatus p m.now w).2.pending := by
            unfold timedOp at hop
            dsimp only at hop
            split at hop
            · cases hop; exact ⟨rfl, rfl⟩
            · split at hop
              · cases hop; exact ⟨rfl, rfl⟩
              · obtain ⟨_, h2, h3⟩ := checkTimer_status hop
                exact ⟨h3, h2⟩
          have hstep : (p1.sent.reverse.map Prod.snd ++ p1.pending.toList).Sublist (ls ++ [w.line]) := by
            rw [hsame.1, hsame.2]
            have hwk : (p.sent.reverse.map Prod.snd ++ p.pending.toList).Sublist (ls ++ [w.line]) :=
              hls.trans (List.sublist_append_left _ _)
            have key : (p.sent.reverse.map Prod.snd ++ [p.pending.getD w.line]).Sublist (ls ++ [w.line]) := by
              cases hp : p.pending with
              | none =>
                simp only [hp, Option.toList_none, List.append_nil] at hls
                simpa using hls.append (List.Sublist.refl [w.line])
              | some l => simpa [hp] using hwk
            rcases writeStatus_cases p m.now w with ⟨_, e⟩ | ⟨_, e⟩ | ⟨_, e | ⟨_, e⟩ | e | e⟩ <;> rw [e]
            · exact hwk
            · exact hwk
            · exact hwk
            · exact hwk
            · simpa using key
            · simpa using key
          have := ih p1 st1 (ls ++ [w.line]) hstep h
          simpa [statusLines, List.append_assoc] using this
        · rw [if_pos hr] at h
          cases h

/-- C106: the status lines that are written are some of those that there could be, in the right order and none
twice. -/
theorem C106_status_lines (c : TimedOps.Conf) (timed : Bool) (evs : List Ev) (p' : Proc) (st st' : Store)
    (h : run c timed {} st evs = .going p' st') :
    (p'.sent.reverse.map Prod.snd).Sublist (statusLines evs) := by
  have := status_kept c timed evs {} p' st st' [] (by simp) h
  exact (List.sublist_append_left _ _).trans (by simpa using this)

theorem status_gap (c : TimedOps.Conf) (timed : Bool) (evs : List Ev) (p p' : Proc) (st st' : Store)
    (hf : (p.statusLast :: times evs).Pairwise (· ≤ ·))
    (hs : p.sent.Pairwise (fun a b => b.1 + 2 ≤ a.1)) (hb : ∀ x ∈ p.sent, x.1 ≤ p.statusLast)
    (h : run c timed p st evs = .going p' st') : p'.sent.Pairwise (fun a b => b.1 + 2 ≤ a.1) := by
  induction evs generalizing p st with
  | nil =>
    simp only [run, Run.going.injEq] at h
    obtain ⟨rfl, rfl⟩ := h
    exact hs
  | cons e es ih =>
    cases e with
    | touch => exact ih p _ hf hs hb h
    | entry d m w =>
      simp only [run] at h
      cases hop : timedOp c timed d m w p st with
      | none => rw [hop] at h; cases h
      | some x =>
        obtain ⟨r, p1, st1⟩ := x
        rw [hop] at h
        dsimp only at h
        by_cases hr : r = 0
        · rw [if_neg (by simpa using hr)] at h
          have hsame : p1.sent = (writeStatus p m.now w).2.sent ∧ p1.statusLast = (writeStatus p m.now w).2.statusLast := by
            unfold timedOp at hop
            dsimp only at hop
            split at hop
            · cases hop; exact ⟨rfl, rfl⟩
            · split at hop
              · cases hop; exact ⟨rfl, rfl⟩
              · obtain ⟨h1, _, h3⟩ := checkTimer_status hop
                exact ⟨h3, h1⟩
          have hle : p.statusLast ≤ m.now := (List.pairwise_cons.1 hf).1 m.now (by simp [times])
          have hf' : (m.now :: times es).Pairwise (· ≤ ·) := (List.pairwise_cons.1 hf).2
          have hnew : p1.sent.Pairwise (fun a b => b.1 + 2 ≤ a.1) ∧ (∀ x ∈ p1.sent, x.1 ≤ p1.statusLast) ∧
              p1.statusLast ≤ m.now := by
            rw [hsame.1, hsame.2]
            have hb' : ∀ x ∈ p.sent, x.1 ≤ m.now := fun x hx => Int.le_trans (hb x hx) hle
            rcases writeStatus_cases p m.now w with ⟨hc, e⟩ | ⟨hc, e⟩ | ⟨hc, e | ⟨_, e⟩ | e | e⟩ <;> rw [e]
            · omega
            · exact ⟨hs, hb, hc⟩
            · exact ⟨hs, hb', Int.le_refl _⟩
            · exact ⟨hs, hb', Int.le_refl _⟩
            · refine ⟨List.pairwise_cons.2 ⟨fun x hx => ?_, hs⟩, ?_, Int.le_refl _⟩
              · have := hb x hx
                dsimp only
                omega
              · intro x hx
                rcases List.mem_cons.1 hx with rfl | hx
                · exact Int.le_refl _
                · exact hb' x hx
            · exact ⟨hs, hb', Int.le_refl _⟩
          refine ih p1 st1 ?_ hnew.1 hnew.2.1 h
          rw [List.pairwise_cons] at hf' ⊢
          exact ⟨fun t ht => Int.le_trans hnew.2.2 (hf'.1 t ht), hf'.2⟩
        · rw [if_pos hr] at h
          cases h

/-- C106: there are at least two seconds between one status line and the next, if the clock is not set back. -/
theorem C106_status_gap (c : TimedOps.Conf) (timed : Bool) (evs : List Ev) (p' : Proc) (st st' : Store)
    (hf : Forward evs) (h : run c timed {} st evs = .going p' st') :
    p'.sent.Pairwise (fun later earlier => earlier.1 + 2 ≤ later.1) :=
  status_gap c timed evs {} p' st st' hf List.Pairwise.nil (by simp) h

/-- C106: a status line is written when the last one, or the last attempt, was two seconds ago, if there is
room: the latest one, or the one that there was no room for. -/
theorem C106_status_sent (p : Proc) (now : Int) (w : Wire) (h1 : p.statusLast + 2 ≤ now) (h2 : w.pipe = true)
    (h3 : w.bno ≠ 0) (h4 : w.line ≠ []) (h5 : w.append = .ok) :
    (writeStatus p now w).2.sent = (now, p.pending.getD w.line) :: p.sent := by
  have hd : ¬ now - p.statusLast < 2 := by omega
  cases hl : w.line with
  | nil => exact absurd hl h4
  | cons x xs => cases hp : p.pending <;> simp [writeStatus, hd, h2, h3, hl, h5, hp]

/-! ### Examples -/

/-- The last backup was made a day ago; the client is allowed from 12 to 13 on Mondays. -/
def mondays : TimedOps.Conf := ⟨5, false, [bytes "20h", bytes "Mon,12"]⟩
def dayAgo : Store := ⟨false, true, some (1600000000 - 86400)⟩
/-- The same, an hour later. -/
def lateMoment : Moment := ⟨1600000000 + 3600, bytes "Mon", bytes "13", 0⟩

/-- A backup that begins in time goes on, also when the time is over, for as long as the timer is not run
again; then it is stopped. -/
example : begin mondays false (atSecond 0) dayAgo = some (.begun, dayAgo) ∧
    (∃ p, run mondays true {} dayAgo [.entry .scanning (atSecond 1) plainWire, .entry .backup (atSecond 299) plainWire,
      .entry .backup (atSecond 302) plainWire] = .going p dayAgo ∧ p.sent.length = 3) ∧
    run mondays true {} dayAgo [.entry .scanning (atSecond 1) plainWire, .entry .backup lateMoment plainWire]
      = .stopped 1 dayAgo :=
  ⟨by decide +kernel, ⟨⟨1600000302, none, 1600000301 + 1, [(1600000302, bytes "c1"), (1600000299, bytes "c1"), (1600000001, bytes "c1")]⟩,
    by decide +kernel, by decide +kernel⟩, by decide +kernel⟩

/-- The hypotheses of the theorems are met by that. -/
example : WiresOk [.entry .scanning (atSecond 1) plainWire, .entry .backup (atSecond 299) plainWire] ∧
    Forward [.entry .scanning (atSecond 1) plainWire, .entry .backup (atSecond 299) plainWire] ∧
    IntervalFits mondays ∧ WithClient .backup := by
  refine ⟨?_, by unfold Forward; decide, by decide, Or.inr rfl⟩
  intro d m w h
  simp only [List.mem_cons, Ev.entry.injEq, List.not_mem_nil, or_false] at h
  rcases h with ⟨_, _, rfl⟩ | ⟨_, _, rfl⟩ <;> exact ⟨by decide, by decide⟩

end Verif
