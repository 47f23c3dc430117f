import Verif.Spec.Timeout

/-!
# C85: a silent connection is given up, and only a silent one
-/

namespace Verif.Timeout

theorem active_iff (c : Call) (s : Sit) (h : c.sel = .ok) :
    Active c s ↔ (reads c.doread s = true ∨ writes s = true) := by
  unfold Active reads writes wantsRead wantsWrite
  rw [h]
  cases c.doread <;> cases s.attemptReads <;> cases s.msg <;> cases s.rbw <;> cases s.readable <;>
    cases s.queued <;> cases s.wbr <;> cases s.writable <;> simp

/-- What the second loop does to a connection. -/
theorem fdStep_cases (last : Int) (c : Call) (s : Sit) (f : Fd) (hsel : c.sel = .ok) :
    (fdStep last c s f).1.max = f.max ∧
    ((fdStep last c s f).2 = .broken
     ∨ (Active c s ∧ fdStep last c s f = (⟨f.max, f.max⟩, .ok))
     ∨ (¬ Active c s ∧ (c.quick = true ∨ f.max ≤ 0 ∨ c.now ≤ last) ∧ fdStep last c s f = (f, .ok))
     ∨ (¬ Active c s ∧ c.quick = false ∧ 0 < f.max ∧ last < c.now
        ∧ fdStep last c s f = (⟨f.max, f.left - 1⟩, if f.left ≤ 0 then .timeout else .ok))) := by
  rw [active_iff c s hsel]
  unfold fdStep
  obtain ⟨mx, lf⟩ := f
  by_cases h1 : ((wantsRead c.doread s || wantsWrite s) && s.exc) = true
  · simp [h1]
  · simp only [h1]
    by_cases h2 : 0 < mx
    · by_cases h3 : last < c.now
      · cases hr : reads c.doread s <;> cases hw : writes s <;> cases hrf : s.readFails <;>
          cases hwf : s.writeFails <;> cases hq : c.quick <;> simp [h2, h3]
      · have h6 : c.now ≤ last := by omega
        cases hr : reads c.doread s <;> cases hw : writes s <;> cases hrf : s.readFails <;>
          cases hwf : s.writeFails <;> cases hq : c.quick <;> simp [h3, h6]
    · have h5 : mx ≤ 0 := by omega
      cases hr : reads c.doread s <;> cases hw : writes s <;> cases hrf : s.readFails <;>
        cases hwf : s.writeFails <;> cases hq : c.quick <;> simp [h2, h5]

/-- Which connection the second loop gives up. -/
theorem loop_gaveUp (last : Int) (c : Call) (l : List (Fd × Sit)) (k i : Nat)
    (h : (loop last c k l).2 = .gaveUp i) :
    ∃ j f s, i = k + j ∧ l[j]? = some (f, s) ∧ (fdStep last c s f).2 = .timeout := by
  induction l generalizing k with
  | nil => simp [loop] at h
  | cons x rest ih =>
    obtain ⟨f, s⟩ := x
    unfold loop at h
    cases hf : fdStep last c s f with
    | mk f' r =>
      rw [hf] at h
      cases r with
      | ok =>
        obtain ⟨j, f2, s2, h1, h2, h3⟩ := ih (k + 1) h
        exact ⟨j + 1, f2, s2, by omega, by simpa using h2, h3⟩
      | timeout =>
        simp only [Out.gaveUp.injEq] at h
        exact ⟨0, f, s, by omega, by simp, by rw [hf]⟩
      | broken => simp at h

/-- If nothing happens, the loop has gone through every connection. -/
theorem loop_ok (last : Int) (c : Call) (l : List (Fd × Sit)) (k : Nat)
    (h : (loop last c k l).2 = .ok) (j : Nat) (f : Fd) (s : Sit) (hj : l[j]? = some (f, s)) :
    (fdStep last c s f).2 = .ok ∧ (loop last c k l).1[j]? = some (fdStep last c s f).1 := by
  induction l generalizing k j with
  | nil => simp at hj
  | cons x rest ih =>
    obtain ⟨f0, s0⟩ := x
    unfold loop at h ⊢
    cases hf : fdStep last c s0 f0 with
    | mk f' r =>
      rw [hf] at h
      cases r with
      | ok =>
        cases j with
        | zero =>
          simp only [List.getElem?_cons_zero, Option.some.injEq, Prod.mk.injEq] at hj
          obtain ⟨rfl, rfl⟩ := hj
          simp [hf]
        | succ j =>
          simp only [List.getElem?_cons_succ] at hj
          have := ih (k + 1) h j hj
          simpa using this
      | timeout => simp at h
      | broken => simp at h

/-- Everything a call without a problem does to a connection. -/
theorem asyncIo_ok {as : Async} {c : Call} {sits : List Sit} (h : (asyncIo as c sits).2 = .ok)
    (h0 : as.last ≠ 0) (i : Nat) (f : Fd) (hf : as.fds[i]? = some f) (s : Sit)
    (hs : sits[i]? = some s) :
    (asyncIo as c sits).1.last = c.now ∧
    (((asyncIo as c sits).1.fds[i]? = some f ∧ ¬ (∃ t ∈ sits, wantsRead c.doread t = true ∨ wantsWrite t = true))
     ∨ ((asyncIo as c sits).1.fds[i]? = some f ∧ c.sel = .interrupted)
     ∨ (c.sel = .ok ∧ (fdStep as.last c s f).2 = .ok ∧
        (asyncIo as c sits).1.fds[i]? = some (fdStep as.last c s f).1)) := by
  unfold asyncIo at h ⊢
  simp only [if_neg h0] at h ⊢
  by_cases h1 : (c.doread && sits.any (·.parseFails)) = true
  · rw [if_pos h1] at h; cases h
  · rw [if_neg h1] at h ⊢
    by_cases h2 : (!sits.any fun s => wantsRead c.doread s || wantsWrite s) = true
    · rw [if_pos h2]
      refine ⟨rfl, Or.inl ⟨hf, ?_⟩⟩
      rintro ⟨t, ht, ht2⟩
      have : (sits.any fun s => wantsRead c.doread s || wantsWrite s) = true :=
        List.any_eq_true.mpr ⟨t, ht, by simpa using ht2⟩
      rw [this] at h2; cases h2
    · rw [if_neg h2] at h ⊢
      cases hs2 : c.sel with
      | interrupted => exact ⟨rfl, Or.inr (Or.inl ⟨hf, rfl⟩)⟩
      | failed => rw [hs2] at h; cases h
      | ok =>
        rw [hs2] at h
        have hz : (as.fds.zip sits)[i]? = some (f, s) := by
          rw [List.getElem?_zip_eq_some]; exact ⟨hf, hs⟩
        obtain ⟨a, b⟩ := loop_ok as.last c _ 0 h i f s hz
        exact ⟨rfl, Or.inr (Or.inr ⟨rfl, a, b⟩)⟩

/-- Where giving up comes from. -/
theorem asyncIo_gaveUp {as : Async} {c : Call} {sits : List Sit} {i : Nat}
    (h : (asyncIo as c sits).2 = .gaveUp i) (h0 : as.last ≠ 0) :
    c.sel = .ok ∧ ∃ f s, as.fds[i]? = some f ∧ sits[i]? = some s ∧
      (fdStep as.last c s f).2 = .timeout := by
  unfold asyncIo at h
  simp only [if_neg h0] at h
  by_cases h1 : (c.doread && sits.any (·.parseFails)) = true
  · rw [if_pos h1] at h; cases h
  · rw [if_neg h1] at h
    by_cases h2 : (!sits.any fun s => wantsRead c.doread s || wantsWrite s) = true
    · rw [if_pos h2] at h; cases h
    · rw [if_neg h2] at h
      cases hs2 : c.sel with
      | interrupted => rw [hs2] at h; cases h
      | failed => rw [hs2] at h; cases h
      | ok =>
        rw [hs2] at h
        obtain ⟨j, f, s, h3, h4, h5⟩ := loop_gaveUp as.last c _ 0 i h
        rw [List.getElem?_zip_eq_some] at h4
        have : i = j := by omega
        subst this
        exact ⟨rfl, f, s, h4.1, h4.2, h5⟩

/-- Before the first call there is no time of the last one. -/
theorem asyncIo_first (fds : List Fd) (c : Call) (sits : List Sit) :
    asyncIo ⟨0, fds⟩ c sits = asyncIo ⟨c.now, fds⟩ c sits := by
  unfold asyncIo
  by_cases h : c.now = 0 <;> simp [h]

theorem run_first (fds : List Fd) (c : Call) (sits : List Sit) (rest : List (Call × List Sit)) :
    run ⟨0, fds⟩ ((c, sits) :: rest) = run ⟨c.now, fds⟩ ((c, sits) :: rest) := by
  unfold run
  rw [asyncIo_first]

theorem run_cons_ok {as : Async} {x : Call × List Sit} {rest : List (Call × List Sit)}
    (h : (run as (x :: rest)).2 = .ok) :
    (asyncIo as x.1 x.2).2 = .ok ∧ run as (x :: rest) = run (asyncIo as x.1 x.2).1 rest := by
  obtain ⟨c, sits⟩ := x
  unfold run at h
  cases hc : asyncIo as c sits with
  | mk as' r =>
    rw [hc] at h
    cases r with
    | ok => exact ⟨rfl, by simp [run, hc]⟩
    | gaveUp j => cases h
    | broken => cases h

theorem run_single {as : Async} {x : Call × List Sit} {i : Nat} (h : (run as [x]).2 = .gaveUp i) :
    (asyncIo as x.1 x.2).2 = .gaveUp i := by
  obtain ⟨c, sits⟩ := x
  unfold run at h
  cases hc : asyncIo as c sits with
  | mk as' r =>
    rw [hc] at h
    cases r with
    | ok => simp [run] at h
    | gaveUp j => simpa using h
    | broken => cases h

/-- What a call without a problem leaves of the time that a connection has. -/
theorem asyncIo_left {as : Async} {x : Call × List Sit} (h : (asyncIo as x.1 x.2).2 = .ok)
    (h0 : as.last ≠ 0) {i : Nat} {f : Fd} (hf : as.fds[i]? = some f) {s : Sit}
    (hs : x.2[i]? = some s) :
    (asyncIo as x.1 x.2).1.last = x.1.now ∧
    ∃ f', (asyncIo as x.1 x.2).1.fds[i]? = some f' ∧ f'.max = f.max ∧
      ((Active x.1 s ∧ f'.left = f.max) ∨ (¬ Active x.1 s ∧ f'.left = f.left)
        ∨ (¬ Active x.1 s ∧ 0 < f.max ∧ as.last < x.1.now ∧ 0 < f.left ∧ f'.left = f.left - 1)) := by
  obtain ⟨h1, h2⟩ := asyncIo_ok h h0 i f hf s hs
  refine ⟨h1, ?_⟩
  rcases h2 with ⟨h2, h5⟩ | ⟨h2, h5⟩ | ⟨hsel, h3, h2⟩
  · refine ⟨f, h2, rfl, Or.inr (Or.inl ⟨?_, rfl⟩)⟩
    intro ha
    have := (active_iff x.1 s ha.1).mp ha
    refine h5 ⟨s, List.mem_of_getElem? hs, ?_⟩
    unfold reads writes at this
    simp only [Bool.and_eq_true] at this
    rcases this with h | h
    · exact Or.inl h.1
    · exact Or.inr h.1
  · refine ⟨f, h2, rfl, Or.inr (Or.inl ⟨?_, rfl⟩)⟩
    intro ha
    have := ha.1
    rw [h5] at this
    cases this
  · refine ⟨_, h2, (fdStep_cases _ _ _ _ hsel).1, ?_⟩
    rcases (fdStep_cases as.last x.1 s f hsel).2 with h4 | ⟨ha, h4⟩ | ⟨ha, -, h4⟩ | ⟨ha, -, hm, hn, h4⟩
    · rw [h3] at h4; cases h4
    · rw [h4]; exact Or.inl ⟨ha, rfl⟩
    · rw [h4]; exact Or.inr (Or.inl ⟨ha, rfl⟩)
    · rw [h4] at h3 ⊢
      refine Or.inr (Or.inr ⟨ha, hm, hn, ?_, rfl⟩)
      by_cases hl : f.left ≤ 0
      · simp [hl] at h3
      · omega

/-- What giving up says about the connection. -/
theorem asyncIo_up {as : Async} {x : Call × List Sit} {i : Nat}
    (h : (asyncIo as x.1 x.2).2 = .gaveUp i) (h0 : as.last ≠ 0) :
    ∃ f, as.fds[i]? = some f ∧ 0 < f.max ∧ f.left ≤ 0 ∧ as.last < x.1.now ∧ x.1.quick = false
      ∧ x.1.sel = .ok ∧ ¬ ActiveAt i x := by
  obtain ⟨hsel, f, s, hf, hs, h1⟩ := asyncIo_gaveUp h h0
  rcases (fdStep_cases as.last x.1 s f hsel).2 with h4 | ⟨ha, h4⟩ | ⟨-, -, h4⟩ | ⟨ha, hq, hm, hn, h4⟩
  · rw [h1] at h4; cases h4
  · rw [h4] at h1; cases h1
  · rw [h4] at h1; cases h1
  · rw [h4] at h1
    refine ⟨f, hf, hm, ?_, hn, hq, hsel, ?_⟩
    · by_cases hl : f.left ≤ 0
      · exact hl
      · simp [hl] at h1
    · rintro ⟨s', hs', ha'⟩
      rw [hs] at hs'
      injection hs' with hs'
      exact ha (hs' ▸ ha')

theorem early_aux (i : Nat) (x : Call × List Sit) (calls : List (Call × List Sit)) :
    ∀ (as : Async) (t0 : Int) (f : Fd), as.last ≠ 0 → as.fds[i]? = some f →
      f.max - f.left ≤ as.last - t0 → t0 ≤ as.last → Forward as.last (calls ++ [x]) →
      (∀ y ∈ calls, y.1.now ≠ 0 ∧ ∃ s, y.2[i]? = some s) →
      (run as calls).2 = .ok → (run as (calls ++ [x])).2 = .gaveUp i →
      (∀ y ∈ calls ++ [x], ActiveAt i y → y.1.now + f.max < x.1.now) ∧ t0 + f.max < x.1.now := by
  induction calls with
  | nil =>
    intro as t0 f h0 hf inv ht hfw hw hok hup
    obtain ⟨g, hg, -, h2, h3, -, -, h4⟩ := asyncIo_up (run_single hup) h0
    rw [hf] at hg
    injection hg with hg
    subst hg
    refine ⟨?_, by omega⟩
    intro y hy ha
    simp only [List.nil_append, List.mem_singleton] at hy
    exact absurd (hy ▸ ha) h4
  | cons y rest ih =>
    intro as t0 f h0 hf inv ht hfw hw hok hup
    obtain ⟨hn, s, hs⟩ := hw y (List.mem_cons_self ..)
    obtain ⟨hy, hr⟩ := run_cons_ok hok
    have hup' : (run (asyncIo as y.1 y.2).1 (rest ++ [x])).2 = .gaveUp i := by
      have e : run as (y :: rest ++ [x]) = run (asyncIo as y.1 y.2).1 (rest ++ [x]) := by
        obtain ⟨c, sits⟩ := y
        simp only [List.cons_append]
        cases hc : asyncIo as c sits with
        | mk as' r =>
          simp only [hc] at hy
          subst hy
          simp [run, hc]
      rw [← e]; exact hup
    rw [hr] at hok
    obtain ⟨hl, f', hf', hmax, hleft⟩ := asyncIo_left hy h0 hf hs
    simp only [List.cons_append, Forward] at hfw
    have key : ∀ t1, t0 ≤ t1 → f'.max - f'.left ≤ y.1.now - t1 → t1 ≤ y.1.now →
        (∀ z ∈ rest ++ [x], ActiveAt i z → z.1.now + f.max < x.1.now) ∧ t1 + f.max < x.1.now := by
      intro t1 _ h2 h3
      have := ih (asyncIo as y.1 y.2).1 t1 f' (by rw [hl]; exact hn) hf' (by rw [hl]; exact h2)
        (by rw [hl]; exact h3) (by rw [hl]; exact hfw.2)
        (fun z hz => hw z (List.mem_cons_of_mem _ hz)) hok hup'
      rw [hmax] at this
      exact this
    by_cases ha : Active y.1 s
    · rcases hleft with ⟨-, h⟩ | ⟨h, -⟩ | ⟨h, -⟩
      · obtain ⟨k1, k2⟩ := key y.1.now (by omega) (by omega) (by omega)
        refine ⟨?_, by omega⟩
        intro z hz hza
        simp only [List.cons_append, List.mem_cons] at hz
        rcases hz with rfl | hz
        · exact k2
        · exact k1 z hz hza
      · exact absurd ha h
      · exact absurd ha h
    · have hk : f'.max - f'.left ≤ y.1.now - t0 := by
        rcases hleft with ⟨h, -⟩ | ⟨-, h⟩ | ⟨-, -, h, -, h'⟩
        · exact absurd h ha
        · omega
        · omega
      obtain ⟨k1, k2⟩ := key t0 (by omega) hk (by omega)
      refine ⟨?_, k2⟩
      intro z hz hza
      simp only [List.cons_append, List.mem_cons] at hz
      rcases hz with rfl | hz
      · obtain ⟨s', hs', ha'⟩ := hza
        rw [hs] at hs'
        injection hs' with hs'
        exact absurd (hs' ▸ ha') ha
      · exact k1 z hz hza

theorem run_cons_of_ok {as : Async} {y : Call × List Sit} {rest : List (Call × List Sit)}
    (hy : (asyncIo as y.1 y.2).2 = .ok) :
    run as (y :: rest) = run (asyncIo as y.1 y.2).1 rest := by
  obtain ⟨c, sits⟩ := y
  cases hc : asyncIo as c sits with
  | mk as' r =>
    simp only [hc] at hy
    subst hy
    simp [run, hc]

theorem counted_aux (i : Nat) (x : Call × List Sit) (calls : List (Call × List Sit)) :
    ∀ (as : Async) (f : Fd), as.last ≠ 0 → as.fds[i]? = some f →
      (∀ y ∈ calls, y.1.now ≠ 0 ∧ ∃ s, y.2[i]? = some s) →
      (run as calls).2 = .ok → (run as (calls ++ [x])).2 = .gaveUp i →
      ∃ a b, calls ++ [x] = a ++ b ∧ (∀ y ∈ b, ¬ ActiveAt i y) ∧
        (f.max < b.length ∨ (a = [] ∧ f.left < b.length)) := by
  induction calls with
  | nil =>
    intro as f h0 hf hw hok hup
    obtain ⟨g, hg, -, h2, h3, -, -, h4⟩ := asyncIo_up (run_single hup) h0
    rw [hf] at hg
    injection hg with hg
    subst hg
    refine ⟨[], [x], rfl, ?_, Or.inr ⟨rfl, by simp; omega⟩⟩
    intro y hy
    simp only [List.mem_singleton] at hy
    rw [hy]; exact h4
  | cons y rest ih =>
    intro as f h0 hf hw hok hup
    obtain ⟨hn, s, hs⟩ := hw y (List.mem_cons_self ..)
    obtain ⟨hy, hr⟩ := run_cons_ok hok
    rw [List.cons_append, run_cons_of_ok hy] at hup
    rw [hr] at hok
    obtain ⟨hl, f', hf', hmax, hleft⟩ := asyncIo_left hy h0 hf hs
    obtain ⟨a, b, e, h1, h2⟩ := ih _ f' (by rw [hl]; exact hn) hf'
      (fun z hz => hw z (List.mem_cons_of_mem _ hz)) hok hup
    have keep : (f'.max : Int) < b.length → ∃ a b, y :: rest ++ [x] = a ++ b ∧
        (∀ y ∈ b, ¬ ActiveAt i y) ∧ (f.max < b.length ∨ (a = [] ∧ f.left < b.length)) := by
      intro h
      exact ⟨y :: a, b, by simp [← e], h1, Or.inl (by omega)⟩
    rcases h2 with h2 | ⟨ha, h2⟩
    · exact keep h2
    · subst ha
      have step : ¬ Active y.1 s → f.left ≤ f'.left + 1 → ∃ a b, y :: rest ++ [x] = a ++ b ∧
          (∀ y ∈ b, ¬ ActiveAt i y) ∧ (f.max < b.length ∨ (a = [] ∧ f.left < b.length)) := by
        intro h h3
        refine ⟨[], y :: b, by simp [e], ?_, Or.inr ⟨rfl, by simp; omega⟩⟩
        intro z hz
        simp only [List.mem_cons] at hz
        rcases hz with rfl | hz
        · rintro ⟨s', hs', ha'⟩
          rw [hs] at hs'
          injection hs' with hs'
          exact absurd (hs' ▸ ha') h
        · exact h1 z hz
      rcases hleft with ⟨-, h⟩ | ⟨h, h'⟩ | ⟨h, -, -, -, h'⟩
      · exact keep (by omega)
      · exact step h (by omega)
      · exact step h (by omega)

theorem intime_aux (i : Nat) (T : Int) (calls : List (Call × List Sit)) :
    ∀ (as : Async) (t0 : Int) (f : Fd), as.last ≠ 0 → as.fds[i]? = some f → 0 < f.max →
      0 ≤ f.left → as.last - t0 ≤ T * (f.max - f.left) → 0 ≤ T → Steady T as.last calls →
      (∀ y ∈ calls, y.1.now ≠ 0 ∧ y.1.quick = false ∧ y.1.sel = .ok ∧ WaitsAt i y ∧ ¬ ActiveAt i y) →
      (run as calls).2 = .ok → ∀ y ∈ calls, y.1.now - t0 ≤ T * f.max := by
  induction calls with
  | nil => intro _ _ _ _ _ _ _ _ _ _ _ _ y hy; simp at hy
  | cons y rest ih =>
    intro as t0 f h0 hf hm hl0 inv hT hst hw hok z hz
    obtain ⟨hn, hq, hsel, ⟨s, hs, hwait⟩, hna⟩ := hw y (List.mem_cons_self ..)
    obtain ⟨hy, hr⟩ := run_cons_ok hok
    rw [hr] at hok
    obtain ⟨h1, h2⟩ := asyncIo_ok hy h0 i f hf s hs
    have hna' : ¬ Active y.1 s := fun h => hna ⟨s, hs, h⟩
    obtain ⟨hle, hge, hst'⟩ := hst
    have hf' : ∃ f', (asyncIo as y.1 y.2).1.fds[i]? = some f' ∧ f'.max = f.max ∧ 0 ≤ f'.left ∧
        y.1.now - t0 ≤ T * (f.max - f'.left) := by
      rcases h2 with ⟨-, h3⟩ | ⟨-, h3⟩ | ⟨-, h3, h2⟩
      · exfalso
        refine h3 ⟨s, List.mem_of_getElem? hs, ?_⟩
        unfold wantsRead wantsWrite
        rcases hwait with ⟨a, b, c, d⟩ | ⟨a, b⟩
        · left; simp [a, b, c, d]
        · right; simp [a, b]
      · rw [hsel] at h3; cases h3
      · refine ⟨_, h2, (fdStep_cases _ _ _ _ hsel).1, ?_⟩
        rcases (fdStep_cases as.last y.1 s f hsel).2 with h4 | ⟨ha, -⟩ | ⟨-, h5, h4⟩ | ⟨-, -, -, hn, h4⟩
        · rw [h3] at h4; cases h4
        · exact absurd ha hna'
        · rw [h4]
          rcases h5 with h5 | h5 | h5
          · rw [hq] at h5; cases h5
          · omega
          · exact ⟨hl0, by simp only; omega⟩
        · rw [h4] at h3 ⊢
          by_cases hl : f.left ≤ 0
          · simp [hl] at h3
          · refine ⟨by simp only; omega, ?_⟩
            have : T * (f.max - (f.left - 1)) = T * (f.max - f.left) + T := by
              rw [show f.max - (f.left - 1) = (f.max - f.left) + 1 by omega, Int.mul_add, Int.mul_one]
            simp only
            omega
    obtain ⟨f', hf1, hf2, hf3, hf4⟩ := hf'
    have hbound : y.1.now - t0 ≤ T * f.max := by
      have : T * (f.max - f'.left) ≤ T * f.max := Int.mul_le_mul_of_nonneg_left (by omega) hT
      omega
    simp only [List.mem_cons] at hz
    rcases hz with rfl | hz
    · exact hbound
    · have := ih _ t0 f' (by rw [h1]; exact hn) hf1 (by omega) hf3
        (by rw [h1, hf2]; exact hf4) hT (by rw [h1]; exact hst')
        (fun z hz => hw z (List.mem_cons_of_mem _ hz)) hok z hz
      rw [hf2] at this
      exact this

theorem off_aux (i : Nat) (calls : List (Call × List Sit)) :
    ∀ (as : Async) (f : Fd), as.last ≠ 0 → as.fds[i]? = some f → f.max ≤ 0 →
      (∀ y ∈ calls, y.1.now ≠ 0 ∧ ∃ s, y.2[i]? = some s) → (run as calls).2 ≠ .gaveUp i := by
  induction calls with
  | nil => intro _ _ _ _ _ _ h; simp [run] at h
  | cons y rest ih =>
    intro as f h0 hf hm hw h
    obtain ⟨hn, s, hs⟩ := hw y (List.mem_cons_self ..)
    cases hy : (asyncIo as y.1 y.2).2 with
    | ok =>
      rw [run_cons_of_ok hy] at h
      obtain ⟨hl, f', hf', hmax, -⟩ := asyncIo_left hy h0 hf hs
      exact ih _ f' (by rw [hl]; exact hn) hf' (by omega)
        (fun z hz => hw z (List.mem_cons_of_mem _ hz)) h
    | broken =>
      obtain ⟨c, sits⟩ := y
      simp only at hy
      cases hc : asyncIo as c sits with
      | mk as' r => rw [hc] at hy; simp only at hy; subst hy; simp [run, hc] at h
    | gaveUp j =>
      have : j = i := by
        obtain ⟨c, sits⟩ := y
        simp only at hy
        cases hc : asyncIo as c sits with
        | mk as' r => rw [hc] at hy; simp only at hy; subst hy; simpa [run, hc] using h
      subst this
      obtain ⟨g, hg, h2, -⟩ := asyncIo_up hy h0
      rw [hf] at hg
      injection hg with hg
      subst hg
      omega

end Verif.Timeout

namespace Verif
open Verif.Timeout

/-- C85: burp gives up a connection only if for more than `network_timeout` seconds nothing could be
sent or received on it: every call that saw anything happen was more than that long ago, and so was
the first call of all. `m` is the setting, `x` is the call that gives up, and the clock does not go
backwards. There may be any number of other connections, doing anything. -/
theorem C85_not_early (fds : List Fd) (i : Nat) (m : Int) (hi : fds[i]? = some (setTimeout m))
    (calls : List (Call × List Sit)) (x : Call × List Sit)
    (hclock : Forward 1 (calls ++ [x]))
    (hlen : ∀ y ∈ calls ++ [x], y.2.length = fds.length)
    (hok : (run ⟨0, fds⟩ calls).2 = .ok) (hup : (run ⟨0, fds⟩ (calls ++ [x])).2 = .gaveUp i) :
    (∀ y ∈ calls ++ [x], ActiveAt i y → m < x.1.now - y.1.now) ∧
    (∀ y, (calls ++ [x]).head? = some y → m < x.1.now - y.1.now) := by
  have hin : i < fds.length := (List.getElem?_eq_some_iff.mp hi).1
  have hpos : ∀ (t : Int) (l : List (Call × List Sit)), 1 ≤ t → Forward t l → ∀ y ∈ l, y.1.now ≠ 0 := by
    intro t l
    induction l generalizing t with
    | nil => intro _ _ y hy; simp at hy
    | cons z rest ih =>
      intro ht hf y hy
      simp only [List.mem_cons] at hy
      rcases hy with rfl | hy
      · have := hf.1; omega
      · exact ih z.1.now (by have := hf.1; omega) hf.2 y hy
  have hsit : ∀ y ∈ calls ++ [x], y.1.now ≠ 0 ∧ ∃ s, y.2[i]? = some s := by
    intro y hy
    exact ⟨hpos 1 _ (by omega) hclock y hy, _, List.getElem?_eq_getElem (by rw [hlen y hy]; exact hin)⟩
  cases calls with
  | nil =>
    obtain ⟨c, sits⟩ := x
    simp only [List.nil_append] at hup
    rw [run_first] at hup
    have hn := (hsit (c, sits) (by simp)).1
    obtain ⟨f, -, -, -, h, -⟩ := asyncIo_up (run_single hup) hn
    simp at h
  | cons z rest =>
    obtain ⟨c, sits⟩ := z
    have hn := (hsit (c, sits) (by simp)).1
    simp only [List.cons_append] at hup hclock
    rw [run_first] at hup hok
    have hfw : Forward c.now ((c, sits) :: (rest ++ [x])) := ⟨by simp, hclock.2⟩
    have := early_aux i x ((c, sits) :: rest) ⟨c.now, fds⟩ c.now (setTimeout m) hn hi
      (by simp [setTimeout]) (by simp) hfw (fun y hy => hsit y (List.mem_append_left _ hy)) hok hup
    simp only [setTimeout] at this
    refine ⟨fun y hy ha => by have := this.1 y hy ha; omega, ?_⟩
    intro y hy
    simp only [List.cons_append, List.head?_cons, Option.some.injEq] at hy
    subst hy
    have := this.2
    simp only
    omega

/-- C85: whatever the clock does. However far it jumps, forwards or backwards, burp gives up a
connection only after more than `network_timeout` calls in a row during which nothing could be sent
or received on it. -/
theorem C85_any_clock (fds : List Fd) (i : Nat) (m : Int) (hi : fds[i]? = some (setTimeout m))
    (calls : List (Call × List Sit)) (x : Call × List Sit)
    (hclock : ∀ y ∈ calls ++ [x], y.1.now ≠ 0)
    (hlen : ∀ y ∈ calls ++ [x], y.2.length = fds.length)
    (hok : (run ⟨0, fds⟩ calls).2 = .ok) (hup : (run ⟨0, fds⟩ (calls ++ [x])).2 = .gaveUp i) :
    ∃ before silent, calls ++ [x] = before ++ silent ∧ m < silent.length ∧
      ∀ y ∈ silent, ¬ ActiveAt i y := by
  have hin : i < fds.length := (List.getElem?_eq_some_iff.mp hi).1
  have hsit : ∀ y ∈ calls ++ [x], y.1.now ≠ 0 ∧ ∃ s, y.2[i]? = some s := by
    intro y hy
    exact ⟨hclock y hy, _, List.getElem?_eq_getElem (by rw [hlen y hy]; exact hin)⟩
  have go : ∀ t : Int, t ≠ 0 → (run ⟨t, fds⟩ calls).2 = .ok →
      (run ⟨t, fds⟩ (calls ++ [x])).2 = .gaveUp i → ∃ before silent, calls ++ [x] = before ++ silent ∧
        m < silent.length ∧ ∀ y ∈ silent, ¬ ActiveAt i y := by
    intro t ht h1 h2
    obtain ⟨a, b, e, h3, h4⟩ := counted_aux i x calls ⟨t, fds⟩ (setTimeout m) ht hi
      (fun y hy => hsit y (List.mem_append_left _ hy)) h1 h2
    refine ⟨a, b, e, ?_, h3⟩
    rcases h4 with h4 | ⟨-, h4⟩ <;> exact h4
  cases calls with
  | nil =>
    obtain ⟨c, sits⟩ := x
    have hn := (hsit (c, sits) (by simp)).1
    simp only [List.nil_append] at hup
    rw [run_first] at hup
    exact go c.now hn rfl hup
  | cons z rest =>
    obtain ⟨c, sits⟩ := z
    have hn := (hsit (c, sits) (by simp)).1
    simp only [List.cons_append] at hup
    rw [run_first] at hup hok
    exact go c.now hn hok hup

/-- C85: a silent connection is given up in time. If burp waits for it all the while, nothing can be
sent or received, and no two calls are more than `T` seconds apart, then burp is still going on only
while no more than `T` times `network_timeout` seconds have passed since the first call. `select`
waits for one second, so that `T` is 1 unless burp is busy with something else. -/
theorem C85_in_time (fds : List Fd) (i : Nat) (m : Int) (hi : fds[i]? = some (setTimeout m))
    (hm : 0 < m) (T : Int) (hT : 0 ≤ T) (x : Call × List Sit) (rest : List (Call × List Sit))
    (hpos : 1 ≤ x.1.now) (hclock : Steady T x.1.now rest)
    (hsilent : ∀ y ∈ x :: rest,
      y.1.quick = false ∧ y.1.sel = .ok ∧ WaitsAt i y ∧ ¬ ActiveAt i y)
    (hok : (run ⟨0, fds⟩ (x :: rest)).2 = .ok) :
    ∀ y ∈ x :: rest, y.1.now - x.1.now ≤ T * m := by
  have hnz : ∀ (t : Int) (l : List (Call × List Sit)), 1 ≤ t → Steady T t l → ∀ y ∈ l, y.1.now ≠ 0 := by
    intro t l
    induction l generalizing t with
    | nil => intro _ _ y hy; simp at hy
    | cons z rest ih =>
      intro ht hf y hy
      simp only [List.mem_cons] at hy
      rcases hy with rfl | hy
      · have := hf.1; omega
      · exact ih z.1.now (by have := hf.1; omega) hf.2.2 y hy
  obtain ⟨c, sits⟩ := x
  rw [run_first] at hok
  have hst : Steady T c.now ((c, sits) :: rest) := ⟨by simp, by simp; omega, hclock⟩
  have hc : c.now ≠ 0 := by simp only at hpos; omega
  have := intime_aux i T ((c, sits) :: rest) ⟨c.now, fds⟩ c.now (setTimeout m) hc hi hm
    (by simp [setTimeout]; omega) (by simp [setTimeout]) hT hst
    (fun y hy => ⟨hnz c.now _ hpos hst y hy, hsilent y hy⟩) hok
  intro y hy
  exact this y hy

/-- C85: a setting of 0 turns it off, and a connection for which there is no setting is never given
up. -/
theorem C85_off (fds : List Fd) (i : Nat) (m : Int) (hi : fds[i]? = some (setTimeout m))
    (hm : m ≤ 0) (calls : List (Call × List Sit)) (hclock : ∀ y ∈ calls, y.1.now ≠ 0)
    (hlen : ∀ y ∈ calls, y.2.length = fds.length) :
    (run ⟨0, fds⟩ calls).2 ≠ .gaveUp i := by
  have hin : i < fds.length := (List.getElem?_eq_some_iff.mp hi).1
  have hsit : ∀ y ∈ calls, y.1.now ≠ 0 ∧ ∃ s, y.2[i]? = some s := by
    intro y hy
    exact ⟨hclock y hy, _, List.getElem?_eq_getElem (by rw [hlen y hy]; exact hin)⟩
  cases calls with
  | nil => simp [run]
  | cons z rest =>
    obtain ⟨c, sits⟩ := z
    rw [run_first]
    exact off_aux i _ ⟨c.now, fds⟩ (setTimeout m) (hsit (c, sits) (by simp)).1 hi hm hsit

end Verif
