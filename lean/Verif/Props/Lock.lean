import Verif.Spec.Lock

/-!
# C54, C65: locks
-/

namespace Verif
open Verif Lock

namespace Lock

theorem run_append (s : Sys) (as bs : List Act) : run s (as ++ bs) = run (run s as) bs := by
  induction as generalizing s with
  | nil => rfl
  | cons a as ih => exact ih (step s a)

/-- Which inode a process has locked. -/
def Pc.lock : Pc → Option Nat
  | .holding i => some i
  | .failed i => some i
  | .unlinked i => some i
  | .testing i => some i
  | _ => none

/-- Which inode must be at the path. -/
def Pc.here : Pc → Option Nat
  | .opened i => some i
  | .holding i => some i
  | _ => none

/-- Which inode a process has open. -/
def Pc.ref : Pc → Option Nat
  | .opened i => some i
  | .holding i => some i
  | .failed i => some i
  | .unlinked i => some i
  | .testOpened i => some i
  | .testing i => some i
  | _ => none

def Pc.plain : Pc → Bool
  | .daemon _ => false
  | _ => true

structure Inv (s : Sys) : Prop where
  owner : ∀ p i, s.owner i = some p ↔ (s.pc p).lock = some i
  here : ∀ p i, (s.pc p).here = some i → s.path = some i
  fresh : ∀ p i, (s.pc p).ref = some i → i < s.next
  path : ∀ i, s.path = some i → i < s.next
  plain : ∀ p, (s.pc p).plain = true

theorem inv_start : Inv start := by
  constructor <;> intros <;> simp_all [start, Pc.lock, Pc.here, Pc.ref, Pc.plain]

/-- A process goes on without touching locks. -/
theorem Inv.move {s : Sys} (h : Inv s) (p : Nat) (x : Pc) (path : Option Nat) (next : Nat)
    (hl : x.lock = (s.pc p).lock) (hh : ∀ i, x.here = some i → path = some i)
    (ho : ∀ q i, q ≠ p → (s.pc q).here = some i → path = some i) (hr : ∀ i, x.ref = some i → i < next)
    (hn : s.next ≤ next) (hp : ∀ i, path = some i → i < next) (hx : x.plain = true) :
    Inv ({ s with path := path, next := next }.setPc p x) := by
  constructor
  · intro q i
    show s.owner i = some q ↔ (if q = p then x else s.pc q).lock = some i
    rw [h.owner]
    by_cases e : q = p
    · rw [if_pos e, hl, e]
    · rw [if_neg e]
  · intro q i
    show (if q = p then x else s.pc q).here = some i → path = some i
    by_cases e : q = p
    · rw [if_pos e]; exact hh i
    · rw [if_neg e]; exact ho q i e
  · intro q i
    show (if q = p then x else s.pc q).ref = some i → i < next
    by_cases e : q = p
    · rw [if_pos e]; exact hr i
    · rw [if_neg e]; intro h'; exact Nat.lt_of_lt_of_le (h.fresh q i h') hn
  · exact hp
  · intro q
    show (if q = p then x else s.pc q).plain = true
    by_cases e : q = p
    · rw [if_pos e]; exact hx
    · rw [if_neg e]; exact h.plain q

/-- A process that has no lock gets one. -/
theorem Inv.take {s : Sys} (h : Inv s) (p i : Nat) (x : Pc) (hp : (s.pc p).lock = none) (hf : s.owner i = none)
    (hl : x.lock = some i) (hh : ∀ i, x.here = some i → s.path = some i) (hr : ∀ i, x.ref = some i → i < s.next)
    (hx : x.plain = true) : Inv ((s.setOwner i (some p)).setPc p x) := by
  constructor
  · intro q j
    show (if j = i then some p else s.owner j) = some q ↔ (if q = p then x else s.pc q).lock = some j
    by_cases e : q = p
    · rw [if_pos e, hl, e]
      by_cases e' : j = i
      · simp [e']
      · rw [if_neg e', h.owner, hp]
        constructor
        · intro h'; cases h'
        · intro h'; exact absurd (Option.some.inj h').symm e'
    · rw [if_neg e]
      by_cases e' : j = i
      · rw [if_pos e', ← h.owner, e', hf]
        constructor
        · intro h'; exact absurd (Option.some.inj h').symm e
        · intro h'; cases h'
      · rw [if_neg e', h.owner]
  · intro q j
    show (if q = p then x else s.pc q).here = some j → s.path = some j
    by_cases e : q = p
    · rw [if_pos e]; exact hh j
    · rw [if_neg e]; exact h.here q j
  · intro q j
    show (if q = p then x else s.pc q).ref = some j → j < s.next
    by_cases e : q = p
    · rw [if_pos e]; exact hr j
    · rw [if_neg e]; exact h.fresh q j
  · exact h.path
  · intro q
    show (if q = p then x else s.pc q).plain = true
    by_cases e : q = p
    · rw [if_pos e]; exact hx
    · rw [if_neg e]; exact h.plain q

/-- A process gives up its lock, if it has one. -/
theorem Inv.give {s : Sys} (h : Inv s) (p : Nat) (owner : Nat → Option Nat)
    (ho : ∀ j, owner j = if s.owner j = some p then none else s.owner j) :
    Inv ({ s with owner := owner }.setPc p .idle) := by
  constructor
  · intro q j
    show owner j = some q ↔ (if q = p then Pc.idle else s.pc q).lock = some j
    rw [ho]
    by_cases e : q = p
    · rw [if_pos e]
      constructor
      · split
        · intro h'; cases h'
        · rename_i hn; intro h'; rw [e] at h'; exact absurd h' hn
      · intro h'; cases h'
    · rw [if_neg e, ← h.owner]
      split
      · rename_i hs
        rw [hs]
        constructor
        · intro h'; cases h'
        · intro h'; exact absurd (Option.some.inj h').symm e
      · exact Iff.rfl
  · intro q j
    show (if q = p then Pc.idle else s.pc q).here = some j → s.path = some j
    by_cases e : q = p
    · rw [if_pos e]; intro h'; cases h'
    · rw [if_neg e]; exact h.here q j
  · intro q j
    show (if q = p then Pc.idle else s.pc q).ref = some j → j < s.next
    by_cases e : q = p
    · rw [if_pos e]; intro h'; cases h'
    · rw [if_neg e]; exact h.fresh q j
  · exact h.path
  · intro q
    show (if q = p then Pc.idle else s.pc q).plain = true
    by_cases e : q = p
    · rw [if_pos e]; rfl
    · rw [if_neg e]; exact h.plain q

/-- The lock given up is the only one of the process. -/
theorem Inv.only {s : Sys} (h : Inv s) (p i : Nat) (hl : (s.pc p).lock = some i) (j : Nat) :
    (if j = i then none else s.owner j) = if s.owner j = some p then none else s.owner j := by
  by_cases e : j = i
  · rw [if_pos e, e, if_pos ((h.owner p i).2 hl)]
  · rw [if_neg e, if_neg]
    rw [h.owner, hl]
    intro h'; exact e (Option.some.inj h').symm

theorem inv_step {s : Sys} (h : Inv s) (a : Act) (hd : ∀ p c, a ≠ .daemonise p c)
    (hu : ∀ p, a = .unlink p → ∀ q i, s.pc q ≠ .opened i) : Inv (step s a) := by
  have hsame : ∀ q i, (s.pc q).here = some i → s.path = some i := h.here
  cases a with
  | «open» p =>
    simp only [step]
    split
    · rename_i i hpc hpath
      exact h.move p _ s.path s.next (by rw [hpc]; rfl) (fun j e => by rw [hpath]; exact e) (fun q j _ => hsame q j)
        (fun j e => h.path j (by rw [hpath]; exact e)) (Nat.le_refl _) h.path rfl
    · rename_i hpc hpath
      refine h.move p _ _ _ (by rw [hpc]; rfl) (fun j e => e) ?_ ?_ (Nat.le_succ _) ?_ rfl
      · intro q j _ e
        have := hsame q j e
        rw [hpath] at this; cases this
      · intro j e; cases e; exact Nat.lt_succ_self _
      · intro j e; cases e; exact Nat.lt_succ_self _
    · exact h
  | tlock p w =>
    simp only [step]
    split
    · rename_i i hpc
      have hi : i < s.next := h.fresh p i (by rw [hpc]; rfl)
      split
      · rename_i ho
        have hp := hsame p i (by rw [hpc]; rfl)
        cases w with
        | true =>
          exact h.take p i _ (by rw [hpc]; rfl) ho rfl (fun j e => by rw [hp]; exact e)
            (fun j e => by cases e; exact hi) rfl
        | false =>
          exact h.take p i _ (by rw [hpc]; rfl) ho rfl (fun j e => by cases e)
            (fun j e => by cases e; exact hi) rfl
      · exact h.move p _ s.path s.next (by rw [hpc]; rfl) (fun j e => by cases e) (fun q j _ => hsame q j)
          (fun j e => by cases e) (Nat.le_refl _) h.path rfl
    · exact h
  | unlink p =>
    have hu := hu p rfl
    simp only [step]
    split
    · rename_i i hpc
      have hi : i < s.next := h.fresh p i (by rw [hpc]; rfl)
      refine h.move p _ none s.next (by rw [hpc]; rfl) (fun j e => by cases e) ?_
        (fun j e => by cases e; exact hi) (Nat.le_refl _) (fun j e => by cases e) rfl
      intro q j hq e
      exfalso
      have e1 := hsame q j e
      have e2 := hsame p i (by rw [hpc]; rfl)
      rw [e1] at e2
      have e2 := Option.some.inj e2
      subst e2
      cases hq' : s.pc q with
      | opened k => exact hu q k hq'
      | holding k =>
        rw [hq'] at e
        cases e
        have o1 := (h.owner q j).2 (by rw [hq']; rfl)
        have o2 := (h.owner p j).2 (by rw [hpc]; rfl)
        rw [o1] at o2
        exact hq (Option.some.inj o2)
      | idle => rw [hq'] at e; cases e
      | refused => rw [hq'] at e; cases e
      | failed _ => rw [hq'] at e; cases e
      | unlinked _ => rw [hq'] at e; cases e
      | testOpened _ => rw [hq'] at e; cases e
      | testing _ => rw [hq'] at e; cases e
      | daemon _ => rw [hq'] at e; cases e
    · exact h
  | close p =>
    simp only [step]
    split
    · rename_i i hpc
      exact h.give p _ (h.only p i (by rw [hpc]; rfl))
    · exact h
  | testOpen p =>
    simp only [step]
    split
    · rename_i i hpc hpath
      exact h.move p _ s.path s.next (by rw [hpc]; rfl) (fun j e => by cases e) (fun q j _ => hsame q j)
        (fun j e => h.path j (by rw [hpath]; exact e)) (Nat.le_refl _) h.path rfl
    · exact h
  | testLock p =>
    simp only [step]
    split
    · rename_i i hpc
      have hi : i < s.next := h.fresh p i (by rw [hpc]; rfl)
      split
      · rename_i ho
        exact h.take p i _ (by rw [hpc]; rfl) ho rfl (fun j e => by cases e)
          (fun j e => by cases e; exact hi) rfl
      · exact h.move p _ s.path s.next (by rw [hpc]; rfl) (fun j e => by cases e) (fun q j _ => hsame q j)
          (fun j e => by cases e) (Nat.le_refl _) h.path rfl
    · exact h
  | testClose p =>
    simp only [step]
    split
    · rename_i i hpc
      exact h.give p _ (h.only p i (by rw [hpc]; rfl))
    · exact h
  | die p => exact h.give p _ (fun _ => rfl)
  | daemonise p c => exact absurd rfl (hd p c)

theorem inv_run (acts : List Act) (ht : Timely acts) (hd : NoDaemon acts) : Inv (run start acts) := by
  induction hn : acts.length generalizing acts with
  | zero =>
    rw [List.length_eq_zero_iff.1 hn]
    exact inv_start
  | succ n ihn =>
    rcases List.eq_nil_or_concat acts with rfl | ⟨as, a, rfl⟩
    · exact inv_start
    · simp only [List.concat_eq_append] at *
      have ih := ihn as (fun pre p post e => ht pre p (post ++ [a]) (by rw [e]; simp))
        (fun p c hm => hd p c (by simp [hm])) (by simpa using hn)
      rw [run_append]
      refine inv_step ih a (fun p c e => hd p c (by simp [e])) ?_
      intro p e q i
      exact ht as p [] (by rw [e]) q i

end Lock

/-- **C54** (partial: the race in `C54_race_violated` is excluded by `Timely`): of any number of processes that
try to get a client's lock, test it, release it or die, in any order of their steps, at most one proceeds. -/
theorem C54_exclusive_partial (acts : List Act) (ht : Timely acts) (hd : NoDaemon acts) (p q : Nat)
    (hp : Proceeds (run start acts) p) (hq : Proceeds (run start acts) q) : p = q := by
  have h := inv_run acts ht hd
  obtain ⟨i, hp | hp⟩ := hp
  · obtain ⟨j, hq | hq⟩ := hq
    · have e1 := h.here p i (by rw [hp]; rfl)
      have e2 := h.here q j (by rw [hq]; rfl)
      rw [e1] at e2
      cases e2
      have o1 := (h.owner p i).2 (by rw [hp]; rfl)
      have o2 := (h.owner q i).2 (by rw [hq]; rfl)
      rw [o1] at o2
      exact Option.some.inj o2
    · have := h.plain q; rw [hq] at this; cases this
  · have := h.plain p; rw [hp] at this; cases this

/-- An instance of the hypotheses: the second process is refused; after the first has released the lock, a third
gets it. -/
example : Proceeds (run start [.open 0, .tlock 0 true, .open 1, .tlock 1 true, .unlink 0, .open 2, .close 0,
    .tlock 2 true]) 2 := ⟨1, Or.inl rfl⟩

example : Timely [.open 0, .tlock 0 true, .open 1, .tlock 1 true, .unlink 0, .open 2, .close 0, .tlock 2 true] := by
  intro pre p post e q i
  have hpre : pre = [.open 0, .tlock 0 true, .open 1, .tlock 1 true] := by
    rcases pre with _ | ⟨a1, _ | ⟨a2, _ | ⟨a3, _ | ⟨a4, _ | ⟨a5, _ | ⟨a6, _ | ⟨a7, _ | ⟨a8, pre⟩⟩⟩⟩⟩⟩⟩⟩ <;> simp at e <;>
      simp [← e.1, ← e.2.1, ← e.2.2.1, ← e.2.2.2.1]
  rw [hpre]
  simp only [run, step, start, Sys.setPc, Sys.setOwner]
  simp
  grind

/-- **C54**: whoever held the lock, once no living process has locked the file, a process that tries gets it. In
particular a process that has died does not stand in the way. -/
theorem C54_free_again (s : Sys) (p : Nat) (hi : s.pc p = .idle) (ho : ∀ i, i ≥ s.next → s.owner i = none)
    (hfree : ∀ i, s.path = some i → s.owner i = none) :
    Proceeds (run s [.open p, .tlock p true]) p := by
  cases hp : s.path with
  | none =>
    refine ⟨s.next, Or.inl ?_⟩
    simp [run, step, hi, hp, Sys.setPc, Sys.setOwner, ho s.next (Nat.le_refl _)]
  | some i =>
    refine ⟨i, Or.inl ?_⟩
    simp [run, step, hi, hp, Sys.setPc, Sys.setOwner, hfree i hp]

/-- After the holder has died the lock file is still there, and the lock is free. -/
example : (run start [.open 0, .tlock 0 true, .die 0]).path = some 0 ∧
    (run start [.open 0, .tlock 0 true, .die 0]).owner 0 = none := by decide

/-- **C54** does not hold in general: a process that has opened the lock file before it was removed by the one
that releases the lock gets a lock on a file that no other will ever see, so the next process, for which there is
a new file, proceeds as well. -/
theorem C54_race_violated :
    let s := run start [.open 0, .tlock 0 true, .open 1, .unlink 0, .close 0, .tlock 1 true, .open 2, .tlock 2 true]
    Proceeds s 1 ∧ Proceeds s 2 :=
  ⟨⟨0, Or.inl (by decide)⟩, ⟨1, Or.inl (by decide)⟩⟩

/-- **C54**: testing a lock can refuse it to a process although nobody proceeds. -/
theorem C54_test_refuses_violated :
    let s := run start [.open 0, .tlock 0 true, .die 0, .testOpen 1, .testLock 1, .open 2, .tlock 2 true]
    s.pc 2 = .refused ∧ ∀ p, ¬ Proceeds s p := by
  refine ⟨by decide, ?_⟩
  rintro p ⟨i, h⟩
  revert h
  simp only [run, step, start, Sys.setPc, Sys.setOwner, Sys.drop]
  simp
  grind

/-- **C65** does not hold: a server that goes into the background does so in a child, which does not have the
lock of its parent; another server then gets the lock. -/
theorem C65_daemon_violated :
    let s := run start [.open 0, .tlock 0 true, .daemonise 0 1, .open 2, .tlock 2 true]
    Proceeds s 1 ∧ Proceeds s 2 :=
  ⟨⟨0, Or.inr (by decide)⟩, ⟨0, Or.inl (by decide)⟩⟩

/-- **C65** (partial: servers that stay in the foreground, and clients; without the race of `C54_race_violated`). -/
theorem C65_exclusive_partial (acts : List Act) (ht : Timely acts) (hd : NoDaemon acts) (p q : Nat)
    (hp : Proceeds (run start acts) p) (hq : Proceeds (run start acts) q) : p = q :=
  C54_exclusive_partial acts ht hd p q hp hq

end Verif
