import Verif.Spec.Sessions

/-! Helper lemmas for `Verif/Props/Sessions.lean`. -/

namespace Verif.Sessions
open Verif

theorem upd_same {α : Type} (f : Nat → α) (p : Nat) (x : α) : upd f p x p = x := by
  unfold upd; rw [if_pos rfl]

theorem upd_other {α : Type} (f : Nat → α) {p q : Nat} (x : α) (h : q ≠ p) : upd f p x q = f q := by
  unfold upd; rw [if_neg h]

def isWriting : Stage → Prop
  | .writing _ => True
  | _ => False

def isReading : Stage → Prop
  | .locked => True
  | .counted => True
  | .reading _ _ _ => True
  | _ => False

theorem writes_iff (s : State) (p : Nat) : Writes s p ↔ isWriting (s.stage p) := by
  unfold Writes
  cases s.stage p <;> simp [isWriting]

theorem reads_iff (s : State) (p b : Nat) :
    Reads s p b ↔ (∃ list, s.kind p = .restore b list) ∧ isReading (s.stage p) := by
  unfold Reads
  cases s.stage p <;> simp [isReading]

/-- Who has a lock is at work, and who is at work has the lock. -/
structure Inv (s : State) : Prop where
  w : ∀ p, s.writer = some p ↔ isWriting (s.stage p)
  r : ∀ p b, s.reader b = some p ↔ (∃ list, s.kind p = .restore b list) ∧ isReading (s.stage p)

theorem inv_mk {s s' : State} (hI : Inv s) (p : Nat) (g : Stage) (hk : s'.kind = s.kind)
    (hst : s'.stage = upd s.stage p g)
    (hw : (s'.writer = s.writer ∧ (isWriting g ↔ isWriting (s.stage p)))
      ∨ (s.writer = none ∧ s'.writer = some p ∧ isWriting g)
      ∨ (s.writer = some p ∧ s'.writer = none ∧ ¬ isWriting g))
    (hr : (s'.reader = s.reader ∧ (isReading g ↔ isReading (s.stage p)))
      ∨ (∃ b l, s.kind p = .restore b l ∧ s.reader b = none ∧ s'.reader = upd s.reader b (some p)
          ∧ isReading g)
      ∨ (∃ b l, s.kind p = .restore b l ∧ s.reader b = some p ∧ s'.reader = upd s.reader b none
          ∧ ¬ isReading g)) : Inv s' := by
  refine ⟨?_, ?_⟩
  · intro q
    rw [hst]
    by_cases hq : q = p
    · subst hq
      rw [upd_same]
      rcases hw with ⟨h1, h2⟩ | ⟨_, h2, h3⟩ | ⟨_, h2, h3⟩
      · rw [h1, h2]; exact hI.w q
      · rw [h2]; exact ⟨fun _ => h3, fun _ => rfl⟩
      · rw [h2]; exact ⟨(fun h => by cases h), fun h => absurd h h3⟩
    · rw [upd_other _ _ hq]
      rcases hw with ⟨h1, _⟩ | ⟨h1, h2, _⟩ | ⟨h1, h2, _⟩
      · rw [h1]; exact hI.w q
      · rw [h2, ← hI.w q, h1]
        exact ⟨fun h => by injection h with h; exact absurd h.symm hq, (fun h => by cases h)⟩
      · rw [h2, ← hI.w q, h1]
        exact ⟨(fun h => by cases h), fun h => by injection h with h; exact absurd h.symm hq⟩
  · intro q b
    rw [hst, hk]
    by_cases hq : q = p
    · subst hq
      rw [upd_same]
      rcases hr with ⟨h1, h2⟩ | ⟨b0, l, h0, h1, h2, h3⟩ | ⟨b0, l, h0, h1, h2, h3⟩
      · rw [h1, h2]; exact hI.r q b
      · rw [h2]
        by_cases hb : b = b0
        · subst hb
          rw [upd_same]
          exact ⟨fun _ => ⟨⟨l, h0⟩, h3⟩, fun _ => rfl⟩
        · rw [upd_other _ _ hb, hI.r q b]
          constructor
          · rintro ⟨⟨l', h⟩, _⟩
            rw [h0] at h; injection h with h _; exact absurd h.symm hb
          · rintro ⟨⟨l', h⟩, _⟩
            rw [h0] at h; injection h with h _; exact absurd h.symm hb
      · rw [h2]
        constructor
        · intro h
          by_cases hb : b = b0
          · subst hb; rw [upd_same] at h; cases h
          · rw [upd_other _ _ hb, hI.r q b] at h
            obtain ⟨⟨l', h⟩, _⟩ := h
            rw [h0] at h; injection h with h _; exact absurd h.symm hb
        · rintro ⟨_, h⟩; exact absurd h h3
    · rw [upd_other _ _ hq]
      rcases hr with ⟨h1, _⟩ | ⟨b0, l, h0, h1, h2, _⟩ | ⟨b0, l, h0, h1, h2, _⟩
      · rw [h1]; exact hI.r q b
      · rw [h2]
        by_cases hb : b = b0
        · subst hb
          rw [upd_same, ← hI.r q b, h1]
          exact ⟨fun h => by injection h with h; exact absurd h.symm hq, (fun h => by cases h)⟩
        · rw [upd_other _ _ hb]; exact hI.r q b
      · rw [h2]
        by_cases hb : b = b0
        · subst hb
          rw [upd_same, ← hI.r q b, h1]
          exact ⟨(fun h => by cases h), fun h => by injection h with h; exact absurd h.symm hq⟩
        · rw [upd_other _ _ hb]; exact hI.r q b

theorem none_of_not_isSome {α : Type} {o : Option α} (h : ¬ o.isSome = true) : o = none := by
  cases o with
  | none => rfl
  | some x => exact absurd rfl h

theorem inv_step {size : Nat → Nat} {s : State} (hI : Inv s) (p : Nat) : Inv (step size s p) := by
  unfold step
  cases hk : s.kind p with
  | restore b list =>
    have own : isReading (s.stage p) → s.reader b = some p := fun h => (hI.r p b).2 ⟨⟨list, hk⟩, h⟩
    simp only
    cases hs : s.stage p with
    | start =>
      exact inv_mk hI p .listed rfl rfl (Or.inl ⟨rfl, by rw [hs]; simp [isWriting]⟩)
        (Or.inl ⟨rfl, by rw [hs]; simp [isReading]⟩)
    | listed =>
      simp only [restoreStep]
      split
      · exact inv_mk hI p _ rfl rfl (Or.inl ⟨rfl, by rw [hs]; simp [isWriting]⟩)
          (Or.inl ⟨rfl, by rw [hs]; simp [isReading]⟩)
      · split
        · exact inv_mk hI p _ rfl rfl (Or.inl ⟨rfl, by rw [hs]; simp [isWriting]⟩)
            (Or.inl ⟨rfl, by rw [hs]; simp [isReading]⟩)
        · next hr =>
          exact inv_mk hI p .locked rfl rfl (Or.inl ⟨rfl, by rw [hs]; simp [isWriting]⟩)
            (Or.inr (Or.inl ⟨b, list, hk, none_of_not_isSome hr, rfl, trivial⟩))
    | locked =>
      simp only [restoreStep]
      split
      · exact inv_mk hI p _ rfl rfl (Or.inl ⟨rfl, by rw [hs]; simp [isWriting]⟩)
          (Or.inl ⟨rfl, by rw [hs]; simp [isReading]⟩)
      · exact inv_mk hI p (.unlocked .failed) rfl rfl (Or.inl ⟨rfl, by rw [hs]; simp [isWriting]⟩)
          (Or.inr (Or.inr ⟨b, list, hk, own (by rw [hs]; trivial), rfl, fun h => h⟩))
    | counted =>
      simp only [restoreStep]
      split
      · exact inv_mk hI p (.reading (size b) 0 (if list.isSome then s.listFile else none)) rfl rfl
          (Or.inl ⟨rfl, by rw [hs]; simp [isWriting]⟩)
          (Or.inl ⟨rfl, by rw [hs]; simp [isReading]⟩)
      · exact inv_mk hI p (.unlocked .failed) rfl rfl (Or.inl ⟨rfl, by rw [hs]; simp [isWriting]⟩)
          (Or.inr (Or.inr ⟨b, list, hk, own (by rw [hs]; trivial), rfl, fun h => h⟩))
    | reading n got used =>
      cases n with
      | zero =>
        exact inv_mk hI p (.unlocked (.sent got used)) rfl rfl
          (Or.inl ⟨rfl, by rw [hs]; simp [isWriting]⟩)
          (Or.inr (Or.inr ⟨b, list, hk, own (by rw [hs]; trivial), rfl, fun h => h⟩))
      | succ n =>
        exact inv_mk hI p (.reading n (if b ∈ s.backups then got + 1 else got) used) rfl rfl
          (Or.inl ⟨rfl, by rw [hs]; simp [isWriting]⟩)
          (Or.inl ⟨rfl, by rw [hs]; simp [isReading]⟩)
    | unlocked o =>
      exact inv_mk hI p (.done o) rfl rfl (Or.inl ⟨rfl, by rw [hs]; simp [isWriting]⟩)
        (Or.inl ⟨rfl, by rw [hs]; simp [isReading]⟩)
    | writing t => exact hI
    | done o => exact hI
  | write cs =>
    simp only
    cases hs : s.stage p with
    | start =>
      simp only [writeStep]
      split
      · exact inv_mk hI p (.done .refused) rfl rfl (Or.inl ⟨rfl, by rw [hs]; simp [isWriting]⟩)
          (Or.inl ⟨rfl, by rw [hs]; simp [isReading]⟩)
      · next hw =>
        exact inv_mk hI p (.writing cs) rfl rfl (Or.inr (Or.inl ⟨none_of_not_isSome hw, rfl, trivial⟩))
          (Or.inl ⟨rfl, by rw [hs]; simp [isReading]⟩)
    | writing t =>
      cases t with
      | nil =>
        exact inv_mk hI p (.done .written) rfl rfl
          (Or.inr (Or.inr ⟨(hI.w p).2 (by rw [hs]; trivial), rfl, fun h => h⟩))
          (Or.inl ⟨rfl, by rw [hs]; simp [isReading]⟩)
      | cons c t =>
        exact inv_mk hI p (.writing t) rfl rfl (Or.inl ⟨rfl, by rw [hs]; simp [isWriting]⟩)
          (Or.inl ⟨rfl, by rw [hs]; simp [isReading]⟩)
    | listed => exact hI
    | locked => exact hI
    | counted => exact hI
    | reading _ _ _ => exact hI
    | unlocked _ => exact hI
    | done _ => exact hI

theorem kill_eq (s : State) (p : Nat) : (∃ o, s.stage p = .done o ∧ kill s p = s) ∨
    kill s p = ({ s with
        writer := if s.writer = some p then none else s.writer
        reader := fun b => if s.reader b = some p then none else s.reader b }).at p (.done .killed) := by
  unfold kill
  cases hs : s.stage p with
  | done o => exact Or.inl ⟨o, rfl, rfl⟩
  | _ => exact Or.inr rfl

theorem inv_kill {s : State} (hI : Inv s) (p : Nat) : Inv (kill s p) := by
  rcases kill_eq s p with ⟨_, _, h⟩ | h
  · rw [h]; exact hI
  · rw [h]
    refine ⟨?_, ?_⟩
    · intro q
      show (if s.writer = some p then none else s.writer) = some q ↔ isWriting (upd s.stage p _ q)
      by_cases hq : q = p
      · subst hq
        rw [upd_same]
        constructor
        · intro h
          split at h
          · cases h
          · next hn => exact absurd h hn
        · intro h; cases h
      · rw [upd_other _ _ hq, ← hI.w q]
        split
        · next hw =>
          rw [hw]
          exact ⟨(fun h => by cases h), fun h => by injection h with h; exact absurd h.symm hq⟩
        · exact Iff.rfl
    · intro q b
      show (if s.reader b = some p then none else s.reader b) = some q ↔
        (∃ list, s.kind q = .restore b list) ∧ isReading (upd s.stage p _ q)
      by_cases hq : q = p
      · subst hq
        rw [upd_same]
        constructor
        · intro h
          split at h
          · cases h
          · next hn => exact absurd h hn
        · rintro ⟨_, h⟩; cases h
      · rw [upd_other _ _ hq, ← hI.r q b]
        split
        · next hw =>
          rw [hw]
          exact ⟨(fun h => by cases h), fun h => by injection h with h; exact absurd h.symm hq⟩
        · exact Iff.rfl

theorem inv_initial (bs : List Nat) (k : Nat → Kind) : Inv (initial bs k) :=
  ⟨fun _ => ⟨(fun h => by cases h), fun h => by cases h⟩,
   fun _ _ => ⟨(fun h => by cases h), fun h => by cases h.2⟩⟩

/-- Induction over the events. -/
theorem run_induct {P : State → Prop} {size : Nat → Nat} (es : List Event) : ∀ {s : State}, P s →
    (∀ s e, e ∈ es → P s → P (exec size s e)) → P (run size s es) := by
  induction es with
  | nil => intro s h _; exact h
  | cons e es ih =>
    intro s h hstep
    exact ih (hstep s e (List.mem_cons_self ..) h)
      (fun s x hx hs => hstep s x (List.mem_cons_of_mem _ hx) hs)

theorem inv_exec {size : Nat → Nat} {s : State} (hI : Inv s) (e : Event) : Inv (exec size s e) := by
  cases e with
  | step p => exact inv_step hI p
  | kill p => exact inv_kill hI p

theorem inv_run {size : Nat → Nat} (es : List Event) (bs : List Nat) (k : Nat → Kind) :
    Inv (run size (initial bs k) es) :=
  run_induct es (inv_initial bs k) (fun _ e _ h => inv_exec h e)

/-! Each session goes through its own stages. -/

theorem restoreStep_frame (size : Nat → Nat) (s : State) (p b : Nat) (l : Option Str) (g : Stage) :
    (restoreStep size s p b l g).kind = s.kind
    ∧ (∀ q, q ≠ p → (restoreStep size s p b l g).stage q = s.stage q)
    ∧ (restoreStep size s p b l g).backups = s.backups := by
  have key : ∀ (t : State) (g' : Stage), t.stage = s.stage → t.kind = s.kind → t.backups = s.backups →
      ((t.at p g').kind = s.kind ∧ (∀ q, q ≠ p → (t.at p g').stage q = s.stage q)
        ∧ (t.at p g').backups = s.backups) := by
    intro t g' h1 h2 h3
    refine ⟨h2, ?_, h3⟩
    intro q hq
    show upd t.stage p g' q = _
    rw [upd_other _ _ hq, h1]
  cases g with
  | start => exact key _ _ rfl rfl rfl
  | listed =>
    simp only [restoreStep]
    split
    · exact key _ _ rfl rfl rfl
    · split <;> exact key _ _ rfl rfl rfl
  | locked => simp only [restoreStep]; split <;> exact key _ _ rfl rfl rfl
  | counted => simp only [restoreStep]; split <;> exact key _ _ rfl rfl rfl
  | reading n got used => cases n <;> exact key _ _ rfl rfl rfl
  | unlocked o => exact key _ _ rfl rfl rfl
  | writing _ => exact ⟨rfl, fun _ _ => rfl, rfl⟩
  | done _ => exact ⟨rfl, fun _ _ => rfl, rfl⟩

theorem writeStep_frame (s : State) (p : Nat) (cs : List Change) (g : Stage) :
    (writeStep s p cs g).kind = s.kind
    ∧ (∀ q, q ≠ p → (writeStep s p cs g).stage q = s.stage q)
    ∧ (writeStep s p cs g).listFile = s.listFile := by
  have key : ∀ (t : State) (g' : Stage), t.stage = s.stage → t.kind = s.kind → t.listFile = s.listFile →
      ((t.at p g').kind = s.kind ∧ (∀ q, q ≠ p → (t.at p g').stage q = s.stage q)
        ∧ (t.at p g').listFile = s.listFile) := by
    intro t g' h1 h2 h3
    refine ⟨h2, ?_, h3⟩
    intro q hq
    show upd t.stage p g' q = _
    rw [upd_other _ _ hq, h1]
  cases g with
  | start => simp only [writeStep]; split <;> exact key _ _ rfl rfl rfl
  | writing t => cases t <;> exact key _ _ rfl rfl rfl
  | _ => exact ⟨rfl, fun _ _ => rfl, rfl⟩

theorem kill_frame (s : State) (p : Nat) :
    (kill s p).kind = s.kind ∧ (∀ q, q ≠ p → (kill s p).stage q = s.stage q)
    ∧ (kill s p).listFile = s.listFile ∧ (kill s p).backups = s.backups
    ∧ ∃ o, (kill s p).stage p = .done o ∧ (o = .killed ∨ s.stage p = .done o) := by
  rcases kill_eq s p with ⟨o, h, he⟩ | h
  · rw [he]; exact ⟨rfl, fun _ _ => rfl, rfl, rfl, o, h, Or.inr h⟩
  · rw [h]
    refine ⟨rfl, ?_, rfl, rfl, .killed, upd_same .., Or.inl rfl⟩
    intro q hq
    exact upd_other _ _ hq

theorem step_kind (size : Nat → Nat) (s : State) (p : Nat) : (step size s p).kind = s.kind := by
  unfold step
  cases s.kind p with
  | restore b l => exact (restoreStep_frame ..).1
  | write cs => exact (writeStep_frame ..).1

theorem step_other (size : Nat → Nat) (s : State) {p q : Nat} (h : q ≠ p) :
    (step size s p).stage q = s.stage q := by
  unfold step
  cases s.kind p with
  | restore b l => exact (restoreStep_frame ..).2.1 q h
  | write cs => exact (writeStep_frame ..).2.1 q h

theorem exec_kind (size : Nat → Nat) (s : State) (e : Event) : (exec size s e).kind = s.kind := by
  cases e with
  | step p => exact step_kind ..
  | kill p => exact (kill_frame s p).1

theorem run_kind (size : Nat → Nat) (es : List Event) (s : State) : (run size s es).kind = s.kind :=
  run_induct (P := fun t => t.kind = s.kind) es rfl (fun t e _ h => (exec_kind size t e).trans h)

/-- A session is at a stage of its kind. -/
def Fits (k : Kind) (g : Stage) : Prop :=
  match k with
  | .restore _ _ => ¬ isWriting g
  | .write cs => g = .start ∨ (∃ pre todo, g = .writing todo ∧ cs = pre ++ todo) ∨ ∃ o, g = .done o

theorem fits_step {size : Nat → Nat} {s : State} (h : ∀ q, Fits (s.kind q) (s.stage q)) (p : Nat) :
    ∀ q, Fits ((step size s p).kind q) ((step size s p).stage q) := by
  intro q
  rw [step_kind]
  by_cases hq : q = p
  · subst hq
    have hf := h q
    unfold step
    cases hk : s.kind q with
    | restore b l =>
      rw [hk] at hf
      simp only
      cases hs : s.stage q with
      | start => simp [restoreStep, State.at, upd_same, Fits, isWriting]
      | listed =>
        simp only [restoreStep]
        split
        · simp [State.at, upd_same, Fits, isWriting]
        · split <;> simp [State.at, upd_same, Fits, isWriting]
      | locked => simp only [restoreStep]; split <;> simp [State.at, upd_same, Fits, isWriting]
      | counted => simp only [restoreStep]; split <;> simp [State.at, upd_same, Fits, isWriting]
      | reading n g u => cases n <;> simp [restoreStep, State.at, upd_same, Fits, isWriting]
      | unlocked o => simp [restoreStep, State.at, upd_same, Fits, isWriting]
      | writing t => rw [hs] at hf; exact absurd trivial hf
      | done o => simp [restoreStep, hs, Fits, isWriting]
    | write cs =>
      rw [hk] at hf
      simp only
      rcases hf with hs | ⟨pre, todo, hs, hc⟩ | ⟨o, hs⟩
      · rw [hs]
        simp only [writeStep]
        split
        · exact Or.inr (Or.inr ⟨_, upd_same ..⟩)
        · exact Or.inr (Or.inl ⟨[], cs, upd_same .., rfl⟩)
      · rw [hs]
        cases todo with
        | nil => exact Or.inr (Or.inr ⟨_, upd_same ..⟩)
        | cons c t =>
          refine Or.inr (Or.inl ⟨pre ++ [c], t, upd_same .., ?_⟩)
          rw [hc]; simp
      · rw [hs]
        exact Or.inr (Or.inr ⟨o, hs⟩)
  · rw [step_other size s hq]; exact h q

theorem fits_exec {size : Nat → Nat} {s : State} (h : ∀ q, Fits (s.kind q) (s.stage q)) (e : Event) :
    ∀ q, Fits ((exec size s e).kind q) ((exec size s e).stage q) := by
  cases e with
  | step p => exact fits_step h p
  | kill p =>
    intro q
    obtain ⟨h1, h2, _, _, o, h3, _⟩ := kill_frame s p
    show Fits ((kill s p).kind q) ((kill s p).stage q)
    rw [h1]
    by_cases hq : q = p
    · subst hq
      rw [h3]
      cases s.kind q with
      | restore _ _ => exact fun h => h
      | write _ => exact Or.inr (Or.inr ⟨o, rfl⟩)
    · rw [h2 q hq]; exact h q

theorem fits_initial (bs : List Nat) (k : Nat → Kind) :
    ∀ q, Fits ((initial bs k).kind q) ((initial bs k).stage q) := by
  intro q
  show Fits (k q) .start
  cases k q with
  | restore _ _ => exact fun h => h
  | write _ => exact Or.inl rfl

theorem fits_run {size : Nat → Nat} (es : List Event) (bs : List Nat) (k : Nat → Kind) :
    ∀ q, Fits (k q) ((run size (initial bs k) es).stage q) := by
  have := run_induct (size := size) (P := fun s => ∀ q, Fits (s.kind q) (s.stage q)) es
    (fits_initial bs k) (fun _ e _ h => fits_exec h e)
  rw [run_kind] at this
  exact this

/-- How many steps are left. -/
def rest (size : Nat → Nat) (k : Kind) (g : Stage) : Nat :=
  match k, g with
  | .restore b _, .start => size b + 6
  | .restore b _, .listed => size b + 5
  | .restore b _, .locked => size b + 4
  | .restore b _, .counted => size b + 3
  | .restore _ _, .reading n _ _ => n + 2
  | .restore _ _, .unlocked _ => 1
  | .write cs, .start => cs.length + 2
  | .write _, .writing t => t.length + 1
  | _, _ => 0

theorem rest_zero {size : Nat → Nat} {k : Kind} {g : Stage} (hf : Fits k g) (h : rest size k g = 0) :
    ∃ o, g = .done o := by
  cases k with
  | restore b l =>
    cases g with
    | done o => exact ⟨o, rfl⟩
    | writing t => exact absurd trivial hf
    | _ => simp [rest] at h
  | write cs =>
    rcases hf with rfl | ⟨_, todo, rfl, _⟩ | ⟨o, rfl⟩
    · simp [rest] at h
    · simp [rest] at h
    · exact ⟨o, rfl⟩

theorem rest_step {size : Nat → Nat} {s : State} (h : ∀ q, Fits (s.kind q) (s.stage q)) (p : Nat) :
    rest size (s.kind p) ((step size s p).stage p) ≤ rest size (s.kind p) (s.stage p) - 1 := by
  have hf := h p
  unfold step
  cases hk : s.kind p with
  | restore b l =>
    rw [hk] at hf
    simp only
    cases hs : s.stage p with
    | start => simp [restoreStep, State.at, upd_same, rest]
    | listed =>
      simp only [restoreStep]
      split
      · simp [State.at, upd_same, rest]
      · split <;> simp [State.at, upd_same, rest]
    | locked => simp only [restoreStep]; split <;> simp [State.at, upd_same, rest]
    | counted => simp only [restoreStep]; split <;> simp [State.at, upd_same, rest]
    | reading n g u => cases n <;> simp [restoreStep, State.at, upd_same, rest]
    | unlocked o => simp [restoreStep, State.at, upd_same, rest]
    | writing t => rw [hs] at hf; exact absurd trivial hf
    | done o => simp [restoreStep, hs, rest]
  | write cs =>
    rw [hk] at hf
    simp only
    rcases hf with hs | ⟨pre, todo, hs, hc⟩ | ⟨o, hs⟩
    · rw [hs]
      simp only [writeStep]
      split <;> simp [State.at, upd_same, rest]
    · rw [hs]
      cases todo <;> simp [writeStep, State.at, upd_same, rest]
    · rw [hs]
      simp [writeStep, hs, rest]

theorem rest_run {size : Nat → Nat} (p : Nat) (es : List Event) : ∀ {s : State},
    (∀ q, Fits (s.kind q) (s.stage q)) →
    rest size (s.kind p) ((run size s es).stage p) ≤ rest size (s.kind p) (s.stage p) - ownSteps p es := by
  induction es with
  | nil => intro s _; simp [run, ownSteps]
  | cons e es ih =>
    intro s h
    have h1 := ih (fits_exec (size := size) h e)
    rw [exec_kind] at h1
    have h2 : rest size (s.kind p) ((exec size s e).stage p)
        ≤ rest size (s.kind p) (s.stage p) - (if e = .step p then 1 else 0) := by
      cases e with
      | step q =>
        by_cases hq : q = p
        · subst hq
          rw [if_pos rfl]
          exact rest_step h q
        · rw [if_neg (by intro h; injection h with h; exact hq h)]
          show rest size _ ((step size s q).stage p) ≤ _
          rw [step_other size s (fun h => hq h.symm)]
          omega
      | kill q =>
        rw [if_neg (by intro h; cases h)]
        obtain ⟨_, k2, _, _, o, k3, _⟩ := kill_frame s q
        show rest size _ ((kill s q).stage p) ≤ _
        by_cases hq : p = q
        · subst hq
          rw [k3]
          cases s.kind p <;> simp [rest]
        · rw [k2 p hq]; omega
    have h3 : ownSteps p (e :: es) = (if e = .step p then 1 else 0) + ownSteps p es := by
      unfold ownSteps
      by_cases he : e = .step p
      · simp [he]; omega
      · simp [he]
    rw [h3]
    show rest size _ ((run size (exec size s e) es).stage p) ≤ _
    omega

/-! What a restore gets. -/

/-- Where a step of a restore may take it. -/
theorem restore_next {size : Nat → Nat} {s : State} {p b : Nat} {l : Option Str}
    (hk : s.kind p = .restore b l) :
    step size s p = restoreStep size s p b l (s.stage p) := by
  unfold step; rw [hk]

theorem mem_apply {bs : List Nat} {b : Nat} {c : Change} (h : b ∈ bs) (hc : c ≠ .remove b) :
    b ∈ c.apply bs := by
  cases c with
  | add x => exact List.mem_cons_of_mem _ h
  | remove x =>
    have hx : b ≠ x := fun hb => hc (by rw [hb])
    simp only [Change.apply, List.mem_filter, ne_eq, decide_eq_true_eq]
    exact ⟨h, hx⟩

/-- A backup that nobody removes stays. -/
theorem stays {size : Nat → Nat} {s : State} {b : Nat} (hf : ∀ q, Fits (s.kind q) (s.stage q))
    (hn : NeverRemoved s.kind b) (hb : b ∈ s.backups) (e : Event) : b ∈ (exec size s e).backups := by
  cases e with
  | kill p =>
    show b ∈ (kill s p).backups
    rw [(kill_frame s p).2.2.2.1]; exact hb
  | step p =>
    show b ∈ (step size s p).backups
    unfold step
    cases hk : s.kind p with
    | restore b' l => simp only; rw [(restoreStep_frame ..).2.2]; exact hb
    | write cs =>
      have hp := hf p
      rw [hk] at hp
      simp only
      rcases hp with hs | ⟨pre, todo, hs, hc⟩ | ⟨o, hs⟩
      · rw [hs]; simp only [writeStep]; split <;> exact hb
      · rw [hs]
        cases todo with
        | nil => exact hb
        | cons c t =>
          refine mem_apply hb ?_
          intro h
          refine hn p cs hk ?_
          rw [hc, ← h]
          exact List.mem_append_right _ (List.mem_cons_self ..)
      · rw [hs]; exact hb

/-- So far everything has been sent. -/
def WholeAt (size : Nat → Nat) (b : Nat) (bs : List Nat) : Stage → Prop
  | .reading n got _ => b ∈ bs ∧ got + n = size b
  | .unlocked (.sent n _) => n = size b
  | .done (.sent n _) => n = size b
  | _ => True

theorem whole_mono {size : Nat → Nat} {b : Nat} {bs bs' : List Nat} {g : Stage}
    (h : WholeAt size b bs g) (hb : b ∈ bs → b ∈ bs') : WholeAt size b bs' g := by
  cases g with
  | reading n got u => exact ⟨hb h.1, h.2⟩
  | unlocked o => cases o <;> exact h
  | done o => cases o <;> exact h
  | _ => trivial

theorem whole_exec {size : Nat → Nat} {s : State} {p b : Nat} {l : Option Str}
    (hf : ∀ q, Fits (s.kind q) (s.stage q)) (hk : s.kind p = .restore b l)
    (hn : NeverRemoved s.kind b) (h : WholeAt size b s.backups (s.stage p)) (e : Event) :
    WholeAt size b (exec size s e).backups ((exec size s e).stage p) := by
  have hst := fun hb => stays (size := size) hf hn hb e
  cases e with
  | kill q =>
    obtain ⟨_, k2, _, _, o, k3, k4⟩ := kill_frame s q
    by_cases hq : p = q
    · subst hq
      show WholeAt size b _ ((kill s p).stage p)
      rw [k3]
      rcases k4 with rfl | k4
      · trivial
      · rw [k4] at h; exact whole_mono h hst
    · show WholeAt size b _ ((kill s q).stage p)
      rw [k2 p hq]; exact whole_mono h hst
  | step q =>
    by_cases hq : p = q
    · subst hq
      show WholeAt size b (step size s p).backups ((step size s p).stage p)
      rw [restore_next hk]
      cases hs : s.stage p with
      | start => simp [restoreStep, State.at, upd_same, WholeAt]
      | listed =>
        simp only [restoreStep]
        split
        · simp [State.at, upd_same, WholeAt]
        · split <;> simp [State.at, upd_same, WholeAt]
      | locked => simp only [restoreStep]; split <;> simp [State.at, upd_same, WholeAt]
      | counted =>
        simp only [restoreStep]
        split
        · next hc => simp [State.at, upd_same, WholeAt, hc.1]
        · simp [State.at, upd_same, WholeAt]
      | reading n got u =>
        rw [hs] at h
        obtain ⟨h1, h2⟩ := h
        cases n with
        | zero => simpa [restoreStep, State.at, upd_same, WholeAt] using h2
        | succ n =>
          simp only [restoreStep, State.at, upd_same, WholeAt, if_pos h1]
          exact ⟨h1, by omega⟩
      | unlocked o =>
        rw [hs] at h
        show WholeAt size b s.backups (upd s.stage p (.done o) p)
        rw [upd_same]
        cases o <;> exact h
      | writing t => rw [hs] at h; show WholeAt size b s.backups (s.stage p); rw [hs]; exact h
      | done o => rw [hs] at h; show WholeAt size b s.backups (s.stage p); rw [hs]; exact h
    · show WholeAt size b _ ((step size s q).stage p)
      rw [step_other size s hq]; exact whole_mono h hst

/-- The list, if there is one, is the session's own. -/
def OwnList (l file : Option Str) : Stage → Prop
  | .listed => l.isSome = true → file = l
  | .locked => l.isSome = true → file = l
  | .counted => l.isSome = true → file = l
  | .reading _ _ u => u = l
  | .unlocked (.sent _ u) => u = l
  | .done (.sent _ u) => u = l
  | _ => True

theorem write_listFile {size : Nat → Nat} {s : State} {q : Nat} {cs : List Change}
    (hk : s.kind q = .write cs) : (step size s q).listFile = s.listFile := by
  unfold step; rw [hk]; exact (writeStep_frame ..).2.2

theorem own_none {file file' : Option Str} {g : Stage} (h : OwnList none file g) : OwnList none file' g := by
  cases g with
  | unlocked o => cases o <;> exact h
  | done o => cases o <;> exact h
  | reading _ _ _ => exact h
  | listed => exact fun h => by cases h
  | locked => exact fun h => by cases h
  | counted => exact fun h => by cases h
  | _ => trivial

theorem own_exec {size : Nat → Nat} {s : State} {p b : Nat} {l : Option Str}
    (hk : s.kind p = .restore b l) (ho : l = none ∨ OnlyRestore s.kind p)
    (h : OwnList l s.listFile (s.stage p)) (e : Event) :
    OwnList l (exec size s e).listFile ((exec size s e).stage p) := by
  cases e with
  | kill q =>
    obtain ⟨_, k2, k5, _, o, k3, k4⟩ := kill_frame s q
    show OwnList l (kill s q).listFile ((kill s q).stage p)
    rw [k5]
    by_cases hq : p = q
    · subst hq
      rw [k3]
      rcases k4 with rfl | k4
      · trivial
      · rw [k4] at h; exact h
    · rw [k2 p hq]; exact h
  | step q =>
    by_cases hq : p = q
    · subst hq
      show OwnList l (step size s p).listFile ((step size s p).stage p)
      rw [restore_next hk]
      cases hs : s.stage p with
      | start =>
        simp only [restoreStep, State.at, upd_same, OwnList]
        intro hl
        rw [if_pos hl]
      | listed =>
        rw [hs] at h
        simp only [restoreStep]
        split
        · simp [State.at, upd_same, OwnList]
        · split
          · simp [State.at, upd_same, OwnList]
          · simpa [State.at, upd_same, OwnList] using h
      | locked =>
        rw [hs] at h
        simp only [restoreStep]
        split
        · simpa [State.at, upd_same, OwnList] using h
        · simp [State.at, upd_same, OwnList]
      | counted =>
        rw [hs] at h
        simp only [restoreStep]
        split
        · simp only [State.at, upd_same, OwnList]
          split
          · next hl => exact h hl
          · next hl => exact (none_of_not_isSome hl).symm
        · simp [State.at, upd_same, OwnList]
      | reading n got u =>
        rw [hs] at h
        cases n with
        | zero => simpa [restoreStep, State.at, upd_same, OwnList] using h
        | succ n => simpa [restoreStep, State.at, upd_same, OwnList] using h
      | unlocked o =>
        rw [hs] at h
        show OwnList l _ (upd s.stage p (.done o) p)
        rw [upd_same]
        cases o <;> exact h
      | writing t => show OwnList l _ (s.stage p); rw [hs]; trivial
      | done o =>
        rw [hs] at h
        show OwnList l _ (s.stage p); rw [hs]
        cases o <;> exact h
    · show OwnList l (step size s q).listFile ((step size s q).stage p)
      rw [step_other size s hq]
      cases hkq : s.kind q with
      | restore b' l' =>
        rcases ho with rfl | ho
        · exact own_none h
        · exact absurd (ho q b' l' hkq).symm hq
      | write cs => rw [write_listFile hkq]; exact h

/-- A stage of a restore that nothing has gone wrong with. -/
def GoodStage : Stage → Prop
  | .unlocked (.sent _ _) => True
  | .unlocked _ => False
  | .done (.sent _ _) => True
  | .done _ => False
  | _ => True

/-- Nothing goes wrong with a restore that has the backup, and the list, to itself. -/
theorem good_exec {size : Nat → Nat} {s : State} {p b : Nat} {l : Option Str} (hI : Inv s)
    (hk : s.kind p = .restore b l)
    (hone : ∀ q l', s.kind q = .restore b l' → q = p) (hb : b ∈ s.backups)
    (hl : (s.stage p = .locked ∨ s.stage p = .counted) → listOpens s l = true)
    (h : GoodStage (s.stage p)) {e : Event} (he : e ≠ .kill p) :
    GoodStage ((exec size s e).stage p) := by
  cases e with
  | kill q =>
    have hq : p ≠ q := fun hq => he (by rw [hq])
    show GoodStage ((kill s q).stage p)
    rw [(kill_frame s q).2.1 p hq]; exact h
  | step q =>
    by_cases hq : p = q
    · subst hq
      show GoodStage ((step size s p).stage p)
      rw [restore_next hk]
      cases hs : s.stage p with
      | start => simp [restoreStep, State.at, upd_same, GoodStage]
      | listed =>
        have hr : ¬ (s.reader b).isSome = true := by
          intro hr
          obtain ⟨q, hq⟩ := Option.isSome_iff_exists.1 hr
          obtain ⟨⟨l', h1⟩, h2⟩ := (hI.r q b).1 hq
          rw [hone q l' h1, hs] at h2
          exact h2
        simp only [restoreStep]
        rw [if_neg (fun hn => hn hb), if_neg hr]
        simp [State.at, upd_same, GoodStage]
      | locked =>
        simp only [restoreStep]
        rw [if_pos ⟨hb, hl (Or.inl hs)⟩]
        simp [State.at, upd_same, GoodStage]
      | counted =>
        simp only [restoreStep]
        rw [if_pos ⟨hb, hl (Or.inr hs)⟩]
        simp [State.at, upd_same, GoodStage]
      | reading n got u => cases n <;> simp [restoreStep, State.at, upd_same, GoodStage]
      | unlocked o =>
        rw [hs] at h
        show GoodStage (upd s.stage p (.done o) p)
        rw [upd_same]
        cases o <;> exact h
      | writing t => show GoodStage (s.stage p); rw [hs]; trivial
      | done o => show GoodStage (s.stage p); exact h
    · show GoodStage ((step size s q).stage p)
      rw [step_other size s hq]; exact h

/-- A session that writes and that nothing has gone wrong with. -/
def GoodWriter : Stage → Prop
  | .start => True
  | .writing _ => True
  | .done .written => True
  | _ => False

theorem goodWriter_exec {size : Nat → Nat} {s : State} {p : Nat} {cs : List Change} (hI : Inv s)
    (hf : ∀ q, Fits (s.kind q) (s.stage q)) (hk : s.kind p = .write cs) (ho : OnlyWriter s.kind p)
    (h : GoodWriter (s.stage p)) {e : Event} (he : e ≠ .kill p) :
    GoodWriter ((exec size s e).stage p) := by
  cases e with
  | kill q =>
    have hq : p ≠ q := fun hq => he (by rw [hq])
    show GoodWriter ((kill s q).stage p)
    rw [(kill_frame s q).2.1 p hq]; exact h
  | step q =>
    by_cases hq : p = q
    · subst hq
      show GoodWriter ((step size s p).stage p)
      unfold step
      rw [hk]
      simp only
      cases hs : s.stage p with
      | start =>
        have hw : ¬ s.writer.isSome = true := by
          intro hw
          obtain ⟨q, hq⟩ := Option.isSome_iff_exists.1 hw
          have h2 := (hI.w q).1 hq
          have h3 := hf q
          cases hkq : s.kind q with
          | restore b l => rw [hkq] at h3; exact h3 h2
          | write cs' => rw [ho q cs' hkq, hs] at h2; exact h2
        simp only [writeStep]
        rw [if_neg hw]
        simp [State.at, upd_same, GoodWriter]
      | writing t => cases t <;> simp [writeStep, State.at, upd_same, GoodWriter]
      | _ => show GoodWriter (s.stage p); exact h
    · show GoodWriter ((step size s q).stage p)
      rw [step_other size s hq]; exact h

end Verif.Sessions
