import Verif.Spec.ForkChild

/-!
# Lemmas about descriptors
-/

namespace Verif.ForkChild

theorem get_nil (j : Nat) : get [] j = none := by cases j <;> rfl

theorem get_put : ∀ (t : Tab) (i j : Nat) (o : Option Obj), get (put t i o) j = if j = i then o else get t j
  | [], 0, 0, o => rfl
  | [], 0, j + 1, o => by rw [if_neg (by omega), get_nil]; exact get_nil j
  | [], i + 1, 0, o => by rw [if_neg (by omega)]; rfl
  | [], i + 1, j + 1, o => by
    show get (put [] i o) j = _
    rw [get_put [] i j o, get_nil, get_nil]
    by_cases h : j = i
    · rw [if_pos h, if_pos (by omega)]
    · rw [if_neg h, if_neg (by omega)]
  | x :: t, 0, 0, o => rfl
  | x :: t, 0, j + 1, o => by rw [if_neg (by omega)]; rfl
  | x :: t, i + 1, 0, o => by rw [if_neg (by omega)]; rfl
  | x :: t, i + 1, j + 1, o => by
    show get (put t i o) j = _
    rw [get_put t i j o]
    show _ = if j + 1 = i + 1 then o else get t j
    by_cases h : j = i
    · rw [if_pos h, if_pos (by omega)]
    · rw [if_neg h, if_neg (by omega)]

theorem lowest_free : ∀ t : Tab, get t (lowest t) = none
  | [] => rfl
  | none :: _ => rfl
  | some _ :: t => lowest_free t

theorem lowest_least : ∀ (t : Tab) (j : Nat), j < lowest t → get t j ≠ none
  | [], j, h => absurd h (by simp [lowest])
  | none :: _, j, h => absurd h (by simp [lowest])
  | some _ :: t, 0, _ => by simp [get]
  | some _ :: t, j + 1, h => lowest_least t j (by simpa [lowest] using h)

/-- What `pipe` does. -/
theorem pipe_spec (k : Nat) (t : Tab) :
    (pipe k t).1 < (pipe k t).2.1 ∧ get t (pipe k t).1 = none ∧ get t (pipe k t).2.1 = none
    ∧ (∀ j, j < (pipe k t).2.1 → j ≠ (pipe k t).1 → get t j ≠ none)
    ∧ (∀ j, get (pipe k t).2.2 j =
        if j = (pipe k t).2.1 then some (.writes k) else if j = (pipe k t).1 then some (.reads k) else get t j) := by
  have hw : (pipe k t).2.1 = lowest (put t (lowest t) (some (.reads k))) := rfl
  have hr : (pipe k t).1 = lowest t := rfl
  have ht : (pipe k t).2.2 = put (put t (lowest t) (some (.reads k))) (lowest (put t (lowest t) (some (.reads k))))
    (some (.writes k)) := rfl
  rw [hw, hr, ht]
  have h1 := lowest_free (put t (lowest t) (some (.reads k)))
  have h2 := lowest_least (put t (lowest t) (some (.reads k)))
  generalize hx : lowest (put t (lowest t) (some (.reads k))) = w at *
  rw [get_put] at h1
  have hne : w ≠ lowest t := by
    intro e
    rw [if_pos e] at h1
    cases h1
  rw [if_neg hne] at h1
  have hlt : lowest t < w := by
    by_cases hc : w < lowest t
    · exact absurd h1 (lowest_least t w hc)
    · omega
  refine ⟨hlt, lowest_free t, h1, ?_, ?_⟩
  · intro j hj hjr
    have := h2 j hj
    rwa [get_put, if_neg hjr] at this
  · intro j
    rw [get_put, get_put]

theorem get_closeFrom : ∀ (n : Nat) (t : Tab) (a j : Nat),
    get (closeFrom t a n) j = if a ≤ j ∧ j < a + n then none else get t j
  | 0, t, a, j => by rw [if_neg (by omega)]; rfl
  | n + 1, t, a, j => by
    rw [closeFrom, get_closeFrom n, get_put]
    by_cases h : j = a
    · subst h
      rw [if_neg (by omega), if_pos rfl, if_pos (by omega)]
    · by_cases h2 : a ≤ j ∧ j < a + (n + 1)
      · rw [if_pos (by omega), if_pos h2]
      · rw [if_neg (by omega), if_neg h, if_neg h2]

theorem get_dup2 (t : Tab) (a b j : Nat) : get (dup2 t a b) j = if j = b then get t a else get t j := by
  unfold dup2; rw [get_put]

/-- What a pipe that is wanted or not does. -/
def PipeSpec (want : Bool) (k : Nat) (t : Tab) (x : Option (Nat × Nat)) (t' : Tab) : Prop :=
  match want, x with
  | true, some (r, w) => r ≠ w ∧ w ≠ 0 ∧ get t r = none ∧ get t w = none ∧ get t' 0 ≠ none ∧ get t' 1 ≠ none
      ∧ (∀ j, get t' j = if j = w then some (.writes k) else if j = r then some (.reads k) else get t j)
  | false, none => t' = t
  | _, _ => False

theorem maybePipe_spec (want : Bool) (k : Nat) (t : Tab) :
    PipeSpec want k t (maybePipe want k t).1 (maybePipe want k t).2 := by
  cases want
  · exact rfl
  · obtain ⟨h1, h2, h3, h4, h5⟩ := pipe_spec k t
    refine (fun hle : ∀ j, j ≤ (pipe k t).2.1 → get (pipe k t).2.2 j ≠ none => ?_) (fun j hj => ?_)
    · exact ⟨by omega, by omega, h2, h3, hle 0 (by omega), hle 1 (by omega), h5⟩
    rw [h5 j]
    by_cases e1 : j = (pipe k t).2.1
    · rw [if_pos e1]; simp
    · rw [if_neg e1]
      by_cases e2 : j = (pipe k t).1
      · rw [if_pos e2]; simp
      · rw [if_neg e2]
        exact h4 j (by have : j ≤ (pipe k t).2.1 := hj; omega) e2

theorem get_maybeDup (t : Tab) (a : Option Nat) (b j : Nat) :
    get (maybeDup t a b) j = match a with | none => get t j | some a => if j = b then get t a else get t j := by
  cases a with
  | none => rfl
  | some a => exact get_dup2 t a b j

theorem get_maybeClose (t : Tab) (a : Option Nat) (j : Nat) :
    get (maybeClose t a) j = if a = some j then none else get t j := by
  cases a with
  | none => rfl
  | some a =>
    show get (put t a none) j = _
    rw [get_put]
    by_cases h : j = a
    · rw [if_pos h, if_pos (by rw [h])]
    · rw [if_neg h, if_neg (by intro e; exact h (Option.some.inj e).symm)]

/-- The table just before `closeFrom`. -/
def dups (t : Tab) (x y z : Option (Nat × Nat)) : Tab :=
  maybeDup (maybeDup (maybeDup t (x.map (·.1)) 0) (y.map (·.2)) 1) (z.map (·.2)) 2

/-- The table of the parent. -/
def closes (t : Tab) (x y z : Option (Nat × Nat)) : Tab :=
  maybeClose (maybeClose (maybeClose t (x.map (·.1))) (y.map (·.2))) (z.map (·.2))

theorem program_get {i o e forks : Bool} {fails : Option Nat} {t p : Tab}
    (h : (forkchild i o e fails forks t).program = some p) (j : Nat) :
    get p j = if 3 ≤ j ∧ j < 3 + 1021 then none else
      get (dups (maybePipe e 2 (maybePipe o 1 (maybePipe i 0 t).2).2).2 (maybePipe i 0 t).1
        (maybePipe o 1 (maybePipe i 0 t).2).1 (maybePipe e 2 (maybePipe o 1 (maybePipe i 0 t).2).2).1) j := by
  unfold forkchild at h
  split at h
  · cases h
  · split at h
    · cases h
    · split at h
      · cases h
      · cases forks with
        | false => cases h
        | true =>
          have h' := Option.some.inj h
          rw [← h']
          unfold child
          rw [get_closeFrom]
          rfl

theorem parent_get (i o e forks : Bool) (t : Tab) (j : Nat) :
    get (forkchild i o e none forks t).parent j =
      get (closes (maybePipe e 2 (maybePipe o 1 (maybePipe i 0 t).2).2).2 (maybePipe i 0 t).1
        (maybePipe o 1 (maybePipe i 0 t).2).1 (maybePipe e 2 (maybePipe o 1 (maybePipe i 0 t).2).2).1) j := by
  cases i <;> cases o <;> cases e <;> rfl

theorem parent_sin (i o e forks : Bool) (t : Tab) :
    (forkchild i o e none forks t).sin = (maybePipe i 0 t).1.map (·.2) := by
  cases i <;> cases o <;> cases e <;> rfl

theorem parent_sout (i o e forks : Bool) (t : Tab) :
    (forkchild i o e none forks t).sout = (maybePipe o 1 (maybePipe i 0 t).2).1.map (·.1) := by
  cases i <;> cases o <;> cases e <;> rfl

theorem parent_serr (i o e forks : Bool) (t : Tab) :
    (forkchild i o e none forks t).serr = (maybePipe e 2 (maybePipe o 1 (maybePipe i 0 t).2).2).1.map (·.1) := by
  cases i <;> cases o <;> cases e <;> rfl

theorem std_aux {i o e : Bool} {t t1 t2 t3 : Tab} {x y z : Option (Nat × Nat)} (a : PipeSpec i 0 t x t1)
    (b : PipeSpec o 1 t1 y t2) (c : PipeSpec e 2 t2 z t3) :
    (i = true → (if 3 ≤ 0 ∧ 0 < 3 + 1021 then none else get (dups t3 x y z) 0) = some (.reads 0))
    ∧ (o = true → (if 3 ≤ 1 ∧ 1 < 3 + 1021 then none else get (dups t3 x y z) 1) = some (.writes 1))
    ∧ (e = true → (if 3 ≤ 2 ∧ 2 < 3 + 1021 then none else get (dups t3 x y z) 2) = some (.writes 2)) := by
  unfold dups
  simp only [get_maybeDup]
  rcases x with _ | ⟨r0, w0⟩ <;> rcases y with _ | ⟨r1, w1⟩ <;> rcases z with _ | ⟨r2, w2⟩ <;> cases i <;> cases o <;>
    cases e <;> simp only [PipeSpec] at a b c <;> simp only [Option.map_some, Option.map_none] <;> grind (splits := 40)

theorem inherit_aux {i o e : Bool} {t t1 t2 t3 : Tab} {x y z : Option (Nat × Nat)} (hs : StdOpen t)
    (a : PipeSpec i 0 t x t1) (b : PipeSpec o 1 t1 y t2) (c : PipeSpec e 2 t2 z t3) :
    (i = false → (if 3 ≤ 0 ∧ 0 < 3 + 1021 then none else get (dups t3 x y z) 0) = get t 0)
    ∧ (o = false → (if 3 ≤ 1 ∧ 1 < 3 + 1021 then none else get (dups t3 x y z) 1) = get t 1)
    ∧ (e = false → (if 3 ≤ 2 ∧ 2 < 3 + 1021 then none else get (dups t3 x y z) 2) = get t 2) := by
  have h0 := hs 0 (by omega)
  have h1 := hs 1 (by omega)
  have h2 := hs 2 (by omega)
  unfold dups
  simp only [get_maybeDup]
  rcases x with _ | ⟨r0, w0⟩ <;> rcases y with _ | ⟨r1, w1⟩ <;> rcases z with _ | ⟨r2, w2⟩ <;> cases i <;> cases o <;>
    cases e <;> simp only [PipeSpec] at a b c <;> simp only [Option.map_some, Option.map_none] <;> grind (splits := 40)

theorem parent_aux {i o e : Bool} {t t1 t2 t3 : Tab} {x y z : Option (Nat × Nat)}
    (a : PipeSpec i 0 t x t1) (b : PipeSpec o 1 t1 y t2) (c : PipeSpec e 2 t2 z t3) :
    (i = true → ∃ n, x.map (·.2) = some n ∧ get (closes t3 x y z) n = some (.writes 0))
    ∧ (o = true → ∃ n, y.map (·.1) = some n ∧ get (closes t3 x y z) n = some (.reads 1))
    ∧ (e = true → ∃ n, z.map (·.1) = some n ∧ get (closes t3 x y z) n = some (.reads 2))
    ∧ (∀ j, get t j ≠ none → get (closes t3 x y z) j = get t j)
    ∧ (∀ j, get (closes t3 x y z) j ≠ none → get t j ≠ none ∨ x.map (·.2) = some j ∨ y.map (·.1) = some j
        ∨ z.map (·.1) = some j) := by
  unfold closes
  simp only [get_maybeClose]
  rcases x with _ | ⟨r0, w0⟩ <;> rcases y with _ | ⟨r1, w1⟩ <;> rcases z with _ | ⟨r2, w2⟩ <;> cases i <;> cases o <;>
    cases e <;> simp only [PipeSpec] at a b c <;> simp only [Option.map_some, Option.map_none, Option.some.injEq, reduceCtorEq, if_false, exists_eq_left'] <;>
    refine ⟨?_, ?_, ?_, fun j => ?_, fun j => ?_⟩ <;> grind (splits := 40)

theorem ends_aux {i o e : Bool} {t t1 t2 t3 : Tab} {x y z : Option (Nat × Nat)} (hb : Before t)
    (a : PipeSpec i 0 t x t1) (b : PipeSpec o 1 t1 y t2) (c : PipeSpec e 2 t2 z t3) (j : Nat) :
    get (closes t3 x y z) j ≠ some (.reads 0) ∧ get (closes t3 x y z) j ≠ some (.writes 1)
    ∧ get (closes t3 x y z) j ≠ some (.writes 2) := by
  have h0 := hb j 0
  have h1 := hb j 1
  have h2 := hb j 2
  unfold closes
  simp only [get_maybeClose]
  rcases x with _ | ⟨r0, w0⟩ <;> rcases y with _ | ⟨r1, w1⟩ <;> rcases z with _ | ⟨r2, w2⟩ <;> cases i <;> cases o <;>
    cases e <;> simp only [PipeSpec] at a b c <;> simp only [Option.map_some, Option.map_none] <;> grind (splits := 40)

theorem eof_aux {i o e : Bool} {t t1 t2 t3 : Tab} {x y z : Option (Nat × Nat)} (hb : Before t) (hs : StdOpen t)
    (a : PipeSpec i 0 t x t1) (b : PipeSpec o 1 t1 y t2) (c : PipeSpec e 2 t2 z t3) (j : Nat) (hj : j < 1024) :
    (if 3 ≤ j ∧ j < 3 + 1021 then none else get (dups t3 x y z) j) ≠ some (.writes 0)
    ∧ (if 3 ≤ j ∧ j < 3 + 1021 then none else get (dups t3 x y z) j) ≠ some (.reads 1)
    ∧ (if 3 ≤ j ∧ j < 3 + 1021 then none else get (dups t3 x y z) j) ≠ some (.reads 2) := by
  have g0 := hs 0 (by omega)
  have g1 := hs 1 (by omega)
  have g2 := hs 2 (by omega)
  by_cases h3 : 3 ≤ j
  · rw [if_pos ⟨h3, by omega⟩]; simp
  · rw [if_neg (by omega)]
    have h0 := hb j 0
    have h1 := hb j 1
    have h2 := hb j 2
    have hj3 : j = 0 ∨ j = 1 ∨ j = 2 := by omega
    clear hb hs hj h3
    unfold dups
    simp only [get_maybeDup]
    rcases x with _ | ⟨r0, w0⟩ <;> rcases y with _ | ⟨r1, w1⟩ <;> rcases z with _ | ⟨r2, w2⟩ <;> cases i <;> cases o <;>
      cases e <;> simp only [PipeSpec] at a b c <;> simp only [Option.map_some, Option.map_none] <;> grind (splits := 40)

end Verif.ForkChild
