import Verif.Lemmas.ForkChild

/-!
# C124: a program that burp runs has the descriptors it should have, and no others
-/

namespace Verif
open ForkChild

/-- **C124.** Whatever descriptors are open when burp runs a program, even if standard input, output or error are closed:
when the program starts, each of the three that burp wants is the right end of the right pipe. -/
theorem C124_std (i o e forks : Bool) (fails : Option Nat) (t p : Tab)
    (h : (forkchild i o e fails forks t).program = some p) :
    (i = true → get p 0 = some (.reads 0)) ∧ (o = true → get p 1 = some (.writes 1))
    ∧ (e = true → get p 2 = some (.writes 2)) := by
  rw [program_get h, program_get h, program_get h]
  have a := maybePipe_spec i 0 t
  have b := maybePipe_spec o 1 (maybePipe i 0 t).2
  have c := maybePipe_spec e 2 (maybePipe o 1 (maybePipe i 0 t).2).2
  exact std_aux a b c

/-- **C124, in part.** The program gets none of the other descriptors that burp has open, such as its sockets. For
those below `FD_SETSIZE`. -/
theorem C124_closed_partial (i o e forks : Bool) (fails : Option Nat) (t p : Tab)
    (h : (forkchild i o e fails forks t).program = some p) (j : Nat) (h3 : 3 ≤ j) (hj : j < 1024) : get p j = none := by
  rw [program_get h, if_pos ⟨h3, by omega⟩]

/-- C124 fails for a descriptor from `FD_SETSIZE`, 1024, on: the loop that closes descriptors ends there, so that each
program that is run gets it. -/
theorem C124_high_violated : ∃ (t p : Tab) (j : Nat), Before t ∧ StdOpen t ∧ 3 ≤ j
    ∧ (forkchild true true true none true t).program = some p ∧ get p j = some (.given 7) := by
  refine ⟨put [some (.given 0), some (.given 1), some (.given 2)] 1030 (some (.given 7)), _, 1030, ?_, ?_, by omega, rfl, ?_⟩
  · intro j k
    rw [get_put]
    by_cases hj : j = 1030
    · rw [if_pos hj]; exact ⟨by simp, by simp⟩
    · rw [if_neg hj]
      match j with
      | 0 => exact ⟨by simp [ForkChild.get], by simp [ForkChild.get]⟩
      | 1 => exact ⟨by simp [ForkChild.get], by simp [ForkChild.get]⟩
      | 2 => exact ⟨by simp [ForkChild.get], by simp [ForkChild.get]⟩
      | j + 3 => simp [ForkChild.get]
  · intro j hj
    rw [get_put, if_neg (by omega)]
    match j, hj with
    | 0, _ => simp [ForkChild.get]
    | 1, _ => simp [ForkChild.get]
    | 2, _ => simp [ForkChild.get]
  · decide +kernel

/-- **C124, in part.** A standard descriptor that burp does not want is the one that burp itself has. If the three are
open. -/
theorem C124_inherit_partial (i o e forks : Bool) (fails : Option Nat) (t p : Tab) (hs : StdOpen t)
    (h : (forkchild i o e fails forks t).program = some p) :
    (i = false → get p 0 = get t 0) ∧ (o = false → get p 1 = get t 1) ∧ (e = false → get p 2 = get t 2) := by
  rw [program_get h, program_get h, program_get h]
  have a := maybePipe_spec i 0 t
  have b := maybePipe_spec o 1 (maybePipe i 0 t).2
  have c := maybePipe_spec e 2 (maybePipe o 1 (maybePipe i 0 t).2).2
  exact inherit_aux hs a b c

/-- C124 fails if standard input is closed when burp runs a program whose output it wants: the program then reads, as
its standard input, what it writes itself. -/
theorem C124_loop_violated : ∃ p : Tab,
    (forkchild false true false none true [none, some (.given 1), some (.given 2)]).program = some p
    ∧ get p 0 = some (.reads 1) ∧ get p 1 = some (.writes 1) := by
  refine ⟨_, rfl, ?_, ?_⟩ <;> decide +kernel

/-- **C124.** When the program has been started, or could not be, the caller has the other ends of the pipes that it
wants and no others; each descriptor that was open is as it was, and nothing else is open. If the pipes could be made. -/
theorem C124_parent (i o e forks : Bool) (t : Tab) :
    let r := forkchild i o e none forks t
    (i = true → ∃ a, r.sin = some a ∧ get r.parent a = some (.writes 0))
    ∧ (o = true → ∃ a, r.sout = some a ∧ get r.parent a = some (.reads 1))
    ∧ (e = true → ∃ a, r.serr = some a ∧ get r.parent a = some (.reads 2))
    ∧ (∀ j, get t j ≠ none → get r.parent j = get t j)
    ∧ (∀ j, get r.parent j ≠ none → get t j ≠ none ∨ r.sin = some j ∨ r.sout = some j ∨ r.serr = some j) := by
  have a := maybePipe_spec i 0 t
  have b := maybePipe_spec o 1 (maybePipe i 0 t).2
  have c := maybePipe_spec e 2 (maybePipe o 1 (maybePipe i 0 t).2).2
  have hp : ∀ j, get (forkchild i o e none forks t).parent j = _ := fun j => parent_get i o e forks t j
  simp only [hp, parent_sin, parent_sout, parent_serr]
  exact parent_aux a b c

/-- C124 fails if the second pipe cannot be made: the first one is not closed, so that each try takes two more of the
descriptors that burp may have. -/
theorem C124_leak_violated : ∃ t : Tab, Before t ∧ StdOpen t
    ∧ (forkchild true true true (some 1) true t).sin = none
    ∧ get t 3 = none ∧ get (forkchild true true true (some 1) true t).parent 3 = some (.reads 0)
    ∧ get t 4 = none ∧ get (forkchild true true true (some 1) true t).parent 4 = some (.writes 0) := by
  refine ⟨[some (.given 0), some (.given 1), some (.given 2)], ?_, ?_, rfl, rfl, rfl, rfl, rfl⟩
  · intro j k
    match j with
    | 0 => exact ⟨by simp [ForkChild.get], by simp [ForkChild.get]⟩
    | 1 => exact ⟨by simp [ForkChild.get], by simp [ForkChild.get]⟩
    | 2 => exact ⟨by simp [ForkChild.get], by simp [ForkChild.get]⟩
    | j + 3 => simp [ForkChild.get]
  · intro j hj
    match j, hj with
    | 0, _ => simp [ForkChild.get]
    | 1, _ => simp [ForkChild.get]
    | 2, _ => simp [ForkChild.get]

/-- **C124.** Burp keeps no copy of an end that is the program's, so that it sees the end of the output when the program
has gone, and gets an error when it writes to a program that has gone. -/
theorem C124_ends (i o e forks : Bool) (t : Tab) (hb : Before t) (j : Nat) :
    get (forkchild i o e none forks t).parent j ≠ some (.reads 0)
    ∧ get (forkchild i o e none forks t).parent j ≠ some (.writes 1)
    ∧ get (forkchild i o e none forks t).parent j ≠ some (.writes 2) := by
  have a := maybePipe_spec i 0 t
  have b := maybePipe_spec o 1 (maybePipe i 0 t).2
  have c := maybePipe_spec e 2 (maybePipe o 1 (maybePipe i 0 t).2).2
  rw [parent_get]
  exact ends_aux hb a b c j

/-- **C124, in part.** The program has no copy of an end that is burp's, so that it sees the end of its input when burp
closes it. If standard input, output and error were open, and for descriptors below `FD_SETSIZE`. -/
theorem C124_eof_partial (i o e forks : Bool) (fails : Option Nat) (t p : Tab) (hb : Before t) (hs : StdOpen t)
    (h : (forkchild i o e fails forks t).program = some p) (j : Nat) (hj : j < 1024) :
    get p j ≠ some (.writes 0) ∧ get p j ≠ some (.reads 1) ∧ get p j ≠ some (.reads 2) := by
  have a := maybePipe_spec i 0 t
  have b := maybePipe_spec o 1 (maybePipe i 0 t).2
  have c := maybePipe_spec e 2 (maybePipe o 1 (maybePipe i 0 t).2).2
  rw [program_get h]
  exact eof_aux hb hs a b c j hj

/-- A program is run: the conditions of the theorems above can be met. -/
example : ∃ p, (forkchild true true true none true [some (.given 0), some (.given 1), some (.given 2), some (.given 9)]).program = some p
    ∧ get p 0 = some (.reads 0) ∧ get p 1 = some (.writes 1) ∧ get p 2 = some (.writes 2) ∧ get p 3 = none := by
  refine ⟨_, rfl, ?_, ?_, ?_, ?_⟩ <;> decide +kernel

end Verif
