import Verif.Props.ExchangeStall

/-!
# C98: cases
-/

namespace Verif
open Transfer Exchange
open Interrupt hiding Sys Step Run Inv

namespace Exchange

/-- Every run can be continued until nothing more can happen. -/
theorem runs_on (room : Room) (s : Sys) : ∃ n t, Steps room n s t ∧ Stuck room t := by
  have key : ∀ k s, work s ≤ k → ∃ n t, Steps room n s t ∧ Stuck room t := by
    intro k
    induction k with
    | zero =>
      intro s hk
      refine ⟨0, s, .refl s, ?_⟩
      intro t ht
      have := step_work room ht
      omega
    | succ k ih =>
      intro s hk
      by_cases hs : Stuck room s
      · exact ⟨0, s, .refl s, hs⟩
      · simp only [Stuck] at hs
        obtain ⟨t, ht⟩ := Classical.not_forall.1 hs
        have ht := Classical.not_not.1 ht
        have := step_work room ht
        obtain ⟨n, u, h1, h2⟩ := ih t (by omega)
        exact ⟨1 + n, u, steps_trans room ((Steps.refl s).step ht) h1, h2⟩
  exact key _ s (Nat.le_refl _)

/-- A file that is sent as a delta: its signature has two pieces, its delta one, with a warning in between. -/
def deltaFile : Ask × Ans :=
  (⟨.file, bytes "/c", bytes "C", some (bytes "t/c", [bytes "s1", bytes "s2"])⟩,
    ⟨bytes "C2", [⟨.warning, bytes "w"⟩],
      some ([⟨.append, bytes "delta"⟩, ⟨.warning, bytes "v"⟩, ⟨.endFile, bytes "9:sum"⟩], .ok)⟩)

/-- A file that breaks off. -/
def brokenFile : Ask × Ans :=
  (⟨.encFile, bytes "/d", bytes "D", none⟩, ⟨bytes "D", [], some ([⟨.append, bytes "half"⟩], .error)⟩)

theorem deltaFile_fine : JobFine deltaFile := by
  refine ⟨⟨.inl rfl, fun _ => rfl, ?_, ?_⟩, ?_, ?_, ?_⟩
  · intro o ho
    simp only [deltaFile, Option.some.injEq] at ho
    subst ho
    decide
  · unfold Small; decide +kernel
  · unfold Noise; decide
  · intro b hb
    simp only [deltaFile, Option.some.injEq] at hb
    subst hb
    exact .inl ⟨rfl, [⟨.append, bytes "delta"⟩], ⟨.endFile, bytes "9:sum"⟩, by decide,
      by unfold Contents; decide, rfl⟩
  · unfold Small; decide +kernel

theorem brokenFile_fine : JobFine brokenFile := by
  refine ⟨⟨.inl rfl, by decide, ?_, ?_⟩, ?_, ?_, ?_⟩
  · intro o ho
    simp [brokenFile] at ho
  · unfold Small; decide +kernel
  · simp [brokenFile]
  · intro b hb
    simp only [brokenFile, Option.some.injEq] at hb
    subst hb
    refine .inr ⟨⟨rfl, ?_⟩, rfl⟩
    unfold Contents; decide
  · unfold Small; decide +kernel

/-- Three files: one vanishes, one breaks off, one is sent as a delta. -/
def mixed : List (Ask × Ans) := [changedFile 2, brokenFile, deltaFile]

theorem mixed_fine : ∀ j ∈ mixed, JobFine j := by
  intro j hj
  simp only [mixed, List.mem_cons, List.not_mem_nil, or_false] at hj
  rcases hj with rfl | rfl | rfl
  · exact changedFile_fine 2
  · exact brokenFile_fine
  · exact deltaFile_fine

end Exchange

/-- The files of the case come to an end through a network that holds one message each way, with just the delta
saved. -/
example : ∃ n s, Steps ⟨0, 0⟩ n (begin_ mixed) s ∧ Stuck ⟨0, 0⟩ s ∧ s.verdict = .done ∧
    s.srv.saved.map shown =
      [(.file, bytes "/c", some (bytes "C2"), bytes "delta", bytes "9:sum", some (bytes "t/c"))] := by
  obtain ⟨n, t, h1, h2⟩ := runs_on ⟨0, 0⟩ (begin_ mixed)
  obtain ⟨h3, h4⟩ := C98_completes_partial ⟨0, 0⟩ mixed mixed_fine (.inr (by decide +kernel)) n t h1 h2
  refine ⟨n, t, h1, h2, h3, ?_⟩
  rw [h4]
  rfl

/-- The same, and all of it has been read. -/
example : ∃ n s, Steps ⟨0, 0⟩ n (begin_ mixed) s ∧ s.verdict = .done ∧ s.cli.mode = .over ∧ s.up = [] := by
  obtain ⟨n, t, h1, h2⟩ := runs_on ⟨0, 0⟩ (begin_ mixed)
  obtain ⟨h3, _⟩ := C98_completes_partial ⟨0, 0⟩ mixed mixed_fine (.inr (by decide +kernel)) n t h1 h2
  obtain ⟨_, _, _, _, h4, _, _, h5⟩ := C98_all_answered_partial ⟨0, 0⟩ mixed mixed_fine n t h1 h3
  exact ⟨n, t, h1, h3, h4, h5⟩

/-- The stall, with a network that holds 64 kilobytes each way. -/
example : ∃ jobs : List (Ask × Ans), (∀ j ∈ jobs, JobFine j) ∧ ∃ n s, Steps ⟨65536, 65536⟩ n (begin_ jobs) s ∧
    Stuck ⟨65536, 65536⟩ s ∧ s.verdict = .running := by
  obtain ⟨jobs, h1, n, s, h2, h3, h4, _⟩ := C98_stall_violated ⟨65536, 65536⟩ (by decide)
  exact ⟨jobs, h1, n, s, h2, h3, h4⟩

end Verif
