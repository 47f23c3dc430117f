import Verif.Props.RestoreFlowStall

/-!
# C99: cases
-/

namespace Verif
open Transfer RestoreFlow
open Verif.Exchange (bufMax load fits carries Room Small load_append load_suffix fits_nil)

namespace RestoreFlow

/-- Every run can be continued until nothing more can happen. -/
theorem runs_on (room : Room) (s : Sys) : ∃ n t, Steps room n s t ∧ Stuck room t := by
  have key : ∀ k s, work s ≤ k → ∃ n t, Steps room n s t ∧ Stuck room t := by
    intro k
    induction k with
    | zero =>
      intro s hk
      refine ⟨0, s, .refl s, ?_⟩
      intro t ht
      have := step_work room ht
      omega
    | succ k ih =>
      intro s hk
      by_cases hs : Stuck room s
      · exact ⟨0, s, .refl s, hs⟩
      · simp only [Stuck] at hs
        obtain ⟨t, ht⟩ := Classical.not_forall.1 hs
        have ht := Classical.not_not.1 ht
        have := step_work room ht
        obtain ⟨n, u, h1, h2⟩ := ih t (by omega)
        exact ⟨1 + n, u, steps_trans room ((Steps.refl s).step ht) h1, h2⟩
  exact key _ s (Nat.le_refl _)

/-- A link, a file that is restored, one that the server cannot find, one that the client refuses, and the directory
at the end. -/
def mixedRounds : List (List Entry) :=
  [[.link .softLink (bytes "/a/l") (bytes "A") (bytes "t")],
   [.data .file (bytes "/a/x") (bytes "B") (bytes "t/x") [bytes "one", bytes "two"] (bytes "6:sum") [bytes "found"]],
   [.missing (bytes "C") (bytes "t/y") (bytes "not found")],
   [.data .encFile (bytes "/a/z") (bytes "D") (bytes "t/z") [bytes "three", bytes "four"] (bytes "9:sum") []]]

/-- See `mixedRounds`. -/
def mixedDirs : List Entry := [.plain .directory (bytes "/a") (bytes "E")]

/-- See `mixedRounds`. -/
def mixedReplies : List Reply :=
  [{}, { warns := [bytes "w1"], after := [bytes "w2"] }, { refuse := true, warns := [bytes "Path exists"] },
   { warns := [bytes "w3"] }]

theorem mixed_fine : Fine mixedRounds mixedDirs mixedReplies := by
  refine ⟨?_, by decide +kernel, by decide +kernel, by unfold Small; decide +kernel⟩
  intro e he
  simp only [mixedRounds, mixedDirs, List.flatten_cons, List.flatten_nil, List.append_nil, List.cons_append,
    List.nil_append, List.mem_cons, List.not_mem_nil, or_false] at he
  rcases he with rfl | rfl | rfl | rfl | rfl
  · exact ⟨rfl, by unfold Small; decide +kernel⟩
  · exact ⟨⟨.inl rfl, by decide, by decide⟩, by unfold Small; decide +kernel⟩
  · exact ⟨trivial, by unfold Small; decide +kernel⟩
  · exact ⟨⟨.inl rfl, by decide, by decide⟩, by unfold Small; decide +kernel⟩
  · exact ⟨.inl rfl, by unfold Small; decide +kernel⟩

/-- A special file that the client has something to say about. -/
def oddFile : List Entry := [.plain .special (bytes "/s") (bytes "A")]

/-- See `oddFile`. -/
def oddReply : Reply := { warns := [bytes "w"] }

/-- See `oddFile`. -/
def quietReply : Reply := {}

/-- A file with so many pieces. -/
def longFile (n : Nat) : List Entry :=
  [.data .file (bytes "/t") (bytes "B") (bytes "t/t") (List.replicate n (bytes "x")) (bytes "e") []]

theorem odd_shown (k : Nat) : ((List.replicate k oddFile).flatten.filterMap Entry.shown).length = k := by
  induction k with
  | zero => rfl
  | succ k ih =>
    rw [List.replicate_succ, List.flatten_cons, List.filterMap_append, List.length_append, ih]
    simp [oddFile, Entry.shown]
    omega

theorem odd_answers (k : Nat) (es : List Entry) (rs : List Reply) :
    answers ((List.replicate k oddFile).flatten ++ es) (List.replicate k oddReply ++ rs) =
      List.replicate k ⟨.warning, bytes "w"⟩ ++ answers es rs := by
  induction k with
  | zero => rfl
  | succ k ih =>
    have e : (List.replicate (k + 1) oddFile).flatten ++ es =
        .plain .special (bytes "/s") (bytes "A") :: ((List.replicate k oddFile).flatten ++ es) := by
      rw [List.replicate_succ, List.flatten_cons]
      rfl
    rw [e, List.replicate_succ (a := oddReply), List.cons_append, answers_some _ _ _ _ (bytes "/s", []) rfl, ih,
      List.replicate_succ, List.cons_append]
    rfl

theorem load_replicate (n : Nat) (m : Msg) : load (List.replicate n m) = n * Exchange.wire m := by
  induction n with
  | zero => simp [load]
  | succ n ih =>
    have : load (m :: List.replicate n m) = Exchange.wire m + load (List.replicate n m) := by simp [load]
    rw [List.replicate_succ, this, ih, Nat.add_mul]
    omega

theorem longFile_say (n : Nat) : sayMsgs (entryOps (.data .file (bytes "/t") (bytes "B") (bytes "t/t")
      (List.replicate n (bytes "x")) (bytes "e") [])) =
    [⟨.datapth, bytes "t/t"⟩, ⟨.attribs, bytes "B"⟩, ⟨.file, bytes "/t"⟩] ++
      (List.replicate n ⟨.append, bytes "x"⟩ ++ [⟨.endFile, bytes "e"⟩]) := by
  have h : sayMsgs ((List.replicate n (bytes "x")).flatMap (fun p => [Op.say ⟨.append, p⟩, .look (bytes "t/t")])) =
      List.replicate n ⟨.append, bytes "x"⟩ := by
    induction n with
    | zero => rfl
    | succ n ih =>
      rw [List.replicate_succ, List.flatMap_cons, sayMsgs_append, ih]
      rfl
  rw [entryOps, sayMsgs_append, sayMsgs_append, h]
  rfl

theorem longFile_head : ∀ m ∈ ([⟨.datapth, bytes "t/t"⟩, ⟨.attribs, bytes "B"⟩, ⟨.file, bytes "/t"⟩] : List Msg),
    Small m := by
  unfold Small
  decide +kernel

theorem odd_fine (k n : Nat) :
    Fine (List.replicate k oddFile ++ [longFile n]) [] (List.replicate k oddReply ++ [quietReply]) := by
  refine ⟨?_, ?_, ?_, ?_⟩
  · intro e he
    rw [List.append_nil, List.flatten_append, List.mem_append] at he
    rcases he with he | he
    · rw [List.mem_flatten] at he
      obtain ⟨l, h1, h2⟩ := he
      rw [List.eq_of_mem_replicate h1] at h2
      simp only [oddFile, List.mem_singleton] at h2
      rw [h2]
      exact ⟨.inr rfl, by unfold Small; decide +kernel⟩
    · simp only [longFile, List.flatten_cons, List.flatten_nil, List.append_nil, List.mem_singleton] at he
      subst he
      refine ⟨⟨.inl rfl, by decide, by decide⟩, ?_⟩
      intro m hm
      rw [longFile_say] at hm
      rcases List.mem_append.1 hm with hm | hm
      · exact longFile_head m hm
      · rcases List.mem_append.1 hm with hm | hm
        · rw [List.eq_of_mem_replicate hm]
          unfold Small
          decide +kernel
        · rw [List.mem_singleton] at hm
          rw [hm]
          unfold Small
          decide +kernel
  · have : (List.replicate k oddFile).flatten.filterMap Entry.dpth = [] := by
      induction k with
      | zero => rfl
      | succ k ih =>
        rw [List.replicate_succ, List.flatten_cons, List.filterMap_append, ih]
        rfl
    rw [List.append_nil, List.flatten_append, List.filterMap_append, this]
    simp [longFile, Entry.dpth]
  · rw [List.append_nil, List.flatten_append, List.filterMap_append, List.length_append, List.length_append, odd_shown,
      List.length_replicate]
    simp [longFile, Entry.shown]
  · intro m hm
    rw [List.append_nil, List.flatten_append, odd_answers] at hm
    rcases List.mem_append.1 hm with hm | hm
    · rw [List.eq_of_mem_replicate hm]
      unfold Small
      decide +kernel
    · simp [longFile, answers, Entry.shown, answer, says, quietReply] at hm

end RestoreFlow

/-- The entries of the case come to an end through a network that holds one message each way. -/
example : ∃ n s, Steps ⟨0, 0⟩ n (begin_ mixedRounds mixedDirs mixedReplies) s ∧ Stuck ⟨0, 0⟩ s ∧
    s.verdict = .done ∧ s.up = [] ∧
    s.cli.log = [(bytes "/a/l", some [bytes "t"]), (bytes "/a/x", some [bytes "one", bytes "two"]),
      (bytes "/a/z", none), (bytes "/a", some [])] := by
  obtain ⟨n, t, h1, h2⟩ := runs_on ⟨0, 0⟩ (begin_ mixedRounds mixedDirs mixedReplies)
  obtain ⟨h3, h4⟩ := C99_completes_partial ⟨0, 0⟩ _ _ _ mixed_fine (.inr (.inl (by decide +kernel))) n t h1 h2
  obtain ⟨_, _, _, _, _, _, h5⟩ := C99_all_read_partial ⟨0, 0⟩ _ _ _ mixed_fine n t h1 h3
  refine ⟨n, t, h1, h2, h3, h5, ?_⟩
  rw [h4]
  decide +kernel

/-- What the client says about them. -/
example : answers (mixedRounds.flatten ++ mixedDirs) mixedReplies =
    [⟨.warning, bytes "w1"⟩, ⟨.warning, bytes "w2"⟩, ⟨.warning, bytes "Path exists"⟩, ⟨.interrupt, bytes "t/z"⟩,
     ⟨.warning, bytes "w3"⟩] := by decide +kernel

/-- The file that is refused is broken off if the server reads of it in time. -/
example : cut [.look (bytes "t/z"), .say ⟨.append, bytes "four"⟩, .look (bytes "t/z"), .say ⟨.endFile, bytes "9:sum"⟩,
    .say RestoreFlow.endMsg] = [.say ⟨.endFile, bytes "9:sum"⟩, .say RestoreFlow.endMsg] := by decide +kernel

/-- However much the network holds, there is a restore that comes to stand still. -/
example (room : Room) : ∃ rounds dirs replies, Fine rounds dirs replies ∧
    ∃ n s, Steps room n (begin_ rounds dirs replies) s ∧ Stuck room s ∧ s.verdict = .running := by
  refine ⟨List.replicate (room.up + 2 * bufMax + 1) oddFile ++ [longFile (room.down + 2 * bufMax + 1)], [],
    List.replicate (room.up + 2 * bufMax + 1) oddReply ++ [quietReply], odd_fine _ _, ?_⟩
  refine C99_stall_violated room _ _ _ _ _ (odd_fine _ _) ?_ ?_ ?_
  · rw [odd_shown, List.length_replicate]
  · have := odd_answers (room.up + 2 * bufMax + 1) [] []
    rw [List.append_nil, List.append_nil] at this
    rw [this, load_append, load_replicate]
    have : Exchange.wire ⟨.warning, bytes "w"⟩ = 6 := by decide +kernel
    rw [this]
    omega
  · rw [allSaid_eq, load_append]
    have e : ([longFile (room.down + 2 * bufMax + 1)].flatten ++ []).flatMap entryOps =
        entryOps (.data .file (bytes "/t") (bytes "B") (bytes "t/t")
          (List.replicate (room.down + 2 * bufMax + 1) (bytes "x")) (bytes "e") []) := by
      simp [longFile]
    rw [e, longFile_say, load_append, load_append, load_replicate]
    have : Exchange.wire ⟨.append, bytes "x"⟩ = 6 := by decide +kernel
    rw [this]
    omega

end Verif
