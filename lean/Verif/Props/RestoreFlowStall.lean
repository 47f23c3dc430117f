import Verif.Props.RestoreFlow

/-!
# C99: where the two sides wait for each other
-/

namespace Verif
open Transfer RestoreFlow
open Verif.Exchange (bufMax wire load fits carries Room Small load_append load_suffix fits_nil)

namespace RestoreFlow

theorem steps_trans (room : Room) {n m : Nat} {s t u : Sys} (h : Steps room n s t) (h' : Steps room m t u) :
    Steps room (n + m) s u := by
  induction h' with
  | refl => exact h
  | step _ hs ih => exact (ih h).step hs

/-- What holds as long as the server reads nothing and the client has not read all of what comes before `y`, about
which it says `W`. -/
structure Deaf (room : Room) (y W : List Msg) (s : Sys) : Prop where
  parts : ∃ x, toRead s = x ++ y ∧ s.up ++ (s.cout ++ future s.cli x) = W
  up : load s.up ≤ room.up + bufMax
  cout : load s.cout ≤ bufMax
  down : load s.down ≤ room.down + bufMax
  out : load s.out ≤ bufMax

theorem small_wire (m : Msg) (h : Small m) : wire m ≤ bufMax := by
  unfold Small Exchange.wire at *
  omega

theorem load_one (m : Msg) : load [m] = wire m := by simp [load]

theorem fits_load (buf : List Msg) (m : Msg) (h : fits buf m) : load (buf ++ [m]) ≤ bufMax := by
  unfold fits at h
  rw [load_append, load_one, Exchange.wire]
  omega

theorem carries_load (cap : Nat) (net : List Msg) (m : Msg) (h : carries cap net m) (hs : Small m) :
    load (net ++ [m]) ≤ cap + bufMax := by
  have := small_wire m hs
  rw [load_append, load_one]
  rcases h with h | h
  · rw [h]
    simp only [load, List.map_nil, List.sum_nil]
    omega
  · omega

theorem load_tail (m : Msg) (ms : List Msg) : load ms ≤ load (m :: ms) := by simp [load]

/-- A step at which the server reads nothing. -/
theorem deaf_step (room : Room) (A y W : List Msg) (E : List (Str × Option (List Str))) (L : Nat)
    (hsm : ∀ m ∈ A, Small m) (hW : room.up + 2 * bufMax < load W) {s t : Sys} (hi : Going A E L s)
    (hd : Deaf room y W s) (h : Step room s t) (hu : s.up.length ≤ t.up.length) : Deaf room y W t := by
  obtain ⟨⟨x, p1, p2⟩, d1, d2, d3, d4⟩ := hd
  cases h with
  | say m ops hv ho hf =>
    refine ⟨⟨x, ?_, p2⟩, d1, d2, d3, fits_load _ _ hf⟩
    rw [← p1]
    simp [toRead, ho, sayMsgs_say]
  | nothing d ops hv ho =>
    refine ⟨⟨x, ?_, p2⟩, d1, d2, d3, d4⟩
    rw [← p1]
    simp [toRead, ho, sayMsgs_look]
  | look d ops m ms hv ho hup =>
    exfalso
    have : (during { s with up := ms } d ops m).up = ms := by
      unfold during
      cases Interrupt.doQuickRead d (some m) <;> rfl
    rw [this, hup, List.length_cons] at hu
    omega
  | drained ops hv ho =>
    refine ⟨⟨x, ?_, p2⟩, d1, d2, d3, d4⟩
    rw [← p1]
    simp [toRead, ho, sayMsgs_drain]
  | drain ops m ms hv ho hup =>
    exfalso
    have : (between { s with up := ms } m).up = ms := by
      unfold between
      by_cases h : m.cmd = .message ∨ m.cmd = .warning ∨ m.cmd = .interrupt <;> simp [h]
    rw [this, hup, List.length_cons] at hu
    omega
  | receive m ms hv ho hup =>
    exfalso
    have : (atEnd { s with up := ms } m).up = ms := by
      unfold atEnd
      by_cases h1 : m.cmd = .gen
      · rw [if_pos h1]
        by_cases h2 : m.buf = bytes "restoreend ok" ∨ m.buf = bytes "restoreend_ok"
        · rw [if_pos h2]
        · rw [if_neg h2]
      · rw [if_neg h1]
        by_cases h2 : m.cmd = .warning ∨ m.cmd = .message ∨ m.cmd = .interrupt
        · rw [if_pos h2]
        · rw [if_neg h2]
    rw [this, hup, List.length_cons] at hu
    omega
  | flush m ms hv ho hc =>
    refine ⟨⟨x, ?_, p2⟩, d1, d2, carries_load _ _ _ hc ?_, ?_⟩
    · rw [← p1]
      simp [toRead, ho]
    · apply hi.small
      simp [toRead, ho]
    · have := load_tail m ms
      rw [ho] at d4
      exact Nat.le_trans this d4
  | read m ms hp h1 h2 hdn =>
    have hld := load_tail m ms
    rw [hdn] at d3
    cases x with
    | nil =>
      -- all that the client has said is underway, for which there is no room
      exfalso
      rw [future, hp] at p2
      rw [← p2, List.append_nil, load_append] at hW
      omega
    | cons m' x =>
      have e : toRead s = m :: (ms ++ (s.out ++ sayMsgs s.ops)) := by simp [toRead, hdn]
      rw [e, List.cons_append] at p1
      injection p1 with q1 q2
      subst q1
      refine ⟨⟨x, q2, ?_⟩, d1, d2, Nat.le_trans hld d3, d4⟩
      rw [← p2, future, hp, strip_of_nil _ hp]
      rfl
  | write m ms hp hf =>
    refine ⟨⟨x, p1, ?_⟩, d1, fits_load _ _ hf, d3, d4⟩
    rw [← p2, future_split s.cli, hp, future_pend s.cli ms]
    simp
  | cflush m ms hc hcu =>
    have hm : Small m := by
      apply hsm
      apply hi.suffix.subset
      simp [toTake, hc]
    have hld := load_tail m ms
    rw [hc] at d2
    refine ⟨⟨x, p1, ?_⟩, carries_load _ _ _ hcu hm, Nat.le_trans hld d2, d3, d4⟩
    rw [← p2, hc]
    simp

/-- If the server reads nothing for long enough, the two sides come to wait for each other. -/
theorem deaf_stuck (room : Room) (A y W : List Msg) (hA : Answers A) (hsm : ∀ m ∈ A, Small m)
    (E : List (Str × Option (List Str))) (L : Nat)
    (hW : room.up + 2 * bufMax < load W) (hy : room.down + 2 * bufMax < load y) :
    ∀ k s, work s ≤ k → Going A E L s → Deaf room y W s →
      ∃ n t, Steps room n s t ∧ Stuck room t ∧ t.verdict = .running := by
  have noOver : ∀ s, Deaf room y W s → ¬ Over E s := by
    intro s hd ho
    obtain ⟨x, p1, _⟩ := hd.parts
    have : toRead s = [] := by simp [toRead, ho.ops, ho.out, ho.down, sayMsgs]
    rw [this] at p1
    have hn := (List.append_eq_nil_iff.1 p1.symm).2
    rw [hn] at hy
    simp [load] at hy
  intro k
  induction k with
  | zero =>
    intro s hk hi hd
    refine ⟨0, s, .refl s, ?_, hi.running⟩
    intro t ht
    have := step_work room ht
    omega
  | succ k ih =>
    intro s hk hi hd
    by_cases hex : ∃ t, Step room s t ∧ s.up.length ≤ t.up.length
    · obtain ⟨t, ht, hu⟩ := hex
      have hw := step_work room ht
      have hd' := deaf_step room A y W E L hsm hW hi hd ht hu
      have hi' : Going A E L t := by
        rcases inv_step room A hA E L ht (.inl hi) with h | h
        · exact h
        · exact absurd h (noOver t hd')
      obtain ⟨n, u, h1, h2, h3⟩ := ih t (by omega) hi' hd'
      exact ⟨_, u, steps_trans room ((Steps.refl s).step ht) h1, h2, h3⟩
    · refine ⟨0, s, .refl s, ?_, hi.running⟩
      have hno : ∀ t, Step room s t → ¬ s.up.length ≤ t.up.length := fun t ht hu => hex ⟨t, ht, hu⟩
      intro t ht
      -- the server is not at a place where it reads
      have hop : ∃ m ops, s.ops = .say m :: ops := by
        cases hop : s.ops with
        | nil =>
          exfalso
          obtain ⟨x, p1, _⟩ := hd.parts
          have e : toRead s = s.down ++ s.out := by simp [toRead, hop, sayMsgs]
          rw [e] at p1
          have h1 : load (s.down ++ s.out) = load x + load y := by rw [p1, load_append]
          rw [load_append] at h1
          have := hd.down
          have := hd.out
          omega
        | cons o ops =>
          cases o with
          | say m => exact ⟨m, ops, rfl⟩
          | look d => exact (hno _ (.nothing s d ops hi.running hop) (Nat.le_refl _)).elim
          | drain => exact (hno _ (.drained s ops hi.running hop) (Nat.le_refl _)).elim
      obtain ⟨m0, ops0, hop⟩ := hop
      have := hno t ht
      cases ht with
      | say m ops hv ho hf => exact this (Nat.le_refl _)
      | nothing d ops hv ho => rw [hop] at ho; simp at ho
      | look d ops m ms hv ho hup => rw [hop] at ho; simp at ho
      | drained ops hv ho => rw [hop] at ho; simp at ho
      | drain ops m ms hv ho hup => rw [hop] at ho; simp at ho
      | receive m ms hv ho hup => rw [hop] at ho; simp at ho
      | flush m ms hv ho hc => exact this (Nat.le_refl _)
      | read m ms hp h1 h2 hdn => exact this (Nat.le_refl _)
      | write m ms hp hf => exact this (Nat.le_refl _)
      | cflush m ms hc hcu => exact this (by simp)

/-- What the client makes of some entries, without the end. -/
theorem entries_part (es : List Entry) (he : ∀ e ∈ es, e.Fine) (rs rs' : List Reply)
    (hl : rs.length = (es.filterMap Entry.shown).length) (dp : Option Str) (p : List Msg)
    (log : List (Str × Option (List Str))) :
    future ⟨.idle, dp, rs ++ rs', p, log⟩ (sayMsgs (es.flatMap entryOps)) = p ++ answers es rs := by
  induction es generalizing rs dp p log with
  | nil => simp [sayMsgs, future, answers]
  | cons e es ih =>
    have he' := fun x hx => he x (List.mem_cons_of_mem e hx)
    rw [List.flatMap_cons, sayMsgs_append, future_append]
    cases hs : e.shown with
    | none =>
      obtain ⟨dp', k1, k2⟩ := entry_none e hs dp (rs ++ rs') p log
      rw [k1, k2]
      rw [List.filterMap_cons, hs] at hl
      rw [answers_none e es rs hs]
      exact congrArg (p ++ ·) (ih he' rs hl dp' [] log)
    | some pc =>
      obtain ⟨path, content⟩ := pc
      rw [List.filterMap_cons, hs] at hl
      cases rs with
      | nil => simp at hl
      | cons r rs =>
        obtain ⟨dp', p', k1, k2⟩ := entry_some e (he e (by simp)) path content hs dp r (rs ++ rs') p log
        rw [List.cons_append, k1, k2]
        have i3 := ih he' rs (by simpa using hl) dp' [] (log ++ [(path, if r.refuse then none else some content)])
        rw [answers_some e es r rs _ hs]
        simp only
        rw [i3]
        simp

end RestoreFlow

/-- C99 fails: a restore may come to a point where nothing more happens although it has not ended, both sides being
in the middle of writing: if what the client has to say about the first entries is more than what its buffer and
the way to the server hold, and what follows is more than what the server's buffer and the way to the client hold.
The server reads what the client says between two entries and after each piece of a file, but it need not be there
yet at that time. -/
theorem C99_stall_violated (room : Room) (first rest : List (List Entry)) (dirs : List Entry)
    (rs rs' : List Reply) (hf : Fine (first ++ rest) dirs (rs ++ rs'))
    (hl : rs.length = (first.flatten.filterMap Entry.shown).length)
    (hsay : room.up + 2 * bufMax < load (answers first.flatten rs))
    (hsend : room.down + 2 * bufMax < load (allSaid rest dirs)) :
    ∃ n s, Steps room n (begin_ (first ++ rest) dirs (rs ++ rs')) s ∧ Stuck room s ∧ s.verdict = .running := by
  have hi := inv_begin (first ++ rest) dirs (rs ++ rs') hf
  rcases hi with hi | hi
  · refine deaf_stuck room _ (allSaid rest dirs) (answers first.flatten rs) (answers_form _ _ _)
      (fun m hm => small_answered _ _ _ hf m hm) _ _ hsay hsend _ _ (Nat.le_refl _) hi ?_
    refine ⟨⟨sayMsgs (first.flatten.flatMap entryOps), ?_, ?_⟩, ?_, ?_, ?_, ?_⟩
    · show [] ++ ([] ++ allSaid (first ++ rest) dirs) = _
      rw [allSaid_eq, allSaid_eq, List.flatten_append, List.append_assoc, List.flatMap_append, sayMsgs_append]
      simp
    · have := entries_part first.flatten
        (fun e he => hf.entries e (by rw [List.flatten_append]; simp only [List.mem_append]; exact .inl (.inl he)))
        rs rs' hl none [] []
      simpa [begin_] using this
    · simp [begin_, load]
    · simp [begin_, load]
    · simp [begin_, load]
    · simp [begin_, load]
  · exact absurd hi.done (by simp [begin_])

end Verif
