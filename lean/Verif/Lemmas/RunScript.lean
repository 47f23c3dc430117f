import Verif.Spec.RunScript
import Verif.Lemmas.ConfFiles

namespace Verif.RunScript
open Verif.Iobuf

theorem gets_append (n : Nat) (s : Str) : (gets n s).1 ++ (gets n s).2 = s := by
  induction n generalizing s with
  | zero => rfl
  | succ n ih =>
    cases s with
    | nil => rfl
    | cons b s =>
      unfold gets
      split
      · rfl
      · simp [ih s]

theorem gets_all {n : Nat} {s : Str} (h : stopped n s = false) : (gets n s).2 = [] := by
  induction n generalizing s with
  | zero => simp [stopped] at h
  | succ n ih =>
    cases s with
    | nil => rfl
    | cons b s =>
      unfold stopped at h
      unfold gets
      split
      · rename_i hb; rw [if_pos hb] at h; simp at h
      · rename_i hb; rw [if_neg hb] at h; exact ih h

theorem gets_length (n : Nat) (s : Str) : (gets n s).1.length ≤ n := by
  induction n generalizing s with
  | zero => simp [gets]
  | succ n ih =>
    cases s with
    | nil => simp [gets]
    | cons b s =>
      unfold gets
      split
      · simp
      · simp [ih s]

theorem gets_nonempty {n : Nat} {s : Str} (h : stopped (n + 1) s = true) : (gets (n + 1) s).1 ≠ [] := by
  cases s with
  | nil => simp [stopped] at h
  | cons b s => unfold gets; split <;> simp

/-- A piece holds no newline but at its end. -/
theorem gets_newline (n : Nat) (s : Str) : newline ∉ (gets n s).1.dropLast := by
  induction n generalizing s with
  | zero => simp [gets]
  | succ n ih =>
    cases s with
    | nil => simp [gets]
    | cons b s =>
      unfold gets
      split
      · simp
      · rename_i hb
        intro hm
        cases hp : (gets n s).1 with
        | nil => simp [hp] at hm
        | cons c p =>
          simp only [hp, List.dropLast_cons₂, List.mem_cons] at hm
          rcases hm with hm | hm
          · exact hb hm.symm
          · exact ih s (by rw [hp]; exact hm)

/-- A piece that is not the whole of what was there is full or ends with a newline. -/
theorem gets_short {n : Nat} {s : Str} (h : (gets n s).2 ≠ []) :
    (gets n s).1.length = n ∨ (gets n s).1.getLast? = some newline := by
  induction n generalizing s with
  | zero => left; simp [gets]
  | succ n ih =>
    cases s with
    | nil => simp [gets] at h
    | cons b s =>
      unfold gets at h ⊢
      split
      · rename_i hb; right; simp [hb]
      · rename_i hb
        rw [if_neg hb] at h
        rcases ih h with h1 | h1
        · left; simp [h1]
        · right
          cases hp : (gets n s).1 with
          | nil => simp [hp] at h1
          | cons c p => rw [hp] at h1; simpa [List.getLast?_cons_cons] using h1

/-! ## The pipes -/

/-- What burp has closed is at its end. -/
def Stream.Ok (s : Stream) : Prop := s.isOpen = false → s.held = false ∧ s.left = []

theorem readPiece_ok {s : Stream} (h : s.Ok) : (readPiece s).2.Ok := by
  unfold readPiece
  split
  · intro hc
    simp only [Bool.or_eq_false_iff] at hc
    exact ⟨hc.1, gets_all hc.2⟩
  · exact h

theorem readPiece_held (s : Stream) : (readPiece s).2.held = s.held := by
  unfold readPiece
  split <;> rfl

theorem readPiece_text (s : Stream) : ((readPiece s).1.toList).flatten ++ (readPiece s).2.left = s.left := by
  unfold readPiece
  split
  · by_cases hp : (gets room s.left).1 = []
    · simp only [hp, if_true, Option.toList]
      have := gets_append room s.left
      rw [hp] at this
      simpa using this
    · simp only [hp, if_false, Option.toList]
      simpa using gets_append room s.left
  · simp

/-- What the state says about one of the pipes, without the other. -/
theorem piecesOf_append (e : Bool) (s : State) (l : List (Bool × Str)) (r : Result) (o e' : Stream) (g : Bool) (st : Nat) :
    piecesOf e { out := o, err := e', got := g, status := st, pieces := s.pieces ++ l, result := r }
      = piecesOf e s ++ (l.filter (·.1 == e)).map (·.2) := by
  unfold piecesOf
  rw [List.filter_append, List.map_append]

theorem readFrom_same (s : State) (e isset : Bool) :
    (s.readFrom e isset).got = s.got ∧ (s.readFrom e isset).status = s.status
      ∧ (s.readFrom e isset).result = s.result := by
  unfold State.readFrom
  split
  · cases e <;> exact ⟨rfl, rfl, rfl⟩
  · exact ⟨rfl, rfl, rfl⟩

theorem readFrom_stream (s : State) (e isset : Bool) :
    (s.readFrom e isset).stream e = if isset then (readPiece (s.stream e)).2 else s.stream e := by
  unfold State.readFrom
  cases isset <;> cases e <;> rfl

theorem readFrom_other (s : State) {e e' : Bool} (isset : Bool) (h : e' ≠ e) :
    (s.readFrom e isset).stream e' = s.stream e' := by
  unfold State.readFrom
  cases isset <;> cases e <;> cases e' <;> first | rfl | exact absurd rfl h

theorem readFrom_pieces (s : State) (e isset : Bool) :
    piecesOf e (s.readFrom e isset)
      = piecesOf e s ++ (if isset then (readPiece (s.stream e)).1.toList else []) := by
  unfold State.readFrom
  cases isset
  · simp
  · cases e <;> simp only [if_true, piecesOf, List.filter_append, List.map_append] <;>
      (cases (readPiece (s.stream _)).1 <;> simp [Option.toList])

theorem readFrom_pieces_other (s : State) {e e' : Bool} (isset : Bool) (h : e' ≠ e) :
    piecesOf e' (s.readFrom e isset) = piecesOf e' s := by
  unfold State.readFrom
  cases isset
  · rfl
  · cases e <;> cases e' <;>
      first
        | exact absurd rfl h
        | (simp only [if_true, piecesOf, List.filter_append, List.map_append]
           cases (readPiece (s.stream _)).1 <;> simp [Option.toList])

theorem finish_same (s : State) : s.finish.out = s.out ∧ s.finish.err = s.err ∧ s.finish.pieces = s.pieces
    ∧ s.finish.status = s.status := by
  unfold State.finish
  split <;> exact ⟨rfl, rfl, rfl, rfl⟩

theorem finish_stream (s : State) (e : Bool) : s.finish.stream e = s.stream e := by
  unfold State.stream
  rw [(finish_same s).1, (finish_same s).2.1]

theorem finish_piecesOf (s : State) (e : Bool) : piecesOf e s.finish = piecesOf e s := by
  unfold piecesOf
  rw [(finish_same s).2.2.1]

/-- Which pipes are tried in a turn that does not fail. -/
def tried (s : State) : Sel → Bool → Bool
  | .ready o _, false => o && s.out.isOpen
  | .ready _ e, true => e && s.err.isOpen
  | .interrupted, e => (s.stream e).isOpen
  | .failed, _ => false

theorem takeTurn_eq (s : State) {sel : Sel} (h : sel ≠ .failed) :
    s.takeTurn sel = ((s.readFrom false (tried s sel false)).readFrom true (tried s sel true)).finish := by
  cases sel with
  | ready o e => rfl
  | interrupted => rfl
  | failed => exact absurd rfl h

theorem takeTurn_stream (s : State) {sel : Sel} (h : sel ≠ .failed) (e : Bool) :
    (s.takeTurn sel).stream e = if tried s sel e then (readPiece (s.stream e)).2 else s.stream e := by
  rw [takeTurn_eq s h, finish_stream]
  cases e
  · rw [readFrom_other _ _ (by decide), readFrom_stream]
  · rw [readFrom_stream, readFrom_other _ _ (by decide)]

theorem takeTurn_pieces (s : State) {sel : Sel} (h : sel ≠ .failed) (e : Bool) :
    piecesOf e (s.takeTurn sel)
      = piecesOf e s ++ if tried s sel e then (readPiece (s.stream e)).1.toList else [] := by
  rw [takeTurn_eq s h, finish_piecesOf]
  cases e
  · rw [readFrom_pieces_other _ _ (by decide), readFrom_pieces]
  · rw [readFrom_pieces, readFrom_pieces_other _ _ (by decide), readFrom_other _ _ (by decide)]

/-- A turn, as one pipe sees it: nothing, or one piece. -/
theorem turn_cases (s : State) (sel : Sel) (e : Bool) :
    ((step s (.turn sel)).stream e = s.stream e ∧ piecesOf e (step s (.turn sel)) = piecesOf e s)
    ∨ ((step s (.turn sel)).stream e = (readPiece (s.stream e)).2
        ∧ piecesOf e (step s (.turn sel)) = piecesOf e s ++ (readPiece (s.stream e)).1.toList) := by
  unfold step
  simp only
  split
  · by_cases hf : sel = .failed
    · subst hf; left; exact ⟨rfl, rfl⟩
    · rw [takeTurn_stream s hf, takeTurn_pieces s hf]
      cases tried s sel e
      · left; simp
      · right; simp
  · left; exact ⟨rfl, rfl⟩

/-! ## What is read is what was written -/

def Ok (s : State) : Prop := ∀ e, (s.stream e).Ok

theorem ok_start (g : Bool) (st : Nat) : Ok (start g st) := by
  intro e h
  cases e <;> simp [start, State.stream] at h

theorem write_isOpen (s : Stream) (b : Str) : (s.write b).isOpen = s.isOpen := by
  unfold Stream.write; split <;> rfl

theorem write_ok {s : Stream} (h : s.Ok) (b : Str) : (s.write b).Ok := by
  intro hc
  rw [write_isOpen] at hc
  have := h hc
  unfold Stream.write
  rw [if_neg (by rw [this.1]; simp)]
  exact this

theorem ok_step {s : State} (h : Ok s) (ev : Ev) : Ok (step s ev) := by
  intro e
  cases ev with
  | writes e' b =>
    have h1 := h e
    cases e' <;> cases e <;> first | exact h1 | exact write_ok h1 b
  | closes e' =>
    have h1 := h e
    cases e' <;> cases e <;> simp only [step, State.stream] at * <;>
      first
        | exact h1
        | (intro hc; exact ⟨rfl, (h1 hc).2⟩)
  | ended st =>
    have h1 := h e
    unfold step
    simp only
    split
    · exact h1
    · exact h1
  | turn sel =>
    rcases turn_cases s sel e with ⟨h1, -⟩ | ⟨h1, -⟩
    · rw [h1]; exact h e
    · rw [h1]; exact readPiece_ok (h e)

theorem ok_run {s : State} (h : Ok s) (evs : List Ev) : Ok (run s evs) := by
  induction evs generalizing s with
  | nil => exact h
  | cons ev evs ih => exact ih (ok_step h ev)

theorem text_step (s : State) (ev : Ev) (evs : List Ev) (e : Bool) :
    text e (step s ev) ++ ((step s ev).stream e).left
        ++ (if ((step s ev).stream e).held then written e evs else [])
      = text e s ++ (s.stream e).left ++ (if (s.stream e).held then written e (ev :: evs) else []) := by
  cases ev with
  | writes e' b =>
    cases e' <;> cases e <;>
      simp only [step, State.stream, text, piecesOf, written, Stream.write, Bool.false_eq_true,
        Bool.true_eq_false, if_true, if_false] <;>
      (split <;> simp_all)
  | closes e' =>
    cases e' <;> cases e <;>
      simp [step, State.stream, text, piecesOf, written]
  | ended st =>
    unfold step
    simp only [written]
    split <;> rfl
  | turn sel =>
    simp only [written]
    rcases turn_cases s sel e with ⟨h1, h2⟩ | ⟨h1, h2⟩
    · rw [h1]; unfold text; rw [h2]
    · rw [h1, readPiece_held]; unfold text; rw [h2, List.flatten_append]
      have := readPiece_text (s.stream e)
      simp only [List.append_assoc] at *
      rw [← List.append_assoc _ (readPiece (s.stream e)).2.left, this]

theorem text_run (s : State) (evs : List Ev) (e : Bool) :
    text e (run s evs) ++ ((run s evs).stream e).left
      = text e s ++ (s.stream e).left ++ (if (s.stream e).held then written e evs else []) := by
  induction evs generalizing s with
  | nil => simp [run, written]
  | cons ev evs ih =>
    have h : run s (ev :: evs) = run (step s ev) evs := rfl
    rw [h, ih, text_step]

/-! ## How it ends -/

/-- What the flags say. -/
structure Flags (st : Nat) (s : State) : Prop where
  got : s.got = true → s.status = st
  fin : s.result = .finished → s.status = st ∧ s.out.isOpen = false ∧ s.err.isOpen = false ∧ s.got = false

theorem flags_finish {st : Nat} {s : State} (h : s.got = true → s.status = st) (hw : s.result = .waiting) :
    Flags st s.finish := by
  unfold State.finish
  split
  · rename_i hc
    simp only [Bool.and_eq_true, Bool.not_eq_true'] at hc
    exact ⟨by simp, fun _ => ⟨h hc.2, hc.1.1, hc.1.2, rfl⟩⟩
  · exact ⟨h, by rw [hw]; simp⟩

theorem flags_step {st : Nat} {s : State} (h : Flags st s) (ev : Ev) (he : ∀ x, ev = .ended x → x = st) :
    Flags st (step s ev) := by
  cases ev with
  | writes e b =>
    cases e
    · refine ⟨h.got, fun hf => ?_⟩
      have := h.fin hf
      exact ⟨this.1, (write_isOpen _ _).trans this.2.1, this.2.2⟩
    · refine ⟨h.got, fun hf => ?_⟩
      have := h.fin hf
      exact ⟨this.1, this.2.1, (write_isOpen _ _).trans this.2.2.1, this.2.2.2⟩
  | closes e => cases e <;> exact ⟨h.got, h.fin⟩
  | ended x =>
    unfold step
    simp only
    split
    · rename_i hw
      exact ⟨fun _ => he x rfl, fun hf => by rw [hw] at hf; cases hf⟩
    · exact h
  | turn sel =>
    unfold step
    simp only
    split
    · rename_i hw
      by_cases hf : sel = .failed
      · subst hf; exact ⟨h.got, by simp [State.takeTurn]⟩
      · rw [takeTurn_eq s hf]
        apply flags_finish
        · rw [(readFrom_same _ _ _).1, (readFrom_same _ _ _).1, (readFrom_same _ _ _).2.1,
            (readFrom_same _ _ _).2.1]
          exact h.got
        · rw [(readFrom_same _ _ _).2.2, (readFrom_same _ _ _).2.2]; exact hw
    · exact h

theorem flags_run {st : Nat} {s : State} (h : Flags st s) (evs : List Ev)
    (he : ∀ x, Ev.ended x ∈ evs → x = st) : Flags st (run s evs) := by
  induction evs generalizing s with
  | nil => exact h
  | cons ev evs ih =>
    exact ih (flags_step h ev (fun x hx => he x (by simp [hx]))) (fun x hx => he x (by simp [hx]))

theorem flags_start (st st0 : Nat) : Flags st (start false st0) :=
  ⟨by simp [start], by simp [start]⟩

/-- The flag is set only by an ended child. -/
theorem got_run {s : State} (hg : s.got = false) (hr : s.result ≠ .finished) {evs : List Ev}
    (h : ∀ x, Ev.ended x ∉ evs) : (run s evs).got = false ∧ (run s evs).result ≠ .finished := by
  induction evs generalizing s with
  | nil => exact ⟨hg, hr⟩
  | cons ev evs ih =>
    refine ih ?_ ?_ (fun x hx => h x (by simp [hx]))
    · cases ev with
      | writes e b => cases e <;> exact hg
      | closes e => cases e <;> exact hg
      | ended x => exact absurd (List.mem_cons_self) (h x)
      | turn sel =>
        unfold step
        simp only
        split
        · by_cases hf : sel = .failed
          · subst hf; exact hg
          · rw [takeTurn_eq s hf]
            unfold State.finish
            split
            · rfl
            · rw [(readFrom_same _ _ _).1, (readFrom_same _ _ _).1]; exact hg
        · exact hg
    · cases ev with
      | writes e b => cases e <;> exact hr
      | closes e => cases e <;> exact hr
      | ended x => exact absurd (List.mem_cons_self) (h x)
      | turn sel =>
        unfold step
        simp only
        split
        · rename_i hw
          by_cases hf : sel = .failed
          · subst hf; simp [State.takeTurn]
          · rw [takeTurn_eq s hf]
            unfold State.finish
            rw [if_neg]
            · rw [(readFrom_same _ _ _).2.2, (readFrom_same _ _ _).2.2]; exact hr
            · rw [(readFrom_same _ _ _).1, (readFrom_same _ _ _).1, hg]; simp
        · exact hr

/-- A pipe is let go of only by the event that says so. -/
theorem held_step (s : State) (ev : Ev) (e : Bool) (h : ev ≠ .closes e) :
    ((step s ev).stream e).held = (s.stream e).held := by
  cases ev with
  | writes e' b =>
    cases e' <;> cases e <;> simp only [step, State.stream, Stream.write, Bool.false_eq_true, if_true, if_false] <;>
      (split <;> simp_all)
  | closes e' => cases e' <;> cases e <;> first | rfl | exact absurd rfl h
  | ended x => unfold step; simp only; split <;> rfl
  | turn sel =>
    rcases turn_cases s sel e with ⟨h1, -⟩ | ⟨h1, -⟩
    · rw [h1]
    · rw [h1, readPiece_held]

theorem held_run (s : State) (evs : List Ev) (e : Bool) (h : Ev.closes e ∉ evs) :
    ((run s evs).stream e).held = (s.stream e).held := by
  induction evs generalizing s with
  | nil => rfl
  | cons ev evs ih =>
    have h' : run s (ev :: evs) = run (step s ev) evs := rfl
    rw [h', ih _ (fun hm => h (by simp [hm])), held_step s ev e (fun hm => h (by simp [hm]))]

theorem not_held_step (s : State) (ev : Ev) (e : Bool) (h : (s.stream e).held = false ∨ ev = .closes e) :
    ((step s ev).stream e).held = false := by
  by_cases hc : ev = .closes e
  · subst hc; cases e <;> rfl
  · rw [held_step s ev e hc]
    rcases h with h | h
    · exact h
    · exact absurd h hc

theorem not_held_run (s : State) (evs : List Ev) (e : Bool) (h : (s.stream e).held = false ∨ Ev.closes e ∈ evs) :
    ((run s evs).stream e).held = false := by
  induction evs generalizing s with
  | nil => rcases h with h | h; exact h; simp at h
  | cons ev evs ih =>
    refine ih (step s ev) ?_
    rcases h with h | h
    · left; exact not_held_step s ev e (Or.inl h)
    · rcases List.mem_cons.1 h with h | h
      · left; exact not_held_step s ev e (Or.inr h.symm)
      · right; exact h

/-! ## That it ends -/

/-- The bytes and ends that are still to be read. -/
def todo (s : Stream) : Nat := if s.isOpen then s.left.length + 1 else 0

theorem todo_readPiece {s : Stream} (hh : s.held = false) (ho : s.isOpen = true) :
    todo (readPiece s).2 < todo s := by
  unfold readPiece todo
  simp only [ho, if_true, hh, Bool.false_or]
  split
  · rename_i hs
    have h1 : (gets room s.left).1 ≠ [] := gets_nonempty hs
    have h2 := congrArg List.length (gets_append room s.left)
    have h3 : 0 < (gets room s.left).1.length := List.length_pos_iff.2 h1
    rw [List.length_append] at h2
    omega
  · omega

/-- Both pipes are at their end and the child has ended. -/
structure Over (s : State) : Prop where
  held : ∀ e, (s.stream e).held = false
  got : s.got = true

theorem over_turn {s : State} {sel : Sel} (h : Over s) (hw : s.result = .waiting) (hh : Honest s sel) :
    (step s (.turn sel)).result = .finished
    ∨ (Over (step s (.turn sel)) ∧ (step s (.turn sel)).result = .waiting
        ∧ todo (step s (.turn sel)).out + todo (step s (.turn sel)).err < todo s.out + todo s.err) := by
  have hf : sel ≠ .failed := by intro hc; subst hc; exact hh
  have hst : step s (.turn sel) = s.takeTurn sel := by unfold step; simp only [hw, if_true]
  have htried : ∀ e, tried s sel e = (s.stream e).isOpen := by
    intro e
    cases sel with
    | ready o e' =>
      obtain ⟨h1, h2⟩ := hh
      cases e
      · show (o && s.out.isOpen) = s.out.isOpen
        cases ho : s.out.isOpen
        · simp
        · simp [h1 ho]
      · show (e' && s.err.isOpen) = s.err.isOpen
        cases ho : s.err.isOpen
        · simp
        · simp [h2 ho]
    | interrupted => rfl
    | failed => exact absurd rfl hf
  have hs : ∀ e, (s.takeTurn sel).stream e = if (s.stream e).isOpen then (readPiece (s.stream e)).2 else s.stream e := by
    intro e; rw [takeTurn_stream s hf, htried]
  have hle : ∀ e, todo ((s.takeTurn sel).stream e) ≤ todo (s.stream e)
      ∧ ((s.stream e).isOpen = true → todo ((s.takeTurn sel).stream e) < todo (s.stream e)) := by
    intro e
    rw [hs e]
    cases ho : (s.stream e).isOpen
    · simp
    · simp only [if_true]
      have := todo_readPiece (h.held e) ho
      exact ⟨Nat.le_of_lt this, fun _ => this⟩
  rw [hst]
  by_cases hfin : (s.takeTurn sel).result = .finished
  · exact Or.inl hfin
  right
  have hfin' := hfin
  rw [takeTurn_eq s hf] at hfin'
  unfold State.finish at hfin'
  split at hfin'
  · exact absurd rfl hfin'
  rename_i hc
  have heq : s.takeTurn sel = (s.readFrom false (tried s sel false)).readFrom true (tried s sel true) := by
    rw [takeTurn_eq s hf]; unfold State.finish; rw [if_neg hc]
  have hgot : (s.takeTurn sel).got = true := by
    rw [heq, (readFrom_same _ _ _).1, (readFrom_same _ _ _).1]; exact h.got
  refine ⟨⟨?_, hgot⟩, ?_, ?_⟩
  · intro e
    rw [hs e]
    split
    · rw [readPiece_held]; exact h.held e
    · exact h.held e
  · rw [heq, (readFrom_same _ _ _).2.2, (readFrom_same _ _ _).2.2]; exact hw
  · rw [← heq, hgot] at hc
    have h0 := hle false
    have h1 := hle true
    have hany : s.out.isOpen = true ∨ s.err.isOpen = true := by
      cases ho : s.out.isOpen
      · cases he : s.err.isOpen
        · exfalso
          apply hc
          have a0 := hs false
          have a1 := hs true
          simp only [State.stream] at a0 a1
          simp only [Bool.false_eq_true, if_false, if_true, ho, he] at a0 a1
          rw [a0, a1, ho, he]; rfl
        · right; rfl
      · left; rfl
    simp only [State.stream, Bool.false_eq_true, if_false, if_true] at h0 h1
    rcases hany with ho | he
    · have := h0.2 ho; have := h1.1; omega
    · have := h1.2 he; have := h0.1; omega

theorem over_turns {s : State} (h : Over s) (hw : s.result = .waiting) (sels : List Sel) (hh : HonestTurns s sels)
    (hl : todo s.out + todo s.err < sels.length) : (run s (sels.map .turn)).result = .finished := by
  induction sels generalizing s with
  | nil => simp at hl
  | cons sel sels ih =>
    rcases over_turn h hw hh.1 with h1 | ⟨h1, h2, h3⟩
    · have hk : ∀ (l : List Sel) (t : State), t.result = .finished → (run t (l.map .turn)).result = .finished := by
        intro l
        induction l with
        | nil => intro t ht; exact ht
        | cons x l ihl =>
          intro t ht
          refine ihl (step t (.turn x)) ?_
          unfold step
          simp only [ht]
          simp [ht]
      exact hk sels _ h1
    · exact ih h1 h2 hh.2 (by simp at hl; omega)

/-- A loop that has finished has closed both pipes. -/
theorem closed_run : ∀ (evs : List Ev) (s : State), (s.result = .finished → s.out.isOpen = false ∧ s.err.isOpen = false) →
    (run s evs).result = .finished →
    (run s evs).out.isOpen = false ∧ (run s evs).err.isOpen = false := by
  intro evs
  induction evs with
  | nil => intro s hs hr; exact hs hr
  | cons ev evs ih =>
    intro s hs hr
    refine ih (step s ev) ?_ hr
    intro hr'
    by_cases hf : s.result = .finished
    · have := hs hf
      cases ev with
      | writes e b =>
        cases e
        · exact ⟨(write_isOpen _ _).trans this.1, this.2⟩
        · exact ⟨this.1, (write_isOpen _ _).trans this.2⟩
      | closes e => cases e <;> exact this
      | ended x => simp only [step, hf]; exact this
      | turn sel => simp only [step, hf]; exact this
    · cases ev with
      | writes e b => cases e <;> exact absurd hr' hf
      | closes e => cases e <;> exact absurd hr' hf
      | ended x =>
        simp only [step] at hr' ⊢
        split at hr' <;> exact absurd hr' hf
      | turn sel =>
        simp only [step] at hr' ⊢
        split at hr'
        · rename_i hw
          rw [if_pos hw]
          by_cases hfl : sel = .failed
          · subst hfl; simp [State.takeTurn] at hr'
          · rw [takeTurn_eq s hfl] at hr' ⊢
            rw [(finish_same _).1, (finish_same _).2.1]
            unfold State.finish at hr'
            split at hr'
            · rename_i hc
              simp only [Bool.and_eq_true, Bool.not_eq_true'] at hc
              exact ⟨hc.1.1, hc.1.2⟩
            · rw [(readFrom_same _ _ _).2.2, (readFrom_same _ _ _).2.2] at hr'
              exact absurd hr' hf
        · exact absurd hr' hf

/-- A loop that waits has waited all the time. -/
theorem waiting_run : ∀ (l : List Ev) (s : State), (run s l).result = .waiting → s.result = .waiting := by
  intro l
  induction l with
  | nil => intro s h; exact h
  | cons ev l ih =>
    intro s h
    have h1 := ih (step s ev) h
    cases ev with
    | writes e b => cases e <;> exact h1
    | closes e => cases e <;> exact h1
    | ended x => simp only [step] at h1; split at h1 <;> exact h1
    | turn sel =>
      simp only [step] at h1
      split at h1
      · rename_i hx; exact hx
      · exact h1

/-- The flag is kept while the loop waits. -/
theorem got_kept : ∀ (l : List Ev) (s : State), (s.got = true ∨ ∃ x, Ev.ended x ∈ l) →
    (run s l).result = .waiting → (run s l).got = true := by
  intro l
  induction l with
  | nil => intro s h _; rcases h with h | ⟨x, hx⟩; exact h; simp at hx
  | cons ev l ih =>
    intro s h hr
    have hr1 := waiting_run l (step s ev) hr
    have hr0 := waiting_run (ev :: l) s hr
    refine ih (step s ev) ?_ hr
    by_cases hev : ∃ x, ev = .ended x
    · obtain ⟨x, rfl⟩ := hev
      left; simp [step, hr0]
    · rcases h with h | ⟨x, hx⟩
      · left
        cases ev with
        | writes e b => cases e <;> exact h
        | closes e => cases e <;> exact h
        | ended x => exact absurd ⟨x, rfl⟩ hev
        | turn sel =>
          simp only [step] at hr1 ⊢
          rw [if_pos hr0] at hr1 ⊢
          by_cases hfl : sel = .failed
          · subst hfl; exact h
          · rw [takeTurn_eq s hfl] at hr1 ⊢
            unfold State.finish at hr1 ⊢
            split
            · rename_i hcc; rw [if_pos hcc] at hr1; simp at hr1
            · rw [(readFrom_same _ _ _).1, (readFrom_same _ _ _).1]; exact h
      · rcases List.mem_cons.1 hx with hx | hx
        · exact absurd ⟨x, hx.symm⟩ hev
        · right; exact ⟨x, hx⟩

/-- A loop that has finished has cleared the flag. -/
theorem fin_got : ∀ (l : List Ev) (s : State), (s.result = .finished → s.got = false) →
    (run s l).result = .finished → (run s l).got = false := by
  intro l
  induction l with
  | nil => intro s hs hr; exact hs hr
  | cons ev l ihl =>
    intro s hs hr
    refine ihl (step s ev) ?_ hr
    intro hr'
    cases ev with
    | writes e b => cases e <;> exact hs hr'
    | closes e => cases e <;> exact hs hr'
    | ended x =>
      simp only [step] at hr' ⊢
      split at hr'
      · rename_i hw; simp only [hw] at hr'; cases hr'
      · rename_i hw; rw [if_neg hw]; exact hs hr'
    | turn sel =>
      simp only [step] at hr' ⊢
      split at hr'
      · rename_i hw
        rw [if_pos hw]
        by_cases hfl : sel = .failed
        · subst hfl; simp [State.takeTurn] at hr'
        · rw [takeTurn_eq s hfl] at hr' ⊢
          unfold State.finish at hr' ⊢
          split at hr'
          · rename_i hcc; rw [if_pos hcc]
          · rw [(readFrom_same _ _ _).2.2, (readFrom_same _ _ _).2.2, hw] at hr'
            cases hr'
      · rename_i hw; rw [if_neg hw]; exact hs hr'

/-- While somebody holds a pipe, the loop waits. -/
theorem held_waits : ∀ (l : List Sel) (s : State), s.result = .waiting → (s.stream false).held = true → Ok s → Sel.failed ∉ l →
    (run s (l.map .turn)).result = .waiting := by
  intro l
  induction l with
  | nil => intro s h _ _ _; exact h
  | cons x l ih =>
    intro s h hh ho hm
    have hx : x ≠ .failed := fun hc => hm (by simp [hc])
    have ho' := ok_step ho (.turn x)
    have hh' : ((step s (.turn x)).stream false).held = true := by
      rw [held_step s (.turn x) false (by simp)]; exact hh
    refine ih (step s (.turn x)) ?_ hh' ho' (fun hc => hm (by simp [hc]))
    have hopen : ((step s (.turn x)).stream false).isOpen = true := by
      cases hc : ((step s (.turn x)).stream false).isOpen
      · have := (ho' false hc).1; rw [this] at hh'; simp at hh'
      · rfl
    have heq : step s (.turn x)
        = ((s.readFrom false (tried s x false)).readFrom true (tried s x true)).finish := by
      simp only [step, h, if_true]; exact takeTurn_eq s hx
    rw [heq] at hopen ⊢
    rw [finish_stream] at hopen
    unfold State.finish
    rw [if_neg]
    · rw [(readFrom_same _ _ _).2.2, (readFrom_same _ _ _).2.2]; exact h
    · simp only [State.stream, Bool.false_eq_true, if_false] at hopen
      rw [hopen]; simp

/-- Only a failing `select` is an error. -/
theorem error_run (l : List Ev) (s : State) (hs : s.result ≠ .error) (h : (run s l).result = .error) :
    Ev.turn .failed ∈ l := by
  induction l generalizing s with
  | nil => exact absurd h hs
  | cons ev l ih =>
    by_cases hf : ev = .turn .failed
    · simp [hf]
    · refine List.mem_cons_of_mem _ (ih (step s ev) ?_ h)
      cases ev with
      | writes e b => cases e <;> exact hs
      | closes e => cases e <;> exact hs
      | ended x => unfold step; simp only; split <;> exact hs
      | turn sel =>
        unfold step
        simp only
        split
        · rw [takeTurn_eq s (fun hc => hf (by rw [hc]))]
          unfold State.finish
          split
          · simp
          · rw [(readFrom_same _ _ _).2.2, (readFrom_same _ _ _).2.2]; exact hs
        · exact hs

/-! ## Whole lines -/

theorem lines_ne {l : Str} {s : Str} (h : l ∈ lines s) : l ≠ [] := by
  induction s generalizing l with
  | nil => simp [lines] at h
  | cons b s ih =>
    unfold lines at h
    split at h
    · rcases List.mem_cons.1 h with h | h
      · rw [h]; simp
      · exact ih h
    · unfold onto at h
      split at h
      · simp at h; rw [h]; simp
      · rename_i hl
        rcases List.mem_cons.1 h with h | h
        · rw [h]; simp
        · exact ih (by rw [hl]; exact List.mem_cons_of_mem _ h)

theorem lines_nil {s : Str} (h : lines s = []) : s = [] := by
  cases s with
  | nil => rfl
  | cons b s =>
    unfold lines at h
    split at h
    · simp at h
    · unfold onto at h; split at h <;> simp at h

/-- The first line of a text in which every line is whole. -/
theorem gets_line {n : Nat} {s l : Str} {ls : List Str} (h : lines s = l :: ls) (hl : l.length ≤ n)
    (he : l.getLast? = some newline) : (gets n s).1 = l ∧ lines (gets n s).2 = ls ∧ stopped n s = true := by
  induction n generalizing s l ls with
  | zero =>
    have : l = [] := List.eq_nil_of_length_eq_zero (by omega)
    subst this
    simp at he
  | succ n ih =>
    cases s with
    | nil => simp [lines] at h
    | cons b s =>
      unfold lines at h
      unfold gets stopped
      by_cases hb : b = newline
      · rw [if_pos hb] at h ⊢
        rw [if_pos hb]
        injection h with h1 h2
        exact ⟨h1, h2, rfl⟩
      · rw [if_neg hb] at h ⊢
        rw [if_neg hb]
        unfold onto at h
        split at h
        · injection h with h1 h2
          subst h1
          simp at he
          exact absurd he hb
        · rename_i l' ls' hl'
          injection h with h1 h2
          subst h1 h2
          have hne : l' ≠ [] := lines_ne (by rw [hl']; exact List.mem_cons_self)
          obtain ⟨c, l'', rfl⟩ := List.exists_cons_of_ne_nil hne
          have := ih hl' (by simpa using hl) (by rw [List.getLast?_cons_cons] at he; exact he)
          exact ⟨by rw [this.1], this.2.1, this.2.2⟩

theorem lines_append {a : Str} (b : Str) (h : ∀ l ∈ lines a, l.getLast? = some newline) :
    lines (a ++ b) = lines a ++ lines b := by
  induction a with
  | nil => rfl
  | cons c a ih =>
    by_cases hc : c = newline
    · have e1 : lines (c :: a) = [c] :: lines a := by rw [lines]; simp [hc]
      have e2 : lines (c :: (a ++ b)) = [c] :: lines (a ++ b) := by rw [lines]; simp [hc]
      rw [e1] at h
      rw [List.cons_append, e2, e1, ih (fun l hl => h l (List.mem_cons_of_mem _ hl))]
      rfl
    · have e1 : lines (c :: a) = onto c (lines a) := by
        rw [lines]; simp [hc]
      have e2 : lines (c :: (a ++ b)) = onto c (lines (a ++ b)) := by
        rw [lines]; simp [hc]
      cases hl : lines a with
      | nil =>
        rw [e1, hl] at h
        have := h [c] (by simp [onto])
        simp at this
        exact absurd this hc
      | cons l ls =>
        rw [e1, hl] at h
        have hne : l ≠ [] := lines_ne (by rw [hl]; exact List.mem_cons_self)
        have hih := ih (by
          intro x hx
          rw [hl] at hx
          rcases List.mem_cons.1 hx with rfl | hx
          · obtain ⟨y, ys, rfl⟩ := List.exists_cons_of_ne_nil hne
            have := h (c :: y :: ys) (by simp [onto])
            rwa [List.getLast?_cons_cons] at this
          · exact h x (by simp [onto, hx]))
        rw [List.cons_append, e2, hih, e1, hl]
        rfl

theorem whole_append {a b : Str} (ha : WholeLines a) (hb : WholeLines b) : WholeLines (a ++ b) := by
  intro l hl
  rw [lines_append b (fun l hl => (ha l hl).2)] at hl
  rcases List.mem_append.1 hl with h | h
  · exact ha l h
  · exact hb l h

theorem readPiece_lines {s : Stream} (h : WholeLines s.left) :
    (readPiece s).1.toList ++ lines (readPiece s).2.left = lines s.left ∧ WholeLines (readPiece s).2.left := by
  unfold readPiece
  split
  · cases hl : lines s.left with
    | nil =>
      have hs := lines_nil hl
      simp only [hs]
      have : gets room [] = ([], []) := rfl
      simp only [this, if_true]
      exact ⟨rfl, by intro l hl; simp [lines] at hl⟩
    | cons l ls =>
      have h1 := h l (by rw [hl]; exact List.mem_cons_self)
      obtain ⟨a, b, c⟩ := gets_line hl (show l.length ≤ room from h1.1) h1.2
      have hne : l ≠ [] := by intro hc; rw [hc] at h1; simp at h1
      simp only [a, b, hne, if_false]
      refine ⟨rfl, ?_⟩
      intro x hx
      rw [b] at hx
      exact h x (by rw [hl]; exact List.mem_cons_of_mem _ hx)
  · exact ⟨by simp, h⟩

theorem lines_run (s : State) (evs : List Ev) (e : Bool) (hs : WholeLines (s.stream e).left)
    (hw : ∀ b, Ev.writes e b ∈ evs → WholeLines b) :
    piecesOf e (run s evs) ++ lines ((run s evs).stream e).left
        = piecesOf e s ++ lines (s.stream e).left ++ (if (s.stream e).held then lines (written e evs) else []) := by
  induction evs generalizing s with
  | nil => simp [run, written, lines]
  | cons ev evs ih =>
    have h' : run s (ev :: evs) = run (step s ev) evs := rfl
    have hw' : ∀ b, Ev.writes e b ∈ evs → WholeLines b := fun b hb => hw b (by simp [hb])
    rw [h']
    cases ev with
    | writes e' b =>
      by_cases he : e' = e
      · subst he
        have hb := hw b (by simp)
        by_cases hh : (s.stream e').held = true
        · have h1 : (step s (.writes e' b)).stream e' = { s.stream e' with left := (s.stream e').left ++ b } := by
            cases e' <;> simp_all [step, State.stream, Stream.write]
          have h2 : piecesOf e' (step s (.writes e' b)) = piecesOf e' s := by cases e' <;> rfl
          rw [ih _ (by rw [h1]; exact whole_append hs hb) hw', h1, h2]
          simp only [hh, if_true, written]
          rw [lines_append b (fun l hl => (hs l hl).2), lines_append _ (fun l hl => (hb l hl).2)]
          simp
        · have h1 : (step s (.writes e' b)).stream e' = s.stream e' := by
            cases e' <;> simp_all [step, State.stream, Stream.write]
          have h2 : piecesOf e' (step s (.writes e' b)) = piecesOf e' s := by cases e' <;> rfl
          rw [ih _ (by rw [h1]; exact hs) hw', h1, h2]
          simp [hh]
      · have h1 : (step s (.writes e' b)).stream e = s.stream e := by
          cases e' <;> cases e <;> first | rfl | exact absurd rfl he
        have h2 : piecesOf e (step s (.writes e' b)) = piecesOf e s := by cases e' <;> rfl
        rw [ih _ (by rw [h1]; exact hs) hw', h1, h2]
        simp [written, he]
    | closes e' =>
      have h2 : piecesOf e (step s (.closes e')) = piecesOf e s := by cases e' <;> rfl
      by_cases he : e' = e
      · subst he
        have h1 : (step s (.closes e')).stream e' = { s.stream e' with held := false } := by cases e' <;> rfl
        rw [ih _ (by rw [h1]; exact hs) hw', h1, h2]
        simp [written, lines]
      · have h1 : (step s (.closes e')).stream e = s.stream e := by
          cases e' <;> cases e <;> first | rfl | exact absurd rfl he
        rw [ih _ (by rw [h1]; exact hs) hw', h1, h2]
        simp [written, he]
    | ended x =>
      have h1 : (step s (.ended x)).stream e = s.stream e := by unfold step; simp only; split <;> rfl
      have h2 : piecesOf e (step s (.ended x)) = piecesOf e s := by unfold step; simp only; split <;> rfl
      rw [ih _ (by rw [h1]; exact hs) hw', h1, h2]
      simp [written]
    | turn sel =>
      rcases turn_cases s sel e with ⟨h1, h2⟩ | ⟨h1, h2⟩
      · rw [ih _ (by rw [h1]; exact hs) hw', h1, h2]
        simp [written]
      · obtain ⟨r1, r2⟩ := readPiece_lines hs
        rw [ih _ (by rw [h1]; exact r2) hw', h1, h2, readPiece_held]
        simp only [written, List.append_assoc] at *
        rw [← List.append_assoc _ (lines (readPiece (s.stream e)).2.left), r1]

/-! ## The pieces -/

/-- A piece is not empty, has at most 255 bytes and no newline but at its end. -/
def PieceOk (p : Str) : Prop := p ≠ [] ∧ p.length ≤ 255 ∧ newline ∉ p.dropLast

theorem readPiece_piece {s : Stream} {p : Str} (h : (readPiece s).1 = some p) : PieceOk p := by
  unfold readPiece at h
  split at h
  · simp only at h
    split at h
    · simp at h
    · rename_i hp
      injection h with h
      subst h
      exact ⟨hp, gets_length _ _, gets_newline _ _⟩
  · simp at h

theorem pieces_run (s : State) (evs : List Ev) (e : Bool) (h : ∀ p ∈ piecesOf e s, PieceOk p) :
    ∀ p ∈ piecesOf e (run s evs), PieceOk p := by
  induction evs generalizing s with
  | nil => exact h
  | cons ev evs ih =>
    refine ih (step s ev) ?_
    cases ev with
    | writes e' b => cases e' <;> exact h
    | closes e' => cases e' <;> exact h
    | ended x => unfold step; simp only; split <;> exact h
    | turn sel =>
      rcases turn_cases s sel e with ⟨-, h2⟩ | ⟨-, h2⟩
      · rw [h2]; exact h
      · rw [h2]
        intro p hp
        rcases List.mem_append.1 hp with hp | hp
        · exact h p hp
        · exact readPiece_piece (by simpa [Option.mem_toList] using hp)

/-! ## The command line -/

theorem takeArgs_eq (l : Nat) (as : List Str) : takeArgs l as = as.take (63 - l) := by
  induction as generalizing l with
  | nil => simp [takeArgs]
  | cons a as ih =>
    unfold takeArgs
    split
    · rename_i h
      have : 63 - l = (63 - (l + 1)) + 1 := by omega
      rw [this, List.take_succ_cons, ih]
    · rename_i h
      have : 63 - l = 0 := by omega
      rw [this]; rfl

theorem cmdLine_eq (args user : List Str) : cmdLine args user = (args ++ user).take 63 := by
  unfold cmdLine
  rw [takeArgs_eq, takeArgs_eq, List.take_append, List.length_take]
  congr 2
  omega

end Verif.RunScript
