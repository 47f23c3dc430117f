import Verif.Lemmas.RestoreFlowInv

/-!
# Every run of a restore
-/

namespace Verif.RestoreFlow
open Verif Verif.Transfer
open Verif.Exchange (bufMax wire load fits carries Room Small load_append load_suffix fits_nil)

/-- What the client says is for the user, or interrupts a file, and comes to an end with the last message. -/
def Answers (A : List Msg) : Prop :=
  ∃ ans, A = ans ++ [okMsg] ∧ ∀ m ∈ ans, (m.cmd = .warning ∨ m.cmd = .interrupt)

/-- What holds as long as the server has not finished. -/
structure Going (A : List Msg) (E : List (Str × Option (List Str))) (L : Nat) (s : Sys) : Prop where
  running : s.verdict = .running
  over : (after s.cli (toRead s)).mode = .over
  log : (after s.cli (toRead s)).log = E
  suffix : toTake s <:+ A
  ne : toTake s ≠ []
  load : load (toRead s) ≤ L
  small : ∀ m ∈ toRead s, Small m
  shape : Shape (ahead s).mode (ahead s).datapth (sent s) s.ops

/-- What holds when it has. -/
structure Over (E : List (Str × Option (List Str))) (s : Sys) : Prop where
  done : s.verdict = .done
  ops : s.ops = []
  out : s.out = []
  down : s.down = []
  mode : s.cli.mode = .over
  pend : s.cli.pend = []
  log : s.cli.log = E
  cout : s.cout = []
  up : s.up = []

/-- What holds all the time. -/
def Inv (A : List Msg) (E : List (Str × Option (List Str))) (L : Nat) (s : Sys) : Prop := Going A E L s ∨ Over E s

theorem strip_of_nil (c : Cli) (h : c.pend = []) : { c with pend := [] } = c := by
  rw [← h]

/-- A message the server reads before the end is no surprise. -/
theorem soft (A : List Msg) (hA : Answers A) (m : Msg) (rest : List Msg) (h : m :: rest <:+ A) (hr : rest ≠ []) :
    m.cmd = .warning ∨ m.cmd = .interrupt := by
  obtain ⟨ans, rfl, ha⟩ := hA
  obtain ⟨pre, e⟩ := h
  have hl := List.dropLast_concat_getLast hr
  rw [← hl, ← List.cons_append, ← List.append_assoc] at e
  have := (List.append_inj' e rfl).1
  exact ha m (this ▸ by simp)

/-- The last message is the answer to the end. -/
theorem last_ok (A : List Msg) (hA : Answers A) (m : Msg) (h : [m] <:+ A) : m = okMsg := by
  obtain ⟨ans, rfl, ha⟩ := hA
  obtain ⟨pre, e⟩ := h
  have := (List.append_inj' e rfl).2
  simpa using this

theorem answers_ok (A : List Msg) (hA : Answers A) (a b : List Msg) (h : a ++ b <:+ A) (hb : b ≠ []) : okMsg ∉ a := by
  intro hm
  obtain ⟨x, y, rfl⟩ := List.append_of_mem hm
  have h1 : okMsg :: (y ++ b) <:+ A := by
    refine List.IsSuffix.trans ?_ h
    exact ⟨x, by simp⟩
  rcases soft A hA _ _ h1 (by simp [hb]) with h | h <;> exact absurd h (by decide)

theorem inv_step (room : Room) (A : List Msg) (hA : Answers A) (E : List (Str × Option (List Str))) (L : Nat)
    {s t : Sys} (h : Step room s t) (hi : Inv A E L s) : Inv A E L t := by
  rcases hi with hi | hi
  · cases h with
    | say m ops hv ho hf =>
      left
      have e : toRead { s with ops := ops, out := s.out ++ [m] } = toRead s := by
        simp [toRead, ho, sayMsgs_say]
      have hover := hi.over
      have e2 : toRead s = (s.down ++ s.out) ++ (m :: sayMsgs ops) := by simp [toRead, ho, sayMsgs_say]
      rw [e2, after_append] at hover
      have hnf := not_failed _ _ _ hover
      have ea : ahead { s with ops := ops, out := s.out ++ [m] } = cliRead { ahead s with pend := [] } m := by
        unfold ahead
        simp only
        rw [← List.append_assoc, after_append]
        rfl
      have es : sent { s with ops := ops, out := s.out ++ [m] } = sent s ++ emit (ahead s) m := by
        unfold sent ahead
        simp only
        rw [← List.append_assoc s.down, future_concat]
        simp
      have hsh := hi.shape
      rw [ho] at hsh
      have := shape_say (ahead s) (sent s) m ops hsh hnf
      refine ⟨hi.running, by rw [e]; exact hi.over, by rw [e]; exact hi.log, ?_, ?_, by rw [e]; exact hi.load,
        by rw [e]; exact hi.small, by rw [ea, es]; exact this⟩
      · have := hi.suffix
        unfold toTake at this ⊢
        rw [e]; exact this
      · have := hi.ne
        unfold toTake at this ⊢
        rw [e]; exact this
    | nothing d ops hv ho =>
      left
      have e : toRead { s with ops := ops } = toRead s := by simp [toRead, ho, sayMsgs_look]
      have hsh := hi.shape
      rw [ho] at hsh
      refine ⟨hi.running, by rw [e]; exact hi.over, by rw [e]; exact hi.log, ?_, ?_, by rw [e]; exact hi.load,
        by rw [e]; exact hi.small, (shape_look hsh).1⟩
      · have := hi.suffix
        unfold toTake at this ⊢
        rw [e]; exact this
      · have := hi.ne
        unfold toTake at this ⊢
        rw [e]; exact this
    | look d ops m ms hv ho hu =>
      left
      have hsh := hi.shape
      rw [ho] at hsh
      obtain ⟨k1, k2, pieces, ender, rest, k3, k4⟩ := shape_look hsh
      have htk : toTake s = m :: (ms ++ (s.cout ++ future s.cli (toRead s))) := by simp [toTake, hu]
      have hrd : toRead s = (s.down ++ s.out) ++ sayMsgs ops := by simp [toRead, ho, sayMsgs_look]
      have hne : toRead s ≠ [] := by
        rw [hrd, k3]
        simp [body, sayMsgs]
      have hfut : future s.cli (toRead s) ≠ [] := by
        by_cases hm : s.cli.mode = .over
        · exact absurd (after_over _ hm _ hi.over) hne
        · exact future_ne _ _ hi.over hm
      have hrest : ms ++ (s.cout ++ future s.cli (toRead s)) ≠ [] := by
        intro h
        exact hfut (List.append_eq_nil_iff.1 (List.append_eq_nil_iff.1 h).2).2
      have hsoft := soft A hA m _ (htk ▸ hi.suffix) hrest
      have hsuf : ms ++ (s.cout ++ future s.cli (toRead s)) <:+ A :=
        (List.suffix_cons m _).trans (htk ▸ hi.suffix)
      have hsnt : sent s = m :: (ms ++ (s.cout ++ future s.cli (s.down ++ s.out))) := by simp [sent, hu]
      have hfew : ∀ x, ⟨.interrupt, x⟩ ∈ ms ++ (s.cout ++ future s.cli (s.down ++ s.out)) →
          (⟨.interrupt, x⟩ : Msg) ∈ sent s := by
        intro x hx
        rw [hsnt]
        exact List.mem_cons_of_mem _ hx
      have go : Going A E L { s with up := ms, ops := ops } := by
        have e : toRead { s with up := ms, ops := ops } = toRead s := by simp [toRead, ho, sayMsgs_look]
        refine ⟨hi.running, by rw [e]; exact hi.over, by rw [e]; exact hi.log, ?_, ?_, by rw [e]; exact hi.load,
          by rw [e]; exact hi.small, shape_fewer k1 hfew⟩
        · unfold toTake
          rw [e]; exact hsuf
        · unfold toTake
          rw [e]; exact hrest
      unfold during
      rcases hsoft with hw | hint
      · have : Interrupt.doQuickRead d (some m) = .go := by simp [Interrupt.doQuickRead, hw]
        rw [this]
        exact go
      · by_cases hb : m.buf = d
        · have : Interrupt.doQuickRead d (some m) = .interrupt := by simp [Interrupt.doQuickRead, hint, hb]
          rw [this]
          simp only
          have hme : m = ⟨.interrupt, d⟩ := by rw [← hint, ← hb]
          have hsk : ∃ p, (ahead s).mode = .skipping p := by
            rcases k2 with k2 | k2
            · exact k2
            · exact absurd (by rw [hsnt, hme]; simp) k2
          obtain ⟨p, hp⟩ := hsk
          have ecut : cut ops = .say ⟨.endFile, ender⟩ :: rest := by rw [k3, cut_body]
          have hbd := after_body (ahead s) p hp d pieces ender rest
          have hbd' := after_body { ahead s with pend := [] } p hp d pieces ender rest
          rw [← ecut, ← k3] at hbd hbd'
          have e1 : after s.cli (toRead { s with up := ms, ops := cut ops }) = after s.cli (toRead s) := by
            rw [hrd]
            unfold toRead
            simp only
            rw [← List.append_assoc, after_append s.cli (s.down ++ s.out), after_append s.cli (s.down ++ s.out)]
            exact hbd.1.symm
          have e2 : future s.cli (toRead { s with up := ms, ops := cut ops }) = future s.cli (toRead s) := by
            rw [hrd]
            unfold toRead
            simp only
            rw [← List.append_assoc, future_append, future_append _ _ (sayMsgs ops)]
            congr 1
            exact hbd'.2.symm
          refine ⟨hi.running, by show (after s.cli _).mode = _; rw [e1]; exact hi.over,
            by show (after s.cli _).log = _; rw [e1]; exact hi.log, ?_, ?_, ?_, ?_, ?_⟩
          · unfold toTake
            simp only
            rw [e2]; exact hsuf
          · unfold toTake
            simp only
            rw [e2]; exact hrest
          · have := hi.load
            rw [hrd, load_append] at this
            unfold toRead
            simp only
            rw [← List.append_assoc, load_append]
            have hl := load_body d pieces ender rest
            rw [← ecut, ← k3] at hl
            omega
          · intro x hx
            apply hi.small
            rw [hrd]
            unfold toRead at hx
            simp only at hx
            rw [← List.append_assoc] at hx
            rcases List.mem_append.1 hx with hx | hx
            · exact List.mem_append.2 (.inl hx)
            · refine List.mem_append.2 (.inr ?_)
              rw [ecut] at hx
              rw [k3, body, sayMsgs_append]
              exact List.mem_append.2 (.inr hx)
          · refine shape_fewer ?_ hfew
            show Shape (ahead s).mode (ahead s).datapth (sent s) (cut ops)
            rw [ecut]
            exact k4
        · have : Interrupt.doQuickRead d (some m) = .go := by simp [Interrupt.doQuickRead, hint, hb]
          rw [this]
          exact go
    | drained ops hv ho =>
      left
      have e : toRead { s with ops := ops } = toRead s := by simp [toRead, ho, sayMsgs_drain]
      have hsh := hi.shape
      rw [ho] at hsh
      refine ⟨hi.running, by rw [e]; exact hi.over, by rw [e]; exact hi.log, ?_, ?_, by rw [e]; exact hi.load,
        by rw [e]; exact hi.small, (shape_drain hsh).1⟩
      · have := hi.suffix
        unfold toTake at this ⊢
        rw [e]; exact this
      · have := hi.ne
        unfold toTake at this ⊢
        rw [e]; exact this
    | drain ops m ms hv ho hu =>
      left
      have hsh := hi.shape
      rw [ho] at hsh
      have k2 := (shape_drain hsh).2
      have htk : toTake s = m :: (ms ++ (s.cout ++ future s.cli (toRead s))) := by simp [toTake, hu]
      have hne : toRead s ≠ [] := by
        unfold toRead
        rw [ho, sayMsgs_drain]
        intro h
        exact k2 (List.append_eq_nil_iff.1 (List.append_eq_nil_iff.1 h).2).2
      have hfut : future s.cli (toRead s) ≠ [] := by
        by_cases hm : s.cli.mode = .over
        · exact absurd (after_over _ hm _ hi.over) hne
        · exact future_ne _ _ hi.over hm
      have hrest : ms ++ (s.cout ++ future s.cli (toRead s)) ≠ [] := by
        intro h
        exact hfut (List.append_eq_nil_iff.1 (List.append_eq_nil_iff.1 h).2).2
      have hsoft := soft A hA m _ (htk ▸ hi.suffix) hrest
      have hb : between { s with up := ms } m = { s with up := ms } := by
        unfold between
        rw [if_pos]
        rcases hsoft with h | h
        · exact .inr (.inl h)
        · exact .inr (.inr h)
      rw [hb]
      refine ⟨hi.running, hi.over, hi.log, ?_, hrest, hi.load, hi.small, shape_fewer hi.shape ?_⟩
      · exact (List.suffix_cons m _).trans (htk ▸ hi.suffix)
      · intro x hx
        have hsnt : sent s = m :: (ms ++ (s.cout ++ future s.cli (s.down ++ s.out))) := by simp [sent, hu]
        rw [hsnt]
        exact List.mem_cons_of_mem _ hx
    | receive m ms hv ho hu =>
      have htk : toTake s = m :: (ms ++ (s.cout ++ future s.cli (toRead s))) := by simp [toTake, hu]
      by_cases hrest : ms ++ (s.cout ++ future s.cli (toRead s)) = []
      · right
        have hm : m = okMsg := last_ok A hA m (by have h := hi.suffix; rw [htk, hrest] at h; exact h)
        obtain ⟨h1, h2⟩ := List.append_eq_nil_iff.1 hrest
        obtain ⟨h2, h3⟩ := List.append_eq_nil_iff.1 h2
        have hov : s.cli.mode = .over := by
          by_cases h : s.cli.mode = .over
          · exact h
          · exact absurd h3 (future_ne _ _ hi.over h)
        have hr := after_over _ hov _ hi.over
        have hlog := hi.log
        rw [hr] at h3 hlog
        unfold toRead at hr
        obtain ⟨h4, h5⟩ := List.append_eq_nil_iff.1 hr
        have hb : atEnd { s with up := ms } m = { s with up := ms, verdict := .done } := by
          rw [hm]
          simp [atEnd, okMsg]
        rw [hb]
        exact ⟨rfl, ho, (List.append_eq_nil_iff.1 h5).1, h4, hov, h3, hlog, h2, h1⟩
      · left
        have hsoft := soft A hA m _ (htk ▸ hi.suffix) hrest
        have hb : atEnd { s with up := ms } m = { s with up := ms } := by
          unfold atEnd
          rcases hsoft with h | h <;> simp [h]
        rw [hb]
        refine ⟨hi.running, hi.over, hi.log, ?_, hrest, hi.load, hi.small, shape_fewer hi.shape ?_⟩
        · exact (List.suffix_cons m _).trans (htk ▸ hi.suffix)
        · intro x hx
          have hsnt : sent s = m :: (ms ++ (s.cout ++ future s.cli (s.down ++ s.out))) := by simp [sent, hu]
          rw [hsnt]
          exact List.mem_cons_of_mem _ hx
    | flush m ms hv ho hc =>
      left
      have e : toRead { s with out := ms, down := s.down ++ [m] } = toRead s := by simp [toRead, ho]
      have e3 : (s.down ++ [m]) ++ ms = s.down ++ s.out := by simp [ho]
      refine ⟨hi.running, by rw [e]; exact hi.over, by rw [e]; exact hi.log, ?_, ?_, by rw [e]; exact hi.load,
        by rw [e]; exact hi.small, ?_⟩
      · have := hi.suffix
        unfold toTake at this ⊢
        rw [e]; exact this
      · have := hi.ne
        unfold toTake at this ⊢
        rw [e]; exact this
      · have := hi.shape
        unfold ahead sent at this ⊢
        simp only
        rw [e3]
        exact this
    | read m ms hp h1 h2 hd =>
      left
      have hstrip := strip_of_nil s.cli hp
      have e1 : ∀ X, after (cliRead s.cli m) X = after s.cli (m :: X) := by
        intro X
        rw [after_cons, hstrip]
      have e2 : ∀ X, future (cliRead s.cli m) X = future s.cli (m :: X) := by
        intro X
        rw [future, hstrip, hp, List.nil_append]
      have e3 : toRead s = m :: (ms ++ (s.out ++ sayMsgs s.ops)) := by simp [toRead, hd]
      have e4 : s.down ++ s.out = m :: (ms ++ s.out) := by simp [hd]
      refine ⟨hi.running, ?_, ?_, ?_, ?_, ?_, ?_, ?_⟩
      · show (after (cliRead s.cli m) (ms ++ (s.out ++ sayMsgs s.ops))).mode = _
        rw [e1, ← e3]; exact hi.over
      · show (after (cliRead s.cli m) (ms ++ (s.out ++ sayMsgs s.ops))).log = _
        rw [e1, ← e3]; exact hi.log
      · show s.up ++ (s.cout ++ future (cliRead s.cli m) (ms ++ (s.out ++ sayMsgs s.ops))) <:+ A
        rw [e2, ← e3]; exact hi.suffix
      · show s.up ++ (s.cout ++ future (cliRead s.cli m) (ms ++ (s.out ++ sayMsgs s.ops))) ≠ []
        rw [e2, ← e3]; exact hi.ne
      · have := hi.load
        rw [e3] at this
        show load (ms ++ (s.out ++ sayMsgs s.ops)) ≤ L
        have : load (m :: (ms ++ (s.out ++ sayMsgs s.ops))) = wire m + load (ms ++ (s.out ++ sayMsgs s.ops)) := by
          simp [load]
        omega
      · intro x hx
        apply hi.small
        rw [e3]
        exact List.mem_cons_of_mem _ hx
      · have := hi.shape
        unfold ahead sent at this ⊢
        simp only
        rw [e1, e2, ← e4]
        exact this
    | write m ms hp hf =>
      left
      have e1 : ∀ X, future s.cli X = m :: future { s.cli with pend := ms } X := by
        intro X
        rw [future_split, hp, future_pend s.cli ms, List.cons_append]
      have e2 := fun X => after_pend s.cli ms X
      have e3 : toTake { s with cli := { s.cli with pend := ms }, cout := s.cout ++ [m] } = toTake s := by
        unfold toTake
        rw [e1]
        simp [toRead]
      have e4 : sent { s with cli := { s.cli with pend := ms }, cout := s.cout ++ [m] } = sent s := by
        unfold sent
        rw [e1]
        simp
      refine ⟨hi.running, ?_, ?_, by rw [e3]; exact hi.suffix, by rw [e3]; exact hi.ne, hi.load, hi.small, ?_⟩
      · show (after { s.cli with pend := ms } (toRead s)).mode = _
        rw [(e2 _).1]; exact hi.over
      · show (after { s.cli with pend := ms } (toRead s)).log = _
        rw [(e2 _).2.2]; exact hi.log
      · rw [e4]
        show Shape (after { s.cli with pend := ms } (s.down ++ s.out)).mode
          (after { s.cli with pend := ms } (s.down ++ s.out)).datapth _ _
        rw [(e2 _).1, (e2 _).2.1]
        exact hi.shape
    | cflush m ms hc hu =>
      left
      have e3 : toTake { s with cout := ms, up := s.up ++ [m] } = toTake s := by
        simp [toTake, toRead, hc]
      have e4 : sent { s with cout := ms, up := s.up ++ [m] } = sent s := by
        simp [sent, hc]
      exact ⟨hi.running, hi.over, hi.log, by rw [e3]; exact hi.suffix, by rw [e3]; exact hi.ne, hi.load, hi.small,
        by rw [e4]; exact hi.shape⟩
  · exfalso
    cases h with
    | say m ops hv => rw [hi.done] at hv; simp at hv
    | nothing d ops hv => rw [hi.done] at hv; simp at hv
    | look d ops m ms hv => rw [hi.done] at hv; simp at hv
    | drained ops hv => rw [hi.done] at hv; simp at hv
    | drain ops m ms hv => rw [hi.done] at hv; simp at hv
    | receive m ms hv => rw [hi.done] at hv; simp at hv
    | flush m ms hv => rw [hi.done] at hv; simp at hv
    | read m ms hp h1 => exact h1 hi.mode
    | write m ms hp => rw [hi.pend] at hp; simp at hp
    | cflush m ms hc => rw [hi.cout] at hc; simp at hc

theorem inv_steps (room : Room) (A : List Msg) (hA : Answers A) (E : List (Str × Option (List Str))) (L : Nat)
    {n : Nat} {s t : Sys} (h : Steps room n s t) (hi : Inv A E L s) : Inv A E L t := by
  induction h with
  | refl => exact hi
  | step _ hs ih => exact inv_step room A hA E L hs (ih hi)

/-! ### How it starts -/

theorem after_pieces (path : Str) (got aft : List Str) (dp : Option Str) (rs : List Reply) (p : List Msg)
    (log : List (Str × Option (List Str))) (d : Str) (pieces : List Str) (rest : List Msg) :
    after ⟨.taking path got aft, dp, rs, p, log⟩
      (sayMsgs (pieces.flatMap (fun q => [.say ⟨.append, q⟩, .look d])) ++ rest) =
      after ⟨.taking path (got ++ pieces) aft, dp, rs, if pieces = [] then p else [], log⟩ rest ∧
    future ⟨.taking path got aft, dp, rs, p, log⟩
      (sayMsgs (pieces.flatMap (fun q => [.say ⟨.append, q⟩, .look d])) ++ rest) =
      p ++ future ⟨.taking path (got ++ pieces) aft, dp, rs, [], log⟩ rest := by
  induction pieces generalizing got p with
  | nil =>
    simp only [List.flatMap_nil, sayMsgs, List.filterMap_nil, List.nil_append, List.append_nil, if_true, true_and]
    exact future_pend ⟨.taking path got aft, dp, rs, [], log⟩ p rest
  | cons q ps ih =>
    have e : sayMsgs ((q :: ps).flatMap (fun q => [.say ⟨.append, q⟩, .look d])) ++ rest =
        ⟨.append, q⟩ :: (sayMsgs (ps.flatMap (fun q => [.say ⟨.append, q⟩, .look d])) ++ rest) := by
      simp [sayMsgs]
    have r : cliRead ⟨.taking path got aft, dp, rs, [], log⟩ ⟨.append, q⟩ =
        ⟨.taking path (got ++ [q]) aft, dp, rs, [], log⟩ := by simp [cliRead]
    rw [e, after_cons, future]
    simp only [r]
    obtain ⟨k1, k2⟩ := ih (got ++ [q]) []
    rw [k1, k2]
    simp

/-- What the client makes of an entry whose data are found. -/
theorem entry_some (e : Entry) (he : e.Fine) (path : Str) (content : List Str) (hs : e.shown = some (path, content))
    (dp : Option Str) (r : Reply) (rs : List Reply) (p : List Msg) (log : List (Str × Option (List Str))) :
    ∃ dp' p', after ⟨.idle, dp, r :: rs, p, log⟩ (sayMsgs (entryOps e)) =
        ⟨.idle, dp', rs, p', log ++ [(path, if r.refuse then none else some content)]⟩ ∧
      future ⟨.idle, dp, r :: rs, p, log⟩ (sayMsgs (entryOps e)) = p ++ answer e r := by
  cases e with
  | plain cmd pa attr =>
    simp only [Entry.shown, Option.some.injEq, Prod.mk.injEq] at hs
    obtain ⟨rfl, rfl⟩ := hs
    have hk := he.1
    have e1 : sayMsgs (entryOps (.plain cmd pa attr)) = [⟨.attribs, attr⟩, ⟨cmd, pa⟩] := by simp [sayMsgs, entryOps]
    have r1 := read_attribs ⟨.idle, dp, r :: rs, [], log⟩ attr rfl
    have r2 : cliRead ⟨.idle, dp, r :: rs, [], log⟩ ⟨cmd, pa⟩ = dealPlain ⟨.idle, dp, r :: rs, [], log⟩ pa [] := by
      rcases hk with rfl | rfl <;> simp [cliRead, endMsg, Cmd.isLink, Cmd.isFiledata, Cmd.isVssdata]
    rw [e1]
    simp only [after, future, r1, r2, dealPlain, answer, List.nil_append]
    exact ⟨_, _, rfl, trivial⟩
  | link cmd pa attr target =>
    simp only [Entry.shown, Option.some.injEq, Prod.mk.injEq] at hs
    obtain ⟨rfl, rfl⟩ := hs
    have hk : cmd.isLink = true := he.1
    have e1 : sayMsgs (entryOps (.link cmd pa attr target)) = [⟨.attribs, attr⟩, ⟨cmd, pa⟩, ⟨cmd, target⟩] := by
      simp [sayMsgs, entryOps]
    have r1 := read_attribs ⟨.idle, dp, r :: rs, [], log⟩ attr rfl
    have r2 : cliRead ⟨.idle, dp, r :: rs, [], log⟩ ⟨cmd, pa⟩ = ⟨.link pa, dp, r :: rs, [], log⟩ := by
      cases cmd <;> first | exact absurd hk (by decide) | simp [cliRead, endMsg, Cmd.isLink]
    have r3 : cliRead ⟨.link pa, dp, r :: rs, [], log⟩ ⟨cmd, target⟩ =
        dealPlain ⟨.link pa, dp, r :: rs, [], log⟩ pa [target] := by
      simp [cliRead, hk]
    rw [e1]
    simp only [after, future, r1, r2, r3, dealPlain, answer, List.nil_append]
    exact ⟨_, _, rfl, trivial⟩
  | data cmd pa attr d pieces ender aft =>
    simp only [Entry.shown, Option.some.injEq, Prod.mk.injEq] at hs
    obtain ⟨rfl, rfl⟩ := hs
    obtain ⟨hk, hd, hend⟩ := he.1
    have hk' : hasData cmd = true := by simpa [hasData] using hk
    have e1 : sayMsgs (entryOps (.data cmd pa attr d pieces ender aft)) =
        ⟨.datapth, d⟩ :: ⟨.attribs, attr⟩ :: ⟨cmd, pa⟩ ::
          sayMsgs (body d pieces ender (aft.map (fun w => .say ⟨.warning, w⟩))) := by
      simp [sayMsgs, entryOps, body]
    have r0 : cliRead ⟨.idle, dp, r :: rs, [], log⟩ ⟨.datapth, d⟩ = ⟨.idle, some d, r :: rs, [], log⟩ := by
      simp [cliRead, endMsg]
    have r1 := read_attribs ⟨.idle, some d, r :: rs, [], log⟩ attr rfl
    have r2 := read_data ⟨.idle, some d, r :: rs, [], log⟩ cmd pa hk' rfl
    -- the messages that follow the end
    have tail : ∀ (p : List Msg) (log' : List (Str × Option (List Str))) (ws : List Str),
        (∃ p', after ⟨.idle, none, rs, p, log'⟩ (sayMsgs (ws.map (fun w => .say ⟨.warning, w⟩))) =
          ⟨.idle, none, rs, p', log'⟩) ∧
        future ⟨.idle, none, rs, p, log'⟩ (sayMsgs (ws.map (fun w => .say ⟨.warning, w⟩))) = p := by
      intro p log' ws
      induction ws generalizing p with
      | nil => exact ⟨⟨p, rfl⟩, rfl⟩
      | cons w ws ih =>
        have r : cliRead ⟨.idle, none, rs, [], log'⟩ ⟨.warning, w⟩ = ⟨.idle, none, rs, [], log'⟩ := by
          simp [cliRead, endMsg]
        rw [List.map_cons, sayMsgs_say, after_cons, future]
        simp only [r]
        exact ⟨(ih []).1, by rw [(ih []).2, List.append_nil]⟩
    rw [e1]
    simp only [after, future, r0, r1, r2, dealData, List.nil_append]
    cases hr : r.refuse with
    | true =>
      simp only [if_true, answer, hr]
      obtain ⟨k1, k2⟩ := after_body ⟨.skipping pa, none, rs, says r.warns ++ [⟨.interrupt, d⟩], log⟩ pa rfl d pieces
        ender (aft.map (fun w => .say ⟨.warning, w⟩))
      rw [k1, k2, sayMsgs_say, after_cons, future]
      have r3 : cliRead ⟨.skipping pa, none, rs, [], log⟩ ⟨.endFile, ender⟩ =
          ⟨.idle, none, rs, [], log ++ [(pa, none)]⟩ := by simp [cliRead, hend]
      simp only [r3]
      obtain ⟨⟨p', t1⟩, t2⟩ := tail [] (log ++ [(pa, none)]) aft
      rw [t1, t2]
      exact ⟨_, _, rfl, by simp⟩
    | false =>
      simp only [Bool.false_eq_true, if_false, answer, hr]
      rw [body, sayMsgs_append]
      obtain ⟨k1, k2⟩ := after_pieces pa [] r.after none rs (says r.warns) log d pieces
        (sayMsgs (.say ⟨.endFile, ender⟩ :: aft.map (fun w => .say ⟨.warning, w⟩)))
      rw [k1, k2, sayMsgs_say, after_cons, future]
      have r3 : cliRead ⟨.taking pa ([] ++ pieces) r.after, none, rs, [], log⟩ ⟨.endFile, ender⟩ =
          ⟨.idle, none, rs, says r.after, log ++ [(pa, some pieces)]⟩ := by simp [cliRead]
      simp only [r3]
      obtain ⟨⟨p', t1⟩, t2⟩ := tail (says r.after) (log ++ [(pa, some pieces)]) aft
      rw [t1, t2]
      exact ⟨_, _, rfl, by simp⟩
  | missing attr d warn => simp [Entry.shown] at hs

theorem entry_none (e : Entry) (hs : e.shown = none) (dp : Option Str) (rs : List Reply) (p : List Msg)
    (log : List (Str × Option (List Str))) :
    ∃ dp', after ⟨.idle, dp, rs, p, log⟩ (sayMsgs (entryOps e)) = ⟨.idle, dp', rs, [], log⟩ ∧
      future ⟨.idle, dp, rs, p, log⟩ (sayMsgs (entryOps e)) = p := by
  cases e with
  | plain cmd pa attr => simp [Entry.shown] at hs
  | link cmd pa attr target => simp [Entry.shown] at hs
  | data cmd pa attr d pieces ender aft => simp [Entry.shown] at hs
  | missing attr d warn =>
    refine ⟨some d, ?_⟩
    simp [sayMsgs, entryOps, after, future, cliRead, endMsg]

theorem answers_none (e : Entry) (es : List Entry) (rs : List Reply) (hs : e.shown = none) :
    answers (e :: es) rs = answers es rs := by
  rw [answers.eq_def]
  simp [hs]

theorem answers_some (e : Entry) (es : List Entry) (r : Reply) (rs : List Reply) (pc : Str × List Str)
    (hs : e.shown = some pc) : answers (e :: es) (r :: rs) = answer e r ++ answers es rs := by
  rw [answers.eq_def]
  simp [hs]

theorem answers_nil (e : Entry) (es : List Entry) (pc : Str × List Str)
    (hs : e.shown = some pc) : answers (e :: es) [] = [] := by
  rw [answers.eq_def]
  simp [hs]

theorem expected_none (e : Entry) (es : List Entry) (rs : List Reply) (hs : e.shown = none) :
    expected (e :: es) rs = expected es rs := by
  rw [expected.eq_def]
  simp [hs]

theorem expected_some (e : Entry) (es : List Entry) (r : Reply) (rs : List Reply) (path : Str) (content : List Str)
    (hs : e.shown = some (path, content)) :
    expected (e :: es) (r :: rs) = (path, if r.refuse then none else some content) :: expected es rs := by
  rw [expected.eq_def]
  simp [hs]

/-- What the client makes of all the entries. -/
theorem entries_run (es : List Entry) (he : ∀ e ∈ es, e.Fine) (rs : List Reply)
    (hl : rs.length = (es.filterMap Entry.shown).length) (dp : Option Str) (p : List Msg)
    (log : List (Str × Option (List Str))) :
    (after ⟨.idle, dp, rs, p, log⟩ (sayMsgs (es.flatMap entryOps) ++ [endMsg])).mode = .over ∧
    (after ⟨.idle, dp, rs, p, log⟩ (sayMsgs (es.flatMap entryOps) ++ [endMsg])).log = log ++ expected es rs ∧
    future ⟨.idle, dp, rs, p, log⟩ (sayMsgs (es.flatMap entryOps) ++ [endMsg]) = p ++ (answers es rs ++ [okMsg]) := by
  induction es generalizing rs dp p log with
  | nil => simp [sayMsgs, after, future, cliRead, expected, answers]
  | cons e es ih =>
    have he' := fun x hx => he x (List.mem_cons_of_mem e hx)
    rw [List.flatMap_cons, sayMsgs_append, List.append_assoc, after_append, future_append]
    cases hs : e.shown with
    | none =>
      obtain ⟨dp', k1, k2⟩ := entry_none e hs dp rs p log
      rw [k1, k2]
      rw [List.filterMap_cons, hs] at hl
      obtain ⟨i1, i2, i3⟩ := ih he' rs hl dp' [] log
      refine ⟨i1, ?_, ?_⟩
      · rw [i2, expected_none e es rs hs]
      · rw [answers_none e es rs hs]
        exact congrArg (p ++ ·) i3
    | some pc =>
      obtain ⟨path, content⟩ := pc
      rw [List.filterMap_cons, hs] at hl
      cases rs with
      | nil => simp at hl
      | cons r rs =>
        obtain ⟨dp', p', k1, k2⟩ := entry_some e (he e (by simp)) path content hs dp r rs p log
        rw [k1, k2]
        obtain ⟨i1, i2, i3⟩ := ih he' rs (by simpa using hl) dp' p'
          (log ++ [(path, if r.refuse then none else some content)])
        obtain ⟨_, _, i3'⟩ := ih he' rs (by simpa using hl) dp' []
          (log ++ [(path, if r.refuse then none else some content)])
        refine ⟨i1, ?_, ?_⟩
        · rw [i2, expected_some e es r rs path content hs]
          simp
        · rw [answers_some e es r rs _ hs]
          simp only
          rw [i3']
          simp

theorem sayMsgs_rounds (rounds : List (List Entry)) :
    sayMsgs (rounds.flatMap (fun r => .drain :: r.flatMap entryOps)) = sayMsgs (rounds.flatten.flatMap entryOps) := by
  induction rounds with
  | nil => rfl
  | cons r rs ih =>
    rw [List.flatMap_cons, List.flatten_cons, List.flatMap_append, sayMsgs_append, sayMsgs_append, ih,
      sayMsgs_drain]

theorem allSaid_eq (rounds : List (List Entry)) (dirs : List Entry) :
    allSaid rounds dirs = sayMsgs ((rounds.flatten ++ dirs).flatMap entryOps) ++ [endMsg] := by
  rw [allSaid, serverOps, sayMsgs_append, sayMsgs_rounds, List.cons_append, sayMsgs_drain, sayMsgs_append,
    List.flatMap_append, sayMsgs_append, List.append_assoc]
  rfl

/-- The items of a restore. -/
def items (rounds : List (List Entry)) (dirs : List Entry) : List Item :=
  rounds.flatMap (fun r => .drain :: r.map .ent) ++ .drain :: dirs.map .ent

theorem items_ops (rounds : List (List Entry)) (dirs : List Entry) :
    serverOps rounds dirs = (items rounds dirs).flatMap Item.ops ++ [.say endMsg] := by
  have h1 : ∀ es : List Entry, (es.map Item.ent).flatMap Item.ops = es.flatMap entryOps := by
    intro es
    rw [List.flatMap_map]
    rfl
  have h2 : (rounds.flatMap (fun r => Item.drain :: r.map .ent)).flatMap Item.ops =
      rounds.flatMap (fun r => Op.drain :: r.flatMap entryOps) := by
    induction rounds with
    | nil => rfl
    | cons r rs ih =>
      rw [List.flatMap_cons, List.flatMap_append, ih, List.flatMap_cons, List.flatMap_cons, h1]
      rfl
  rw [serverOps, items, List.flatMap_append, h2, List.flatMap_cons, h1]
  simp [Item.ops]

theorem items_entries (rounds : List (List Entry)) (dirs : List Entry) :
    (items rounds dirs).filterMap Item.entry = rounds.flatten ++ dirs := by
  have h1 : ∀ es : List Entry, (es.map Item.ent).filterMap Item.entry = es := by
    intro es
    induction es with
    | nil => rfl
    | cons e es ih => rw [List.map_cons, List.filterMap_cons]; simp [Item.entry, ih]
  have h2 : (rounds.flatMap (fun r => Item.drain :: r.map .ent)).filterMap Item.entry = rounds.flatten := by
    induction rounds with
    | nil => rfl
    | cons r rs ih =>
      rw [List.flatMap_cons, List.filterMap_append, ih, List.filterMap_cons]
      simp [Item.entry, h1]
  rw [items, List.filterMap_append, h2, List.filterMap_cons]
  simp [Item.entry, h1]

theorem answers_soft (es : List Entry) (rs : List Reply) (m : Msg) (h : m ∈ answers es rs) :
    m.cmd = .warning ∨ m.cmd = .interrupt := by
  induction es generalizing rs with
  | nil => simp [answers] at h
  | cons e es ih =>
    cases hs : e.shown with
    | none => rw [answers_none e es rs hs] at h; exact ih rs h
    | some pc =>
      cases rs with
      | nil => rw [answers_nil e es _ hs] at h; simp at h
      | cons r rs =>
        rw [answers_some e es r rs _ hs] at h
        simp only [List.mem_append] at h
        rcases h with h | h
        · cases e with
          | data cmd pa attr d pieces ender aft =>
            simp only [answer, List.mem_append] at h
            rcases h with h | h
            · exact .inl (says_cmd _ _ h)
            · cases hr : r.refuse with
              | true =>
                rw [hr] at h
                simp only [if_true, List.mem_singleton] at h
                exact .inr (by rw [h])
              | false =>
                rw [hr] at h
                exact .inl (says_cmd _ _ (by simpa using h))
          | plain => exact .inl (says_cmd _ _ h)
          | link => exact .inl (says_cmd _ _ h)
          | missing => exact .inl (says_cmd _ _ h)
        · exact ih rs h

theorem answers_form (rounds : List (List Entry)) (dirs : List Entry) (replies : List Reply) :
    Answers (allAnswered rounds dirs replies) :=
  ⟨_, rfl, fun m hm => answers_soft _ _ m hm⟩

theorem inv_begin (rounds : List (List Entry)) (dirs : List Entry) (replies : List Reply)
    (hf : Fine rounds dirs replies) :
    Inv (allAnswered rounds dirs replies) (expected (rounds.flatten ++ dirs) replies) (load (allSaid rounds dirs))
      (begin_ rounds dirs replies) := by
  left
  have e : toRead (begin_ rounds dirs replies) = allSaid rounds dirs := by simp [toRead, begin_, allSaid]
  obtain ⟨k1, k2, k3⟩ := entries_run (rounds.flatten ++ dirs) hf.entries replies hf.count none [] []
  rw [← allSaid_eq] at k1 k2 k3
  have et : toTake (begin_ rounds dirs replies) = allAnswered rounds dirs replies := by
    rw [toTake, e]
    exact k3
  refine ⟨rfl, by rw [e]; exact k1, by rw [e]; exact k2, et ▸ List.suffix_refl _, ?_, by rw [e]; exact Nat.le_refl _,
    ?_, ?_⟩
  · rw [et]
    simp [allAnswered]
  · intro m hm
    rw [e, allSaid_eq] at hm
    rcases List.mem_append.1 hm with hm | hm
    · simp only [sayMsgs, List.mem_filterMap, List.mem_flatMap] at hm
      obtain ⟨o, ⟨x, hx1, hx2⟩, ho⟩ := hm
      exact (hf.entries x hx1).2 m (List.mem_filterMap.2 ⟨o, hx2, ho⟩)
    · rw [List.mem_singleton] at hm
      rw [hm]
      unfold Small
      decide
  · refine ⟨[], items rounds dirs, [.say endMsg], items_ops rounds dirs, .inl rfl, ?_, ?_, ?_, .quiet _ ?_⟩
    · intro x hx
      apply hf.entries
      rw [← items_entries]
      exact List.mem_filterMap.2 ⟨_, hx, rfl⟩
    · rw [dpths, items_entries]
      exact hf.dpths
    · intro d hd
      simp [sent, begin_, future] at hd
    · intro o ho
      simp at ho

/-! ### A state without steps -/

theorem small_answered (rounds : List (List Entry)) (dirs : List Entry) (replies : List Reply)
    (hf : Fine rounds dirs replies) (m : Msg) (h : m ∈ allAnswered rounds dirs replies) : Small m := by
  simp only [allAnswered, List.mem_append, List.mem_singleton] at h
  rcases h with h | rfl
  · exact hf.small m h
  · unfold Small; decide

theorem stuck_cases (room : Room) (A : List Msg) (hsm : ∀ m ∈ A, Small m) (E : List (Str × Option (List Str)))
    (L : Nat) (s : Sys) (hi : Inv A E L s) (hs : Stuck room s) : s.verdict = .done ∨ Stalled room s := by
  rcases hi with hi | hi
  · right
    have hv := hi.running
    have mem_take : ∀ m, m ∈ toTake s → Small m := fun m hm => hsm m (hi.suffix.subset hm)
    have hpend : ∀ m ms, s.cli.pend = m :: ms → ¬ fits s.cout m := fun m ms h hf => hs _ (.write s m ms h hf)
    have hcout : ∀ m ms, s.cout = m :: ms → ¬ carries room.up s.up m := fun m ms h hc => hs _ (.cflush s m ms h hc)
    have hout : ∀ m ms, s.out = m :: ms → ¬ carries room.down s.down m := fun m ms h hc =>
      hs _ (.flush s m ms hv h hc)
    have full : s.cli.pend ≠ [] → s.cout ≠ [] := by
      intro h
      obtain ⟨m, ms, e⟩ := List.exists_cons_of_ne_nil h
      intro hc
      have := hpend m ms e
      rw [hc] at this
      refine this (fits_nil m (mem_take m ?_))
      unfold toTake
      rw [future_split, e]
      simp
    have upFull : s.cout ≠ [] → s.up ≠ [] := by
      intro h hu
      obtain ⟨m, ms, e⟩ := List.exists_cons_of_ne_nil h
      exact hcout m ms e (.inl hu)
    have busy : s.down ≠ [] → s.cli.pend ≠ [] := by
      intro h hp
      obtain ⟨m, ms, e⟩ := List.exists_cons_of_ne_nil h
      refine hs _ (.read s m ms hp ?_ ?_ e)
      · intro ho
        have := after_over _ ho _ hi.over
        simp [toRead, e] at this
      · intro hf
        have := hi.over
        rw [after_failed _ hf] at this
        exact absurd this (by decide)
    have downFull : s.out ≠ [] → s.down ≠ [] := by
      intro h hd
      obtain ⟨m, ms, e⟩ := List.exists_cons_of_ne_nil h
      exact hout m ms e (.inl hd)
    cases hop : s.ops with
    | nil =>
      exfalso
      have hu : s.up = [] := by
        cases hu : s.up with
        | nil => rfl
        | cons m ms => exact absurd (Step.receive s m ms hv hop hu) (hs _)
      have hc : s.cout = [] := by
        by_cases h : s.cout = []
        · exact h
        · exact absurd hu (upFull h)
      have hp : s.cli.pend = [] := by
        by_cases h : s.cli.pend = []
        · exact h
        · exact absurd hc (full h)
      have hd : s.down = [] := by
        by_cases h : s.down = []
        · exact h
        · exact absurd hp (busy h)
      have ho : s.out = [] := by
        by_cases h : s.out = []
        · exact h
        · exact absurd hd (downFull h)
      exact hi.ne (by simp [toTake, toRead, hu, hc, hd, ho, hop, sayMsgs, future, hp])
    | cons o ops =>
      cases o with
      | look d => exact absurd (Step.nothing s d ops hv hop) (hs _)
      | drain => exact absurd (Step.drained s ops hv hop) (hs _)
      | say m =>
        have hnf : ¬ fits s.out m := fun hf => hs _ (.say s m ops hv hop hf)
        have ho : s.out ≠ [] := by
          intro ho
          rw [ho] at hnf
          exact hnf (fits_nil m (hi.small m (by simp [toRead, hop, sayMsgs_say])))
        have hp := busy (downFull ho)
        have hc := full hp
        obtain ⟨m1, l1, e1⟩ := List.exists_cons_of_ne_nil ho
        obtain ⟨m2, l2, e2⟩ := List.exists_cons_of_ne_nil hp
        obtain ⟨m3, l3, e3⟩ := List.exists_cons_of_ne_nil hc
        exact ⟨hv, ⟨m, ops, hop, hnf⟩, ⟨m1, l1, e1, hout _ _ e1⟩, ⟨m2, l2, e2, hpend _ _ e2⟩, ⟨m3, l3, e3, hcout _ _ e3⟩⟩
  · exact .inl hi.done

end Verif.RestoreFlow
