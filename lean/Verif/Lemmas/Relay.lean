import Verif.Spec.Relay
import Verif.Lemmas.Asfd
import Verif.Lemmas.YajlInput

/-!
# Lemmas about the monitor client
-/

namespace Verif.Relay
open Iobuf Yajl

theorem cut_none : ∀ {a : Str}, (10 : Byte) ∉ a → cut a = ([], a)
  | [], _ => rfl
  | c :: a, h => by
    simp only [List.mem_cons, not_or] at h
    have hc : c ≠ 10 := fun e => h.1 e.symm
    simp only [cut, if_neg hc, cut_none h.2]

theorem cut_line : ∀ {a : Str} (b : Str), (10 : Byte) ∉ a → cut (a ++ 10 :: b) = (a :: (cut b).1, (cut b).2)
  | [], b, _ => by simp [cut]
  | c :: a, b, h => by
    simp only [List.mem_cons, not_or] at h
    have hc : c ≠ 10 := fun e => h.1 e.symm
    rw [List.cons_append, cut, if_neg hc, cut_line b h.2]

theorem cut_whole : ∀ {d : Str} (x : Str), (cut d).2 = [] → cut (d ++ x) = ((cut d).1 ++ (cut x).1, (cut x).2)
  | [], x, _ => by simp [cut]
  | c :: d, x, h => by
    rw [cut] at h
    by_cases hc : c = 10
    · rw [if_pos hc] at h
      rw [List.cons_append, cut, if_pos hc, cut_whole x h, cut, if_pos hc]
      rfl
    · rw [if_neg hc] at h
      cases hd : (cut d).1 with
      | nil => rw [hd] at h; cases h
      | cons l ls =>
        rw [hd] at h
        have := cut_whole x h
        rw [List.cons_append, cut, if_neg hc, this, cut, if_neg hc, hd]
        rfl

theorem white_isWs (c : Byte) : white c = isWs c := by
  unfold white isWs
  rw [decide_eq_decide]
  simp only [List.mem_cons, List.not_mem_nil, or_false, ← UInt8.toNat_inj]
  simp only [UInt8.reduceToNat]
  omega

theorem trim_strip (s : Str) : trim s = strip s := by
  unfold trim strip
  congr 2
  exact funext white_isWs

theorem trim_length (s : Str) : (trim s).length ≤ s.length := by
  unfold trim
  rw [List.length_reverse]
  have := (List.dropWhile_sublist (p := white) (l := s.reverse)).length_le
  rwa [List.length_reverse] at this

theorem asked_whole {d : Str} (x : Str) (h : (cut d).2 = []) : asked (d ++ x) = asked d ++ asked x := by
  unfold asked
  rw [cut_whole x h, List.map_append, List.filter_append]

theorem asked_none {a : Str} (h : (10 : Byte) ∉ a) : asked a = [] := by
  unfold asked
  rw [cut_none h]; rfl

theorem asked_line {a : Str} (h : (10 : Byte) ∉ a) : asked (a ++ [10]) = [trim a].filter (· ≠ []) := by
  unfold asked
  rw [cut_line [] h]; rfl

/-- What `getLine` finds. -/
theorem getLine_inv {buf l rest : Str} (h : getLine buf = .line l rest) :
    ∃ a, (10 : Byte) ∉ a ∧ buf = a ++ 10 :: rest ∧ l = trim a := by
  by_cases hm : newline ∈ buf
  · obtain ⟨a, b, hb, ha⟩ := List.eq_append_cons_of_mem hm
    by_cases hl : a.length + 1 < Yajl.bufMax
    · rw [hb, getLine_line ha hl] at h
      injection h with h1 h2
      subst h2
      exact ⟨a, ha, hb, by rw [trim_strip, h1]⟩
    · obtain ⟨h1, h2⟩ := takeWhile_line (b := b) ha
      rw [hb] at h
      unfold getLine at h
      simp only [h1, h2] at h
      rw [if_pos (by omega)] at h
      cases h
  · rw [getLine_none hm] at h; cases h

theorem wire_append (a b : List Str) : wire (a ++ b) = wire a ++ wire b := by
  unfold wire; rw [List.map_append, List.flatten_append]

/-- What holds all the time. -/
structure Inv (s : St) (all : Str) (ans : List Str) : Prop where
  out : s.shown ++ s.outBuf = ans.flatten
  fits : s.outBuf.length + 1 < Asfd.bufMax ∧ s.srvBuf.length + 1 < Asfd.bufMax
  srv : ∃ done sent, all = done ++ s.typed ∧ (cut done).2 = [] ∧
    asked done = sent ++ s.line.toList.filter (· ≠ []) ∧ s.gone ++ s.srvBuf = wire sent

theorem inv_init : Inv {} [] [] := ⟨rfl, by decide, [], [], rfl, rfl, rfl, rfl⟩

theorem allTyped_cons (e : Ev) (es : List Ev) : allTyped (e :: es) = allTyped [e] ++ allTyped es := by
  cases e <;> simp [allTyped]

theorem answers_cons (e : Ev) (es : List Ev) : answers (e :: es) = answers [e] ++ answers es := by
  cases e <;> simp only [answers, List.nil_append]
  split <;> simp

theorem take_drop_app (x b : Str) (n : Nat) : (x ++ b.take n) ++ b.drop n = x ++ b := by
  rw [List.append_assoc, List.take_append_drop]

theorem inv_step {s t : St} {all : Str} {ans : List Str} (hi : Inv s all ans) {e : Ev} (h : step s e = some t) :
    Inv t (all ++ allTyped [e]) (ans ++ answers [e]) := by
  obtain ⟨ho, hf, done, sent, h1, h2, h3, h4⟩ := hi
  have hmax : Asfd.bufMax = 32032 := rfl
  unfold step at h
  split at h
  · cases h
  cases e with
  | server m =>
    simp only at h
    split at h
    · next hm =>
      injection h with h; subst h
      have : answers [.server m] = [] := by
        rw [answers, if_neg (by omega)]; rfl
      rw [this]
      exact ⟨by simpa using ho, hf, done, sent, by simpa [allTyped] using h1, h2, h3, h4⟩
    · next hm =>
      split at h
      · cases h
      · next hr =>
        injection h with h; subst h
        have : answers [.server m] = [m] := by
          rw [answers, if_pos (by omega)]; rfl
        rw [this]
        refine ⟨?_, ⟨?_, hf.2⟩, done, sent, by simpa [allTyped] using h1, h2, h3, h4⟩
        · simp only [List.flatten_append, List.flatten_cons, List.flatten_nil, List.append_nil]
          rw [← List.append_assoc, ho]
        · simp only [List.length_append]; omega
  | keys r =>
    simp only at h
    split at h
    · injection h with h; subst h
      exact ⟨by simpa [answers] using ho, hf, done, sent, by simp [allTyped, h1], h2, h3, h4⟩
    · cases h
  | take =>
    simp only at h
    split at h
    · next hl =>
      split at h
      · split at h
        · injection h with h; subst h
          exact ⟨by simpa [answers] using ho, hf, done, sent, by simpa [allTyped] using h1, h2, h3, h4⟩
        · cases h
      · injection h with h; subst h
        exact ⟨by simpa [answers] using ho, hf, done, sent, by simpa [allTyped] using h1, h2, h3, h4⟩
      · next l rest hg =>
        injection h with h; subst h
        obtain ⟨a, ha, hb, hla⟩ := getLine_inv hg
        refine ⟨by simpa [answers] using ho, hf, done ++ (a ++ [10]), sent, ?_, ?_, ?_, h4⟩
        · simp [allTyped, h1, hb]
        · rw [cut_whole _ h2, cut_line [] ha]; rfl
        · rw [asked_whole _ h2, asked_line ha, h3, hl, hla]; simp
    · cases h
  | copy =>
    simp only at h
    split at h
    · cases h
    · next l hl =>
      split at h
      · next hnil =>
        injection h with h; subst h
        refine ⟨by simpa [answers] using ho, hf, done, sent, by simpa [allTyped] using h1, h2, ?_, h4⟩
        rw [h3, hl, hnil]; rfl
      · next hnil =>
        split at h
        · cases h
        · next b hb =>
          injection h with h; subst h
          obtain ⟨hb1, hb2, _⟩ := Asfd.append_some hb
          refine ⟨by simpa [answers] using ho, ⟨hf.1, hb2⟩, done, sent ++ [l], by simpa [allTyped] using h1, h2, ?_, ?_⟩
          · rw [h3, hl]; simp [hnil]
          · simp only
            rw [hb1, wire_append, ← h4]
            simp [wire, Asfd.frame, cmdGen, bytes]
  | wroteOut n =>
    simp only at h
    injection h with h; subst h
    refine ⟨?_, ⟨?_, hf.2⟩, done, sent, by simpa [allTyped] using h1, h2, h3, h4⟩
    · simp only [take_drop_app, ho, answers, List.append_nil]
    · simp only [List.length_drop]; omega
  | wroteSrv n =>
    simp only at h
    injection h with h; subst h
    refine ⟨by simpa [answers] using ho, ⟨hf.1, ?_⟩, done, sent, by simpa [allTyped] using h1, h2, h3, ?_⟩
    · simp only [List.length_drop]; omega
    · simp only [take_drop_app, h4]
  | inputEnds =>
    simp only at h
    injection h with h; subst h
    exact ⟨by simpa [answers] using ho, hf, done, sent, by simpa [allTyped] using h1, h2, h3, h4⟩
  | serverEnds =>
    simp only at h
    injection h with h; subst h
    exact ⟨by simpa [answers] using ho, hf, done, sent, by simpa [allTyped] using h1, h2, h3, h4⟩

theorem inv_run : ∀ {es : List Ev} {s t : St} {all : Str} {ans : List Str}, Inv s all ans → run s es = some t →
    Inv t (all ++ allTyped es) (ans ++ answers es)
  | [], s, t, all, ans, hi, h => by
    rw [run] at h
    injection h with h; subst h
    simpa [allTyped, answers] using hi
  | e :: es, s, t, all, ans, hi, h => by
    rw [run] at h
    split at h
    · cases h
    · next u hu =>
      have := inv_run (inv_step hi hu) h
      rwa [List.append_assoc, List.append_assoc, ← allTyped_cons, ← answers_cons] at this

theorem run_append : ∀ {a b : List Ev} {s t : St}, run s a = some t → run s (a ++ b) = run t b
  | [], b, s, t, h => by rw [run] at h; injection h with h; subst h; rfl
  | e :: a, b, s, t, h => by
    rw [run] at h
    rw [List.cons_append]
    split at h
    · cases h
    · next u hu =>
      rw [run, hu]
      exact run_append h

theorem quiet_typed : ∀ {es : List Ev}, (∀ e ∈ es, Quiet e) → allTyped es = [] ∧ answers es = []
  | [], _ => ⟨rfl, rfl⟩
  | e :: es, h => by
    have ih := quiet_typed (es := es) (fun x hx => h x (List.mem_cons_of_mem _ hx))
    have := h e (List.mem_cons_self)
    cases e <;> simp [Quiet] at this <;> exact ih

/-- What is written. -/
theorem run_drain (s : St) (ho : s.over = false) :
    run s [.wroteOut s.outBuf.length, .wroteSrv s.srvBuf.length] =
      some { s with outBuf := [], shown := s.shown ++ s.outBuf, srvBuf := [], gone := s.gone ++ s.srvBuf } := by
  simp [run, step, ho]

theorem append_short {l : Str} (h : l.length < 32025) : ∃ b, Asfd.append [] ⟨cmdGen, l⟩ = some b := by
  unfold Asfd.append
  rw [if_neg (by have : Asfd.bufMax = 32032 := rfl
                 simp only [List.length_nil]; omega)]
  exact ⟨_, rfl⟩

/-- The line that was taken is copied, and all is written. -/
theorem clear_line (s : St) (ho : s.over = false) (hl : ∀ l, s.line = some l → l.length < 32025) :
    ∃ es t, (∀ e ∈ es, Quiet e) ∧ run s es = some t ∧ t.over = false ∧ t.line = none ∧ t.typed = s.typed
      ∧ t.outBuf = [] ∧ t.srvBuf = [] := by
  have hd := run_drain s ho
  cases hline : s.line with
  | none =>
    refine ⟨_, _, ?_, hd, ho, hline, rfl, rfl, rfl⟩
    intro e he; simp at he; rcases he with rfl | rfl <;> trivial
  | some l =>
    by_cases hnil : l = []
    · have h1 : run s ([.wroteOut s.outBuf.length, .wroteSrv s.srvBuf.length] ++ [.copy]) =
          some { s with outBuf := [], shown := s.shown ++ s.outBuf, srvBuf := [], gone := s.gone ++ s.srvBuf, line := none } := by
        rw [run_append hd]
        simp [run, step, ho, hline, hnil]
      refine ⟨_, _, ?_, h1, ho, rfl, rfl, rfl, rfl⟩
      intro e he; simp at he; rcases he with rfl | rfl | rfl <;> trivial
    · obtain ⟨b, hb⟩ := append_short (hl l hline)
      have h1 : run s ([.wroteOut s.outBuf.length, .wroteSrv s.srvBuf.length] ++ [.copy]) =
          some { s with outBuf := [], shown := s.shown ++ s.outBuf, srvBuf := b, gone := s.gone ++ s.srvBuf, line := none } := by
        rw [run_append hd]
        simp [run, step, ho, hline, hnil, hb]
      have h2 := (run_append h1).trans (run_drain
        { s with outBuf := [], shown := s.shown ++ s.outBuf, srvBuf := b, gone := s.gone ++ s.srvBuf, line := none } ho)
      refine ⟨_, _, ?_, h2, ho, rfl, rfl, rfl, rfl⟩
      intro e he; simp at he; rcases he with rfl | rfl | rfl | rfl | rfl <;> trivial

theorem all_clear : ∀ (n : Nat) (s : St), s.typed.length ≤ n → s.over = false →
    (∀ l, s.line = some l → l.length < 32025) → (∀ l ∈ (cut s.typed).1, l.length < 32025) →
    ∃ es t, (∀ e ∈ es, Quiet e) ∧ run s es = some t ∧ t.over = false ∧ t.line = none ∧ (10 : Byte) ∉ t.typed
      ∧ t.outBuf = [] ∧ t.srvBuf = [] := by
  intro n
  induction n with
  | zero =>
    intro s hn ho hl _
    obtain ⟨es, t, h1, h2, h3, h4, h5, h6, h7⟩ := clear_line s ho hl
    refine ⟨es, t, h1, h2, h3, h4, ?_, h6, h7⟩
    rw [h5, List.length_eq_zero_iff.1 (Nat.le_zero.1 hn)]
    simp
  | succ n ih =>
    intro s hn ho hl hc
    obtain ⟨es, t, h1, h2, h3, h4, h5, h6, h7⟩ := clear_line s ho hl
    by_cases hm : (10 : Byte) ∈ s.typed
    · obtain ⟨a, b, hb, ha⟩ := List.eq_append_cons_of_mem hm
      rw [hb, cut_line b ha] at hc
      have hal : a.length < 32025 := hc a List.mem_cons_self
      have hg : getLine t.typed = .line (strip a) b := by
        rw [h5, hb]
        exact getLine_line ha (by have : Yajl.bufMax = 32032 := rfl
                                  omega)
      have ht : run t [.take] = some { t with line := some (strip a), typed := b } := by
        simp [run, step, h3, h4, hg]
      obtain ⟨es', u, g1, g2, g3⟩ := ih { t with line := some (strip a), typed := b }
        (by have := congrArg List.length hb
            simp only [List.length_append, List.length_cons] at this
            simp only; omega) h3
        (by intro l hl'
            simp only [Option.some.injEq] at hl'
            have := trim_length a
            rw [trim_strip, hl'] at this
            omega)
        (fun l hl' => hc l (List.mem_cons_of_mem _ hl'))
      refine ⟨es ++ ([.take] ++ es'), u, ?_, ?_, g3⟩
      · intro e he
        rw [List.mem_append, List.mem_append] at he
        rcases he with he | he | he
        · exact h1 e he
        · simp at he; subst he; trivial
        · exact g1 e he
      · rw [run_append h2, run_append ht, g2]
    · exact ⟨es, t, h1, h2, h3, h4, by rwa [h5], h6, h7⟩

theorem asked_short {t : Str} (h : ∀ l ∈ (cut t).1, l.length < 32025) : ∀ l ∈ asked t, l.length < 32025 := by
  intro l hl
  unfold asked at hl
  rw [List.mem_filter, List.mem_map] at hl
  obtain ⟨⟨a, ha, rfl⟩, _⟩ := hl
  have := trim_length a
  have := h a ha
  omega

theorem step_over {s : St} (h : s.over = true) (e : Ev) : step s e = none := by
  unfold step; rw [if_pos h]

theorem run_over {s t : St} (h : s.over = true) {es : List Ev} (hr : run s es = some t) : t = s := by
  cases es with
  | nil => rw [run] at hr; injection hr with hr; exact hr.symm
  | cons e es => rw [run, step_over h] at hr; cases hr

/-- A line that is too long for the write buffer stays. -/
theorem stuck_step {s t : St} {l : Str} (hl : s.line = some l) (hlong : 32025 ≤ l.length) {e : Ev} (h : step s e = some t) :
    t.line = some l ∧ t.typed = s.typed ∧ t.gone ++ t.srvBuf = s.gone ++ s.srvBuf := by
  have hmax : Asfd.bufMax = 32032 := rfl
  unfold step at h
  split at h
  · cases h
  cases e with
  | server m =>
    simp only at h
    split at h
    · injection h with h; subst h; exact ⟨hl, rfl, rfl⟩
    · split at h
      · cases h
      · injection h with h; subst h; exact ⟨hl, rfl, rfl⟩
  | keys r => simp [hl] at h
  | take => simp [hl] at h
  | copy =>
    simp only [hl] at h
    have hn : l ≠ [] := by intro e; rw [e] at hlong; simp at hlong
    have hb : Asfd.append s.srvBuf ⟨cmdGen, l⟩ = none := by
      unfold Asfd.append
      rw [if_pos (by simp only; omega)]
    rw [if_neg hn, hb] at h
    cases h
  | wroteOut n => simp only at h; injection h with h; subst h; exact ⟨hl, rfl, rfl⟩
  | wroteSrv n => simp only at h; injection h with h; subst h; exact ⟨hl, rfl, take_drop_app _ _ _⟩
  | inputEnds => simp only at h; injection h with h; subst h; exact ⟨hl, rfl, rfl⟩
  | serverEnds => simp only at h; injection h with h; subst h; exact ⟨hl, rfl, rfl⟩

theorem stuck_run {l : Str} (hlong : 32025 ≤ l.length) : ∀ {es : List Ev} {s t : St}, s.line = some l → run s es = some t →
    t.line = some l ∧ t.gone ++ t.srvBuf = s.gone ++ s.srvBuf
  | [], s, t, hl, h => by rw [run] at h; injection h with h; subst h; exact ⟨hl, rfl⟩
  | e :: es, s, t, hl, h => by
    rw [run] at h
    split at h
    · cases h
    · next u hu =>
      obtain ⟨h1, _, h3⟩ := stuck_step hl hlong hu
      obtain ⟨h4, h5⟩ := stuck_run hlong h1 h
      exact ⟨h4, h5.trans h3⟩

end Verif.Relay
