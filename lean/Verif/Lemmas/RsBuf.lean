import Verif.Spec.RsBuf

/-! # Lemmas: the buffers around librsync -/

namespace Verif.RsBuf
open Verif Verif.Iobuf

variable {σ : Type}

/-- What is still to be read. -/
def toCome (src : Src) (s : St σ) : Str :=
  match src, s.left with
  | .bfd, some n => s.rest.take n
  | _, _ => s.rest

/-- What is kept to between two turns. -/
structure Inv (u : Setup σ) (total : Str) (s : St σ) (x y : Str) : Prop where
  reach : Reach u.job s.job x y s.buf.data s.buf.eof
  input : x ++ s.buf.data = s.seen
  whole : s.seen ++ toCome u.src s = total
  output : s.sent.flatten ++ s.buf.out.getD [] = y
  ended : s.buf.eof = true → toCome u.src s = []
  inFits : s.buf.data.length ≤ u.inLen
  outFits : ∀ w, s.buf.out = some w → w.length ≤ u.outLen
  pieces : ∀ p ∈ s.sent, p ≠ [] ∧ p.length ≤ u.outLen

/-- The measure that goes down. -/
def work (F : Nat) (s : St σ) (y : Str) : Nat :=
  2 * s.rest.length + s.buf.data.length + (if s.buf.eof then 0 else 1) + (F - y.length) +
    (if s.buf.out.isNone then 1 else 0)

theorem toCome_ask (src : Src) (len : Nat) (hl : 0 < len) (s : St σ) (h : ask src len s.left = 0) :
    toCome src s = [] := by
  unfold ask at h
  unfold toCome
  split at h
  · rename_i n hn
    rw [hn]
    have : n = 0 := by omega
    subst this
    exact List.take_zero
  · omega

/-- What filling does: nothing, or some input comes, or the end is seen. -/
theorem fill_cases (u : Setup σ) (hl : 0 < u.inLen) (r : Read) (s : St σ) (he : s.buf.eof = false)
    (hf : s.buf.data.length ≤ u.inLen) (s' : St σ) (h : fill u.src u.inLen r s = (.done, s')) :
    (s' = s ∧ s.buf.data ≠ []) ∨
    (s' = { s with buf := { s.buf with eof := true } } ∧ s.buf.data = [] ∧ toCome u.src s = []) ∨
    (∃ got, got ≠ [] ∧ s.buf.data = [] ∧ got.length ≤ u.inLen ∧
      s' = { s with
        buf := { s.buf with data := got }
        rest := s.rest.drop got.length
        left := s.left.map (· - got.length)
        seen := s.seen ++ got } ∧
      toCome u.src s = got ++ toCome u.src s' ∧ got.length ≤ s.rest.length) := by
  unfold fill at h
  rw [if_neg (by omega), if_neg (by rw [he]; exact Bool.false_ne_true)] at h
  by_cases hd : s.buf.data = []
  · rw [if_neg (fun c => c hd)] at h
    by_cases ha : ask u.src u.inLen s.left = 0
    · rw [if_pos ha] at h
      refine .inr (.inl ⟨(Prod.mk.injEq _ _ _ _ ▸ h).2.symm, hd, toCome_ask _ _ hl _ ha⟩)
    · rw [if_neg ha] at h
      cases r with
      | err => exact absurd (show Result.ioError = Result.done from congrArg Prod.fst h) (by decide)
      | upTo k =>
        dsimp only at h
        split at h
        · rename_i hg
          refine .inr (.inl ⟨(congrArg Prod.snd h).symm, hd, ?_⟩)
          have : s.rest = [] := by
            rcases List.take_eq_nil_iff.mp hg with c | c
            · omega
            · exact c
          unfold toCome
          rw [this]
          split
          · exact List.take_nil
          · rfl
        · rename_i hg
          refine .inr (.inr ⟨s.rest.take (min (ask u.src u.inLen s.left) (k + 1)), hg, hd, ?_, (congrArg Prod.snd h).symm, ?_, ?_⟩)
          · rw [List.length_take]
            have : ask u.src u.inLen s.left ≤ u.inLen := by
              unfold ask; split <;> omega
            omega
          · have hs := congrArg Prod.snd h
            dsimp only at hs
            rw [← hs]
            unfold toCome ask
            dsimp only
            cases u.src with
            | fzp =>
              dsimp only
              rw [List.length_take]
              generalize min u.inLen (k + 1) = m
              by_cases hm : m ≤ s.rest.length
              · rw [Nat.min_eq_left hm, List.take_append_drop]
              · rw [Nat.min_eq_right (by omega), List.take_of_length_le (by omega), List.drop_length, List.append_nil]
            | bfd =>
              cases s.left with
              | none =>
                dsimp only [Option.map]
                rw [List.length_take]
                generalize min u.inLen (k + 1) = m
                by_cases hm : m ≤ s.rest.length
                · rw [Nat.min_eq_left hm, List.take_append_drop]
                · rw [Nat.min_eq_right (by omega), List.take_of_length_le (by omega), List.drop_length, List.append_nil]
              | some n =>
                dsimp only [Option.map]
                rw [List.length_take]
                have hmn : min (min u.inLen n) (k + 1) ≤ n := by omega
                generalize min (min u.inLen n) (k + 1) = m at hmn
                by_cases hm : m ≤ s.rest.length
                · rw [Nat.min_eq_left hm]
                  have : n = m + (n - m) := by omega
                  conv => lhs; rw [this]
                  exact List.take_add
                · rw [Nat.min_eq_right (by omega), List.take_of_length_le (i := m) (by omega), List.drop_length, List.take_nil,
                    List.append_nil, List.take_of_length_le (by omega)]
          · rw [List.length_take]; omega
  · rw [if_pos hd] at h
    exact .inl ⟨(congrArg Prod.snd h).symm, hd⟩

theorem prod_snd_eq {α β : Type} {p : α × β} {a : α} (h : p.1 = a) : p = (a, p.2) := by
  rw [← h]

/-- What holds after the buffer has been filled. -/
structure Mid (u : Setup σ) (total : Str) (s : St σ) (x y d : Str) (e : Bool) (more : Str) : Prop where
  reach : Reach u.job s.job x y d e
  data : s.buf.data = d ++ more
  ok : e = true → more = [] ∧ s.buf.eof = true
  input : x ++ s.buf.data = s.seen
  whole : s.seen ++ toCome u.src s = total
  output : s.sent.flatten ++ s.buf.out.getD [] = y
  ended : s.buf.eof = true → toCome u.src s = []
  inFits : s.buf.data.length ≤ u.inLen
  outFits : ∀ w, s.buf.out = some w → w.length ≤ u.outLen
  pieces : ∀ p ∈ s.sent, p ≠ [] ∧ p.length ≤ u.outLen

theorem mid_of_fill {u : Setup σ} (hl : 0 < u.inLen) {total : Str} {r : Read} {s s' : St σ} {x y : Str}
    (hi : Inv u total s x y) (he : s.buf.eof = false) (h : fill u.src u.inLen r s = (.done, s')) :
    ∃ more, Mid u total s' x y s.buf.data s.buf.eof more := by
  have hne : ¬ s.buf.eof = true := by rw [he]; exact Bool.false_ne_true
  rcases fill_cases u hl r s he hi.inFits s' h with ⟨e, _⟩ | ⟨e, hd, ht⟩ | ⟨got, hg, hd, hlen, e, ht, _⟩
  · subst e
    exact ⟨[], hi.reach, (List.append_nil _).symm, fun c => absurd c hne, hi.input, hi.whole, hi.output, hi.ended,
      hi.inFits, hi.outFits, hi.pieces⟩
  · subst e
    exact ⟨[], hi.reach, (List.append_nil _).symm, fun c => absurd c hne, hi.input, hi.whole, hi.output, fun _ => ht,
      hi.inFits, hi.outFits, hi.pieces⟩
  · have hin := hi.input
    rw [hd, List.append_nil] at hin
    have hw := hi.whole
    rw [ht, ← List.append_assoc] at hw
    subst e
    refine ⟨got, hi.reach, ?_, fun c => absurd c hne, ?_, hw, hi.output, fun c => absurd c hne, hlen, hi.outFits, hi.pieces⟩
    · dsimp only; rw [hd]; rfl
    · dsimp only; rw [hin]

theorem mid_of_inv {u : Setup σ} {total : Str} {s : St σ} {x y : Str} (hi : Inv u total s x y) :
    Mid u total s x y s.buf.data s.buf.eof [] :=
  ⟨hi.reach, (List.append_nil _).symm, fun c => ⟨rfl, c⟩, hi.input, hi.whole, hi.output, hi.ended, hi.inFits,
    hi.outFits, hi.pieces⟩

theorem inv_iter {u : Setup σ} (hj : Lawful u.job) {total : Str} {s : St σ} {x y d more : Str} {e : Bool}
    (hm : Mid u total s x y d e more) :
    Inv u total (iter u.job u.outLen s).2
      (x ++ s.buf.data.take (u.job.iter s.job s.buf.data s.buf.eof (room u.outLen s.buf.out)).used)
      (y ++ (u.job.iter s.job s.buf.data s.buf.eof (room u.outLen s.buf.out)).out) := by
  have hused := hj.used s.job s.buf.data s.buf.eof (room u.outLen s.buf.out)
  have hout := hj.out s.job s.buf.data s.buf.eof (room u.outLen s.buf.out)
  have hreach := Reach.step more s.buf.eof (room u.outLen s.buf.out) hm.reach hm.ok
  rw [← hm.data] at hreach
  unfold iter
  generalize u.job.iter s.job s.buf.data s.buf.eof (room u.outLen s.buf.out) = r at *
  refine ⟨hreach, ?_, hm.whole, ?_, hm.ended, ?_, ?_, hm.pieces⟩
  · show x ++ s.buf.data.take r.used ++ s.buf.data.drop r.used = s.seen
    rw [List.append_assoc, List.take_append_drop, hm.input]
  · show s.sent.flatten ++ (s.buf.out.map (· ++ r.out)).getD [] = y ++ r.out
    rw [← hm.output]
    cases ho : s.buf.out with
    | none =>
      rw [ho] at hout
      have : r.out = [] := List.length_eq_zero_iff.mp (Nat.le_zero.mp hout)
      rw [this]
      show s.sent.flatten ++ [] = s.sent.flatten ++ [] ++ []
      rw [List.append_nil, List.append_nil]
    | some w => exact (List.append_assoc ..).symm
  · show (s.buf.data.drop r.used).length ≤ _
    rw [List.length_drop]
    exact Nat.le_trans (Nat.sub_le ..) hm.inFits
  · intro w hw
    change s.buf.out.map (· ++ r.out) = some w at hw
    cases ho : s.buf.out with
    | none => rw [ho] at hw; cases hw
    | some v =>
      rw [ho] at hw
      cases hw
      have hv := hm.outFits v ho
      rw [ho] at hout
      change r.out.length ≤ u.outLen - v.length at hout
      rw [List.length_append]
      omega

theorem drain_inv {u : Setup σ} {total : Str} {t : Turn} {s : St σ} {x y : Str} (hi : Inv u total s x y) :
    Inv u total (drain u.sink t s).2 x y ∧
      ((drain u.sink t s).1 = .done → (drain u.sink t s).2.buf.out = some [] ∧
        (drain u.sink t s).2.rest = s.rest ∧ (drain u.sink t s).2.buf.data = s.buf.data ∧
        (drain u.sink t s).2.buf.eof = s.buf.eof) := by
  have hsent : ∀ w, s.buf.out = some w → w ≠ [] →
      Inv u total { s with buf := { s.buf with out := some [] }, sent := s.sent ++ [w] } x y := by
    intro w ho hw
    refine ⟨hi.reach, hi.input, hi.whole, ?_, hi.ended, hi.inFits, ?_, ?_⟩
    · have := hi.output
      rw [ho] at this
      show (s.sent ++ [w]).flatten ++ [] = y
      rw [List.append_nil, List.flatten_append, List.flatten_cons, List.flatten_nil, List.append_nil]
      exact this
    · intro v hv
      cases hv
      exact Nat.zero_le _
    · intro p hp
      rcases List.mem_append.mp hp with h | h
      · exact hi.pieces p h
      · rw [List.mem_singleton.mp h]
        exact ⟨hw, hi.outFits w ho⟩
  unfold drain
  cases ho : s.buf.out with
  | none =>
    refine ⟨⟨hi.reach, hi.input, hi.whole, ?_, hi.ended, hi.inFits, ?_, hi.pieces⟩, fun _ => ⟨rfl, rfl, rfl, rfl⟩⟩
    · have := hi.output
      rw [ho] at this
      exact this
    · intro v hv
      cases hv
      exact Nat.zero_le _
  | some w =>
    dsimp only
    by_cases hw : w = []
    · rw [if_pos hw]
      exact ⟨hi, fun _ => ⟨hw ▸ ho, rfl, rfl, rfl⟩⟩
    · rw [if_neg hw]
      cases u.sink with
      | net =>
        cases t.app with
        | ok => exact ⟨hsent w ho hw, fun _ => ⟨rfl, rfl, rfl, rfl⟩⟩
        | blocked => exact ⟨hi, fun c => by cases c⟩
        | error => exact ⟨hi, fun c => by cases c⟩
      | file =>
        dsimp only
        split
        · exact ⟨hsent w ho hw, fun _ => ⟨rfl, rfl, rfl, rfl⟩⟩
        · exact ⟨hi, fun c => by cases c⟩

/-- The state after the first part of a turn. -/
def filled (u : Setup σ) (t : Turn) (s : St σ) : Result × St σ :=
  if s.buf.eof then (.done, s) else fill u.src u.inLen t.read s

/-- The job's part in a turn. -/
def its (u : Setup σ) (s : St σ) : Iter σ :=
  u.job.iter s.job s.buf.data s.buf.eof (room u.outLen s.buf.out)

theorem drive_eq (u : Setup σ) (t : Turn) (s : St σ) :
    drive u t s = if (filled u t s).1 ≠ .done then filled u t s
      else if (its u (filled u t s).2).res ≠ .done ∧ (its u (filled u t s).2).res ≠ .blocked then
        iter u.job u.outLen (filled u t s).2
      else if (drain u.sink t (iter u.job u.outLen (filled u t s).2).2).1 ≠ .done then
        drain u.sink t (iter u.job u.outLen (filled u t s).2).2
      else ((its u (filled u t s).2).res, (drain u.sink t (iter u.job u.outLen (filled u t s).2).2).2) := rfl

theorem filled_res (u : Setup σ) (t : Turn) (s : St σ) :
    (filled u t s).1 = .done ∨ (filled u t s).1 = .ioError := by
  unfold filled fill
  split
  · exact .inl rfl
  split
  · exact .inr rfl
  split
  · exact .inl rfl
  split
  · exact .inl rfl
  cases t.read with
  | err => exact .inr rfl
  | upTo k => dsimp only; split <;> exact .inl rfl

theorem filled_mid {u : Setup σ} (hl : 0 < u.inLen) {total : Str} {t : Turn} {s : St σ} {x y : Str}
    (hi : Inv u total s x y) (h : (filled u t s).1 = .done) :
    ∃ more, Mid u total (filled u t s).2 x y s.buf.data s.buf.eof more := by
  unfold filled at h ⊢
  cases he : s.buf.eof with
  | true =>
    rw [if_pos rfl]
    exact ⟨[], he ▸ mid_of_inv hi⟩
  | false =>
    rw [he, if_neg Bool.false_ne_true] at h
    rw [if_neg Bool.false_ne_true, ← he]
    exact mid_of_fill hl hi he (prod_snd_eq h)

/-- One turn: what has been kept to is kept to; and if the job has finished, everything has been written. -/
theorem drive_inv {u : Setup σ} (hj : Lawful u.job) (hl : 0 < u.inLen) {total : Str}
    {t : Turn} {s : St σ} {x y : Str} (hi : Inv u total s x y)
    (hr : (drive u t s).1 = .done ∨ (drive u t s).1 = .blocked ∨ (drive u t s).1 = .running) :
    (filled u t s).1 = .done ∧
      Inv u total (drive u t s).2
        (x ++ (filled u t s).2.buf.data.take (its u (filled u t s).2).used) (y ++ (its u (filled u t s).2).out) ∧
      ((drive u t s).1 = .done →
        (its u (filled u t s).2).res = .done ∧
        (drive u t s).2.buf.out = some [] ∧ (drive u t s).2.buf.eof = (filled u t s).2.buf.eof) := by
  have hfd : (filled u t s).1 = .done := by
    rcases filled_res u t s with h | h
    · exact h
    · exfalso
      rw [drive_eq, if_pos (by rw [h]; decide), h] at hr
      rcases hr with c | c | c <;> cases c
  obtain ⟨more, hm⟩ := filled_mid hl hi hfd
  have hit := inv_iter hj hm
  refine ⟨hfd, ?_⟩
  rw [drive_eq, if_neg (fun c => c hfd)]
  split
  · rename_i hx
    refine ⟨hit, fun c => absurd c hx.1⟩
  · obtain ⟨hd1, hd2⟩ := drain_inv (t := t) hit
    split
    · rename_i hx
      exact ⟨hd1, fun c => absurd c hx⟩
    · rename_i hx
      have hx' := Decidable.of_not_not hx
      exact ⟨hd1, fun c => ⟨c, (hd2 hx').1, (hd2 hx').2.2.2⟩⟩

/-- When the job has finished, what was written is what it computes of the whole input. -/
theorem drive_done {u : Setup σ} {f : Str → Str} (hj : Lawful u.job) (hf : Computes u.job f) (hl : 0 < u.inLen)
    {total : Str} {t : Turn} {s : St σ} {x y : Str} (hi : Inv u total s x y) (hr : (drive u t s).1 = .done) :
    (drive u t s).2.sent.flatten = f total ∧
      (∀ p ∈ (drive u t s).2.sent, p ≠ [] ∧ p.length ≤ u.outLen) ∧
      (Waits u.job → (drive u t s).2.seen = total) := by
  obtain ⟨hfd, hinv, hd⟩ := drive_inv hj hl hi (.inl hr)
  obtain ⟨hres, hout, heof⟩ := hd hr
  obtain ⟨more, hm⟩ := filled_mid hl hi hfd
  refine ⟨?_, hinv.pieces, fun hw => ?_⟩
  · have ho := hinv.output
    rw [hout] at ho
    change _ ++ [] = _ at ho
    rw [List.append_nil] at ho
    rw [ho]
    unfold its at hres ⊢
    have hdata := hm.data
    have := hf.done _ _ _ _ _ hm.reach more (filled u t s).2.buf.eof (room u.outLen (filled u t s).2.buf.out) hm.ok
      (by rw [← hdata]; exact hres) (toCome u.src (filled u t s).2) hm.ended
    rw [← hdata, hm.input, hm.whole] at this
    exact this
  · have he := hw _ _ _ _ hres
    have := hinv.whole
    rw [hinv.ended (heof.trans he), List.append_nil] at this
    exact this

theorem inv_begin {u : Setup σ} (content : Str) (n : Nat) (hs : u.src = .fzp → n = 0) :
    Inv u (given content n) (begin_ u.job content n) [] [] := by
  refine ⟨.start, rfl, ?_, rfl, fun c => (by cases c), Nat.zero_le _, fun w hw => (by cases hw), fun p hp => (by cases hp)⟩
  unfold given begin_ toCome
  by_cases hn : n = 0
  · subst hn
    rw [if_pos rfl]
    cases u.src <;> rfl
  · rw [if_neg hn]
    cases hsrc : u.src with
    | fzp => exact absurd (hs hsrc) hn
    | bfd =>
      dsimp only
      rw [if_pos (by omega : n > 0)]
      rfl

theorem run_inv {u : Setup σ} {f : Str → Str} (hj : Lawful u.job) (hf : Computes u.job f) (hl : 0 < u.inLen)
    {total : Str} : ∀ (ts : List Turn) (s : St σ) (x y : Str), Inv u total s x y →
      (∀ s', run u ts s = .done s' ∨ whole u ts s = .done s' → s'.sent.flatten = f total ∧
        (∀ p ∈ s'.sent, p ≠ [] ∧ p.length ≤ u.outLen) ∧ (Waits u.job → s'.seen = total)) ∧
      (∀ s', run u ts s = .going s' ∨ whole u ts s = .going s' → ∃ x' y', Inv u total s' x' y')
  | [], s, x, y, hi => by
    refine ⟨fun s' h => ?_, fun s' h => ?_⟩
    · rcases h with h | h <;> cases h
    · rcases h with h | h <;> (cases h; exact ⟨x, y, hi⟩)
  | t :: ts, s, x, y, hi => by
    have ih := fun (hr : (drive u t s).1 = .done ∨ (drive u t s).1 = .blocked ∨ (drive u t s).1 = .running) =>
      run_inv hj hf hl ts _ _ _ (drive_inv hj hl hi hr).2.1
    rw [run, whole]
    cases hr : (drive u t s).1 with
    | done =>
      refine ⟨fun s' h => ?_, fun s' h => ?_⟩
      · rcases h with h | h <;> (cases h; exact drive_done hj hf hl hi hr)
      · rcases h with h | h <;> cases h
    | blocked =>
      dsimp only
      have := ih (.inr (.inl hr))
      cases t.net with
      | true => exact this
      | false =>
        refine ⟨fun s' h => ?_, fun s' h => ?_⟩
        · rcases h with h | h
          · cases h
          · exact this.1 s' (.inr h)
        · rcases h with h | h
          · cases h
          · exact this.2 s' (.inr h)
    | running =>
      dsimp only
      have := ih (.inr (.inr hr))
      cases t.net with
      | true =>
        refine ⟨fun s' h => ?_, fun s' h => ?_⟩
        · rcases h with h | h
          · exact this.1 s' (.inl h)
          · cases h
        · rcases h with h | h
          · exact this.2 s' (.inl h)
          · cases h
      | false =>
        refine ⟨fun s' h => ?_, fun s' h => ?_⟩ <;> rcases h with h | h <;> cases h
    | ioError => refine ⟨fun s' h => ?_, fun s' h => ?_⟩ <;> rcases h with h | h <;> cases h
    | other => refine ⟨fun s' h => ?_, fun s' h => ?_⟩ <;> rcases h with h | h <;> cases h

theorem filled_good {u : Setup σ} {t : Turn} (ht : t.Good) {s : St σ} (hf : s.buf.data.length ≤ u.inLen) :
    (filled u t s).1 = .done := by
  unfold filled
  split
  · rfl
  · rename_i he
    unfold fill
    rw [if_neg (by omega), if_neg he]
    split
    · rfl
    split
    · rfl
    have := ht.1
    cases hr : t.read with
    | err => exact absurd hr this
    | upTo k => dsimp only; split <;> rfl

theorem filled_work {u : Setup σ} (hl : 0 < u.inLen) {t : Turn} {s : St σ} (hf : s.buf.data.length ≤ u.inLen)
    (h : (filled u t s).1 = .done) (F : Nat) (y : Str) :
    work F (filled u t s).2 y ≤ work F s y ∧ (filled u t s).2.buf.out = s.buf.out ∧
      ((filled u t s).2.buf.eof = false → (filled u t s).2.buf.data ≠ []) := by
  unfold filled at h ⊢
  cases he : s.buf.eof with
  | true =>
    rw [if_pos rfl]
    exact ⟨Nat.le_refl _, rfl, fun c => absurd (he.symm.trans c) (by decide)⟩
  | false =>
    rw [he, if_neg Bool.false_ne_true] at h
    rw [if_neg Bool.false_ne_true]
    have hp := prod_snd_eq h
    generalize (fill u.src u.inLen t.read s).2 = s' at hp
    rcases fill_cases u hl _ s he hf s' hp with ⟨e, hne⟩ | ⟨e, hd, _⟩ | ⟨got, hg, hd, _, e, _, hlen⟩
    · subst e; exact ⟨Nat.le_refl _, rfl, fun _ => hne⟩
    · subst e
      refine ⟨?_, rfl, fun c => by cases c⟩
      unfold work
      dsimp only
      rw [he, if_pos rfl, if_neg Bool.false_ne_true]
      omega
    · subst e
      refine ⟨?_, rfl, fun _ => hg⟩
      unfold work
      dsimp only
      rw [hd, List.length_drop, List.length_nil]
      omega

theorem drain_good {sink : Sink} {t : Turn} (ht : t.Good) (s : St σ) : (drain sink t s).1 = .done := by
  obtain ⟨_, h2, h3, _⟩ := ht
  unfold drain
  cases s.buf.out with
  | none => rfl
  | some w =>
    dsimp only
    split
    · rfl
    · cases sink with
      | net => rw [h2]
      | file => simp only [h3, if_true]

/-- When nothing goes wrong, each turn brings the job nearer to its end. -/
theorem drive_work {u : Setup σ} {f : Str → Str} (hj : Lawful u.job) (hf : Computes u.job f) (hb : Busy u.job)
    (hl : 0 < u.inLen) (ho : 0 < u.outLen) {total : Str} {t : Turn} (ht : t.Good) {s : St σ} {x y : Str}
    (hi : Inv u total s x y) (hout : s.buf.out = none ∨ s.buf.out = some []) :
    (drive u t s).1 = .done ∨
    ((drive u t s).1 = .blocked ∧ (drive u t s).2.buf.out = some [] ∧
      work (f total).length (drive u t s).2 (y ++ (its u (filled u t s).2).out) < work (f total).length s y) := by
  have hfd := filled_good (s := s) ht hi.inFits
  obtain ⟨more, hm⟩ := filled_mid hl hi hfd
  obtain ⟨hw, hso, hne⟩ := filled_work hl hi.inFits hfd (f total).length y
  have hit := inv_iter hj hm
  have hdr := drain_good (sink := u.sink) ht (iter u.job u.outLen (filled u t s).2).2
  obtain ⟨_, hd2⟩ := drain_inv (t := t) hit
  obtain ⟨k1, k2, k3, k4⟩ := hd2 hdr
  have hpart := hf.part _ _ _ _ _ hm.reach more (filled u t s).2.buf.eof (room u.outLen (filled u t s).2.buf.out) hm.ok
    (toCome u.src (filled u t s).2) hm.ended
  rw [← hm.data, hm.input, hm.whole] at hpart
  have hplen := hpart.length_le
  rw [List.length_append] at hplen
  rcases hb (filled u t s).2.job (filled u t s).2.buf.data (filled u t s).2.buf.eof
      (room u.outLen (filled u t s).2.buf.out) with hres | ⟨hres, hcase⟩
  · left
    rw [drive_eq, if_neg (fun c => c hfd), if_neg (fun c => c.1 hres), if_neg (fun c => c hdr)]
    exact hres
  · right
    rw [drive_eq, if_neg (fun c => c hfd), if_neg (fun c => c.2 hres), if_neg (fun c => c hdr)]
    refine ⟨hres, k1, Nat.lt_of_lt_of_le ?_ hw⟩
    have hused := hj.used (filled u t s).2.job (filled u t s).2.buf.data (filled u t s).2.buf.eof
      (room u.outLen (filled u t s).2.buf.out)
    unfold work
    rw [k1, k2, k3, k4]
    unfold its
    generalize hg : filled u t s = g at *
    show 2 * g.2.rest.length + (g.2.buf.data.drop (u.job.iter g.2.job g.2.buf.data g.2.buf.eof
      (room u.outLen g.2.buf.out)).used).length + (if g.2.buf.eof then 0 else 1) + _ + _ < _
    rw [List.length_drop, List.length_append]
    generalize u.job.iter g.2.job g.2.buf.data g.2.buf.eof (room u.outLen g.2.buf.out) = r at *
    rw [if_neg (by decide : ¬ (some ([] : Str)).isNone = true)]
    rcases hout with h0 | h0
    · rw [hso, h0, if_pos (show (none : Option Str).isNone = true from rfl)]
      omega
    · rw [hso, h0, if_neg (by decide : ¬ (some ([] : Str)).isNone = true)]
      rw [hso, h0] at hcase
      rcases hcase with c | ⟨c1, c2⟩
      · change r.out.length = u.outLen - 0 at c
        omega
      · have hpos := List.length_pos_iff.mpr (hne c2)
        omega

theorem run_ends {u : Setup σ} {f : Str → Str} (hj : Lawful u.job) (hf : Computes u.job f) (hb : Busy u.job)
    (hl : 0 < u.inLen) (ho : 0 < u.outLen) {total : Str} : ∀ (ts : List Turn) (s : St σ) (x y : Str),
      Inv u total s x y → (s.buf.out = none ∨ s.buf.out = some []) → (∀ t ∈ ts, t.Good) →
      work (f total).length s y < ts.length →
      (∃ s', run u ts s = .done s') ∧ ∃ s', whole u ts s = .done s'
  | [], _, _, _, _, _, _, hlen => absurd hlen (Nat.not_lt_zero _)
  | t :: ts, s, x, y, hi, hout, hts, hlen => by
    have ht := hts t (List.mem_cons_self ..)
    rw [run, whole]
    rcases drive_work hj hf hb hl ho ht hi hout with h | ⟨h1, h2, h3⟩
    · rw [h]; exact ⟨⟨_, rfl⟩, ⟨_, rfl⟩⟩
    · have ih := run_ends hj hf hb hl ho ts _ _ _ (drive_inv hj hl hi (.inr (.inl h1))).2.1 (.inr h2)
        (fun t h => hts t (List.mem_cons_of_mem _ h)) (by rw [List.length_cons] at hlen; omega)
      rw [h1]
      dsimp only
      rw [if_pos ht.2.2.2]
      exact ih

end Verif.RsBuf
