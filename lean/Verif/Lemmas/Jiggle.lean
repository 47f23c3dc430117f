import Verif.Spec.Jiggle
import Verif.Lemmas.History

namespace Verif.Jiggle
open Verif.History

variable {C D S K : Type}

/-! ### A file system without hard links -/

/-- What the names refer to, without inodes. -/
structure Store (C D S K : Type) where
  get : Name → Option (Blob C D S)
  dels : List K

def FS.abs (fs : FS C D S K) : Store C D S K := ⟨fs.look, fs.dels⟩

def Act.flat (a : Act C D S K) (s : Store C D S K) : Store C D S K :=
  match a with
  | .unlink n => { s with get := upd s.get n none }
  | .rename a b =>
    match s.get a with
    | none => s
    | some x => { s with get := upd (upd s.get b (some x)) a none }
  | .link a b =>
    match s.get a, s.get b with
    | some x, none => { s with get := upd s.get b (some x) }
    | _, _ => s
  | .create n => { s with get := upd s.get n (some .junk) }
  | .write n b =>
    match s.get n with
    | some _ => { s with get := upd s.get n (some b) }
    | none => s
  | .note k => { s with dels := s.dels ++ [k] }

def Prog.flat : Prog C D S K → Store C D S K → List (Store C D S K) × Store C D S K × Ret
  | .ret r, s => ([], s, r)
  | .look n k, s => (k (s.get n)).flat s
  | .many _ k, s => (k false).flat s
  | .act a p, s =>
    let r := p.flat (a.flat s)
    (a.flat s :: r.1, r.2)

/-- The names that may be opened for writing. -/
def W (cw : Bool) : Name → Bool
  | .sig => true
  | .rev _ => true
  | .tmp _ => true
  | .inflate => cw
  | _ => false

def okAct (cw : Bool) : Act C D S K → Prop
  | .unlink _ => True
  | .rename a b => a ≠ b ∧ W cw b = false
  | .link a b => W cw a = false ∧ W cw b = false
  | .create n => W cw n = true
  | .write n _ => W cw n = true
  | .note _ => True

/-- The actions on the path that the program takes are all allowed. -/
def Allowed (cw : Bool) : Prog C D S K → Store C D S K → Prop
  | .ret _, _ => True
  | .look n k, s => Allowed cw (k (s.get n)) s
  | .many _ k, s => Allowed cw (k false) s
  | .act a p, s => okAct cw a ∧ Allowed cw p (a.flat s)

/-- Inodes are bounded, and names that may be opened for writing do not share their inode. -/
def Hyg (cw : Bool) (fs : FS C D S K) : Prop :=
  (∀ n i, fs.names n = some i → i < fs.next) ∧
  (∀ n i m, W cw n = true → fs.names n = some i → fs.names m = some i → m = n)

theorem Store.ext' {s t : Store C D S K} (h : ∀ n, s.get n = t.get n) (hd : s.dels = t.dels) :
    s = t := by
  cases s; cases t
  simp only [Store.mk.injEq]
  exact ⟨funext h, hd⟩

theorem look_eq_none {fs : FS C D S K} {n : Name} : fs.look n = none ↔ fs.names n = none := by
  simp [FS.look]

theorem act_sim {cw : Bool} {fs : FS C D S K} (hh : Hyg cw fs) {a : Act C D S K} (ha : okAct cw a) :
    (a.run fs).abs = a.flat fs.abs ∧ Hyg cw (a.run fs) := by
  obtain ⟨hb, hp⟩ := hh
  cases a with
  | unlink n =>
    refine ⟨Store.ext' ?_ rfl, ?_, ?_⟩
    · intro m
      simp only [FS.abs, Act.run, Act.flat, FS.look, upd]
      split <;> rfl
    · intro m i hm
      simp only [Act.run, upd] at hm
      split at hm
      · cases hm
      · exact hb m i hm
    · intro m i m' hw hm hm'
      simp only [Act.run, upd] at hm hm'
      split at hm
      · cases hm
      · split at hm'
        · cases hm'
        · exact hp m i m' hw hm hm'
  | rename x y =>
    obtain ⟨hne, hwy⟩ := ha
    cases hx : fs.names x with
    | none =>
      have hl : fs.look x = none := look_eq_none.2 hx
      simp only [Act.run, hx, Act.flat, FS.abs, hl]
      exact ⟨trivial, hb, hp⟩
    | some i =>
      have hl : fs.look x = some (fs.files i) := by simp [FS.look, hx]
      simp only [Act.run, hx, Act.flat, FS.abs, hl]
      refine ⟨Store.ext' ?_ rfl, ?_, ?_⟩
      · intro m
        simp only [FS.look, upd]
        split
        · rfl
        · split <;> rfl
      · intro m j hm
        simp only [upd] at hm
        split at hm
        · cases hm
        · split at hm
          · cases hm; exact hb x _ hx
          · exact hb m j hm
      · intro m j m' hw hm hm'
        simp only [upd] at hm hm'
        split at hm
        · cases hm
        · rename_i hmx
          split at hm
          · rename_i hmy
            rw [hmy, hwy] at hw; cases hw
          · split at hm'
            · cases hm'
            · rename_i hm'x
              split at hm'
              · rename_i hm'y
                simp only [Option.some.injEq] at hm'
                subst hm'
                exact absurd (hp m _ x hw hm hx).symm hmx
              · exact hp m j m' hw hm hm'
  | link x y =>
    obtain ⟨hwx, hwy⟩ := ha
    cases hx : fs.names x with
    | none =>
      have hl : fs.look x = none := look_eq_none.2 hx
      simp only [Act.run, hx, Act.flat, FS.abs, hl]
      exact ⟨trivial, hb, hp⟩
    | some i =>
      cases hy : fs.names y with
      | some j =>
        have hl : fs.look x = some (fs.files i) := by simp [FS.look, hx]
        have hl2 : fs.look y = some (fs.files j) := by simp [FS.look, hy]
        simp only [Act.run, hx, hy, Act.flat, FS.abs, hl, hl2]
        exact ⟨trivial, hb, hp⟩
      | none =>
        have hl : fs.look x = some (fs.files i) := by simp [FS.look, hx]
        have hl2 : fs.look y = none := look_eq_none.2 hy
        simp only [Act.run, hx, hy, Act.flat, FS.abs, hl, hl2]
        refine ⟨Store.ext' ?_ rfl, ?_, ?_⟩
        · intro m
          simp only [FS.look, upd]
          split <;> rfl
        · intro m j hm
          simp only [upd] at hm
          split at hm
          · cases hm; exact hb x _ hx
          · exact hb m j hm
        · intro m j m' hw hm hm'
          simp only [upd] at hm hm'
          split at hm
          · rename_i hmy
            rw [hmy, hwy] at hw; cases hw
          · split at hm'
            · simp only [Option.some.injEq] at hm'
              subst hm'
              have := hp m _ x hw hm hx
              rw [← this, hwx] at hw; cases hw
            · exact hp m j m' hw hm hm'
  | create n =>
    have hw : W cw n = true := ha
    cases hn : fs.names n with
    | some i =>
      simp only [Act.run, hn, Act.flat, FS.abs]
      refine ⟨Store.ext' ?_ rfl, hb, hp⟩
      intro m
      simp only [FS.look, upd]
      by_cases hm : m = n
      · subst hm; simp [hn, upd]
      · rw [if_neg hm]
        cases hmi : fs.names m with
        | none => rfl
        | some j =>
          have : j ≠ i := by
            rintro rfl
            exact hm (hp n j m hw hn hmi)
          simp [this, upd]
    | none =>
      simp only [Act.run, hn, Act.flat, FS.abs]
      refine ⟨Store.ext' ?_ rfl, ?_, ?_⟩
      · intro m
        simp only [FS.look, upd]
        by_cases hm : m = n
        · subst hm; simp [upd]
        · rw [if_neg hm, if_neg hm]
          cases hmi : fs.names m with
          | none => rfl
          | some j =>
            have : j ≠ fs.next := Nat.ne_of_lt (hb m j hmi)
            simp [this, upd]
      · intro m j hm
        simp only [upd] at hm
        split at hm
        · cases hm; exact Nat.lt_succ_self _
        · exact Nat.lt_succ_of_lt (hb m j hm)
      · intro m j m' hw' hm hm'
        simp only [upd] at hm hm'
        split at hm
        · rename_i h1
          split at hm'
          · rename_i h2; rw [h1, h2]
          · cases hm
            exact absurd (hb m' _ hm') (Nat.lt_irrefl _)
        · split at hm'
          · cases hm'
            exact absurd (hb m _ hm) (Nat.lt_irrefl _)
          · exact hp m j m' hw' hm hm'
  | write n b =>
    have hw : W cw n = true := ha
    cases hn : fs.names n with
    | some i =>
      have hl : fs.look n = some (fs.files i) := by simp [FS.look, hn]
      simp only [Act.run, hn, Act.flat, FS.abs, hl]
      refine ⟨Store.ext' ?_ rfl, hb, hp⟩
      intro m
      simp only [FS.look, upd]
      by_cases hm : m = n
      · subst hm; simp [hn, upd]
      · rw [if_neg hm]
        cases hmi : fs.names m with
        | none => rfl
        | some j =>
          have : j ≠ i := by
            rintro rfl
            exact hm (hp n j m hw hn hmi)
          simp [this, upd]
    | none =>
      have hl : fs.look n = none := look_eq_none.2 hn
      simp only [Act.run, hn, Act.flat, FS.abs, hl]
      exact ⟨trivial, hb, hp⟩
  | note k => exact ⟨rfl, hb, hp⟩

/-- The link count test never finds too many. -/
def few : FS C D S K → Name → Bool := fun _ _ => false

theorem prog_sim {cw : Bool} (p : Prog C D S K) :
    ∀ {fs : FS C D S K}, Hyg cw fs → Allowed cw p fs.abs →
      (p.run few fs).1.map FS.abs = (p.flat fs.abs).1 ∧
      (p.run few fs).2.1.abs = (p.flat fs.abs).2.1 ∧
      (p.run few fs).2.2 = (p.flat fs.abs).2.2 ∧
      (∀ s ∈ (p.run few fs).1, Hyg cw s) ∧ Hyg cw (p.run few fs).2.1 := by
  induction p with
  | ret r => intro fs h _; exact ⟨rfl, rfl, rfl, by simp [Prog.run], h⟩
  | look n k ih => intro fs h ha; exact ih (fs.look n) h ha
  | many n k ih => intro fs h ha; exact ih false h ha
  | act a p ih =>
    intro fs h ha
    obtain ⟨h1, h2⟩ := act_sim h ha.1
    have ha2 : Allowed cw p (a.run fs).abs := by rw [h1]; exact ha.2
    obtain ⟨i1, i2, i3, i4, i5⟩ := ih h2 ha2
    simp only [Prog.run, Prog.flat, List.map_cons]
    rw [h1] at i1 i2 i3
    refine ⟨by rw [h1, i1], i2, i3, ?_, i5⟩
    intro s hs
    rcases List.mem_cons.1 hs with rfl | hs
    · exact h2
    · exact i4 s hs

theorem flat_andThen (p q : Prog C D S K) : ∀ s,
    (p.andThen q).flat s =
      if (p.flat s).2.2 = .ok then
        ((p.flat s).1 ++ (q.flat (p.flat s).2.1).1, (q.flat (p.flat s).2.1).2)
      else p.flat s := by
  induction p with
  | ret r => intro s; cases r <;> simp [Prog.andThen, Prog.flat]
  | look n k ih => intro s; exact ih (s.get n) s
  | many n k ih => intro s; exact ih false s
  | act a p ih =>
    intro s
    have e := ih (a.flat s)
    by_cases h : (p.flat (a.flat s)).2.2 = .ok
    · rw [if_pos h] at e
      rw [if_pos (show ((Prog.act a p).flat s).2.2 = .ok from h)]
      simp only [Prog.andThen, Prog.flat, e, List.cons_append]
    · rw [if_neg h] at e
      rw [if_neg (show ¬ ((Prog.act a p).flat s).2.2 = .ok from h)]
      simp only [Prog.andThen, Prog.flat, e]

theorem allowed_andThen {cw : Bool} (p q : Prog C D S K) : ∀ s,
    Allowed cw p s → Allowed cw q (p.flat s).2.1 → Allowed cw (p.andThen q) s := by
  induction p with
  | ret r => intro s _ hq; cases r <;> first | exact hq | trivial
  | look n k ih => intro s hp hq; exact ih (s.get n) s hp hq
  | many n k ih => intro s hp hq; exact ih false s hp hq
  | act a p ih => intro s hp hq; exact ⟨hp.1, ih _ hp.2 hq⟩

/-! ### Stages of one stored file -/

/-- The states of the files with one `datapth` during interrupted runs; `s0` is the initial one. -/
def Stage (L : Librsync C D S) (hard : Bool) (s0 : Slot C D) (g : Name → Option (Blob C D S))
    (d : Str) : Prop :=
  match s0.fwd with
  | some fd =>
    match s0.old with
    | none => False
    | some a =>
      match L.patch a fd with
      | none =>
        g (.fin d) = none ∧ g (.old d) = some (.whole a) ∧ g (.fwd d) = some (.delta fd) ∧
          g (.rev d) = none
      | some c =>
        (g (.fin d) = none ∧ g (.old d) = some (.whole a) ∧ g (.fwd d) = some (.delta fd) ∧
          (hard = true → g (.rev d) = none)) ∨
        (g (.fin d) = some (.whole c) ∧
          ((hard = true ∧ g (.old d) = some (.whole a) ∧ g (.rev d) = none) ∨
           (hard = false ∧ g (.rev d) = some (.delta (L.delta (L.sig c) a)) ∧
             (g (.old d) = none ∨ g (.old d) = some (.whole a)))))
  | none =>
    g (.fwd d) = none ∧ g (.rev d) = none ∧
    match s0.tmp with
    | some c =>
      g (.old d) = s0.old.map .whole ∧
      ((g (.fin d) = none ∧ g (.tmp d) = some (.whole c)) ∨
        g (.fin d) = some (.whole c))
    | none =>
      match s0.old with
      | some a =>
        (g (.fin d) = none ∧ g (.tmp d) = none ∧ g (.old d) = some (.whole a)) ∨
        (g (.fin d) = some (.whole a) ∧
          (g (.old d) = some (.whole a) ∨ (hard = false ∧ g (.old d) = none)))
      | none =>
        g (.old d) = none ∧
        match s0.rel with
        | some c => (g (.fin d) = none ∧ g (.tmp d) = none ∧ g (.rel d) = some (.whole c)) ∨
            g (.fin d) = some (.whole c)
        | none => False

/-- The entry's delta does not apply. -/
def fails (L : Librsync C D S) (s0 : Slot C D) : Bool :=
  match s0.fwd, s0.old with
  | some fd, some a => (L.patch a fd).isNone
  | _, _ => false

/-- The names that working on `d` can change. -/
def touches (d : Str) : Name → Bool
  | .fin x => x == d
  | .old x => x == d
  | .tmp x => x == d
  | .fwd x => x == d
  | .rev x => x == d
  | .rel x => x == d
  | .inflate => true
  | .sig => true
  | .cur _ => false

/-- `g` differs from `g0` at most at the names for `d`. -/
def Frame (d : Str) (g0 g : Name → Option (Blob C D S)) : Prop :=
  ∀ n, touches d n = false → g n = g0 n

theorem Frame.upd {d : Str} {g0 g : Name → Option (Blob C D S)} (h : Frame d g0 g) {n : Name}
    (hn : touches d n = true) (v : Option (Blob C D S)) : Frame d g0 (upd g n v) := by
  intro m hm
  have : m ≠ n := by rintro rfl; rw [hn] at hm; cases hm
  simp only [Jiggle.upd, if_neg this]
  exact h m hm

theorem Stage.congr {L : Librsync C D S} {hard : Bool} {s0 : Slot C D}
    {g g' : Name → Option (Blob C D S)} {d d0 : Str} (hd : d ≠ d0)
    (h : ∀ n, touches d0 n = false → g' n = g n) (hs : Stage L hard s0 g d) :
    Stage L hard s0 g' d := by
  have e : ∀ n, touches d0 n = false → g' n = g n := h
  have h1 := e (.fin d) (by simp [touches, hd])
  have h2 := e (.old d) (by simp [touches, hd])
  have h3 := e (.tmp d) (by simp [touches, hd])
  have h4 := e (.fwd d) (by simp [touches, hd])
  have h5 := e (.rev d) (by simp [touches, hd])
  have h6 := e (.rel d) (by simp [touches, hd])
  unfold Stage at hs ⊢
  rw [h1, h2, h3, h4, h5, h6]
  exact hs

/-- What every state during a run of `jiggle` on `d` has in common with the state before. -/
structure StepOk (L : Librsync C D S) (hard : Bool) (s0 : Slot C D) (k : K) (d : Str)
    (s t : Store C D S K) : Prop where
  stage : Stage L hard s0 t.get d
  frame : ∀ n, touches d n = false → t.get n = s.get n
  dels : t.dels = s.dels ∨ (fails L s0 = true ∧ t.dels = s.dels ++ [k])

/-- What a complete run of `jiggle` on `d` guarantees. -/
structure RunOk (L : Librsync C D S) (hard : Bool) (s0 : Slot C D) (k : K) (d : Str)
    (s : Store C D S K) (r : List (Store C D S K) × Store C D S K × Ret) : Prop where
  trace : ∀ t ∈ r.1, StepOk L hard s0 k d s t
  last : StepOk L hard s0 k d s r.2.1
  ok : r.2.2 = .ok
  done : if fails L s0 = true then k ∈ r.2.1.dels else
    (r.2.1.get (.fin d) ≠ none ∧ r.2.1.get (.fwd d) = none)
  log : fails L s0 = true → r.2.1.dels = s.dels ++ [k]

theorem runOk_skip {L : Librsync C D S} {hard comp : Bool} {s0 : Slot C D} {k : K} {d : Str}
    {s : Store C D S K} (h : Stage L hard s0 s.get d) {x : Blob C D S}
    (hx : s.get (.fin d) = some x) :
    RunOk L hard s0 k d s ((jiggle L hard comp k d).flat s) := by
  have hf : fails L s0 = false := by
    unfold fails
    unfold Stage at h
    split
    · rename_i fd a h1 h2
      simp only [h1, h2] at h
      cases hp : L.patch a fd with
      | none => simp [hp, hx] at h
      | some c => rfl
    · rfl
  have key : StepOk L hard s0 k d s ⟨upd s.get (.fwd d) none, s.dels⟩ := by
    refine ⟨?_, ?_, Or.inl rfl⟩
    · revert h
      unfold Stage
      simp only [upd, reduceCtorEq, if_false, hx]
      split
      · split
        · exact id
        · split
          · simp
          · simp
      · simp
    · intro n hn
      simp only [upd]
      split
      · rename_i e; subst e; simp [touches] at hn
      · rfl
  have e : (jiggle L hard comp k d).flat s =
      ([⟨upd s.get (.fwd d) none, s.dels⟩], ⟨upd s.get (.fwd d) none, s.dels⟩, .ok) := by
    simp [jiggle, Prog.flat, hx, Act.flat]
  rw [e]
  refine ⟨?_, key, rfl, ?_, ?_⟩
  · simpa using key
  · simp [hf, upd, hx]
  · simp [hf]

/-- Entries without a forward delta. -/
theorem runOk_plain {L : Librsync C D S} {hard comp : Bool} {s0 : Slot C D} {k : K} {d : Str}
    {s : Store C D S K} (h : Stage L hard s0 s.get d) (hx : s.get (.fin d) = none)
    (h0 : s0.fwd = none) :
    RunOk L hard s0 k d s ((jiggle L hard comp k d).flat s) := by
  have hf : fails L s0 = false := by simp [fails, h0]
  have h' := h
  unfold Stage at h'
  simp only [h0] at h'
  obtain ⟨h1, h2, h3⟩ := h'
  cases ht : s0.tmp with
  | some c =>
    simp only [ht, hx] at h3
    obtain ⟨h3, h4⟩ := h3
    have h5 : s.get (.tmp d) = some (.whole c) := by simpa using h4
    have e : (jiggle L hard comp k d).flat s =
        ([⟨upd (upd s.get (.fin d) (some (.whole c))) (.tmp d) none, s.dels⟩],
          ⟨upd (upd s.get (.fin d) (some (.whole c))) (.tmp d) none, s.dels⟩, .ok) := by
      simp [jiggle, Prog.flat, hx, h1, h5, Act.flat]
    have key : StepOk L hard s0 k d s
        ⟨upd (upd s.get (.fin d) (some (.whole c))) (.tmp d) none, s.dels⟩ := by
      refine ⟨?_, ?_, Or.inl rfl⟩
      · simp [Stage, h0, ht, upd, h1, h2, h3]
      · intro n hn
        cases n <;> simp_all [touches, upd]
    rw [e]
    exact ⟨by simpa using key, key, rfl, by simp [hf, upd, h1], by simp [hf]⟩
  | none =>
    cases ho : s0.old with
    | some a =>
      simp only [ht, ho, hx] at h3
      have h5 : s.get (.tmp d) = none ∧ s.get (.old d) = some (.whole a) := by simpa using h3
      obtain ⟨h5, h6⟩ := h5
      have k1 : StepOk L hard s0 k d s ⟨upd s.get (.fin d) (some (.whole a)), s.dels⟩ := by
        refine ⟨?_, ?_, Or.inl rfl⟩
        · simp [Stage, h0, ht, ho, upd, h1, h2, h6]
        · intro n hn
          cases n <;> simp_all [touches, upd]
      cases hard with
      | true =>
        have e : (jiggle L true comp k d).flat s =
            ([⟨upd s.get (.fin d) (some (.whole a)), s.dels⟩],
              ⟨upd s.get (.fin d) (some (.whole a)), s.dels⟩, .ok) := by
          simp [jiggle, Prog.flat, hx, h1, h5, h6, Act.flat]
        rw [e]
        exact ⟨by simpa using k1, k1, rfl, by simp [hf, upd, h1], by simp [hf]⟩
      | false =>
        have e : (jiggle L false comp k d).flat s =
            ([⟨upd s.get (.fin d) (some (.whole a)), s.dels⟩,
              ⟨upd (upd s.get (.fin d) (some (.whole a))) (.old d) none, s.dels⟩],
              ⟨upd (upd s.get (.fin d) (some (.whole a))) (.old d) none, s.dels⟩, .ok) := by
          simp [jiggle, Prog.flat, hx, h1, h5, h6, Act.flat]
        have k2 : StepOk L false s0 k d s
            ⟨upd (upd s.get (.fin d) (some (.whole a))) (.old d) none, s.dels⟩ := by
          refine ⟨?_, ?_, Or.inl rfl⟩
          · simp [Stage, h0, ht, ho, upd, h1, h2]
          · intro n hn
            cases n <;> simp_all [touches, upd]
        rw [e]
        refine ⟨?_, k2, rfl, by simp [hf, upd, h1], by simp [hf]⟩
        intro t ht
        simp only [List.mem_cons, List.not_mem_nil, or_false] at ht
        rcases ht with rfl | rfl
        · exact k1
        · exact k2
    | none =>
      cases hr : s0.rel with
      | none => simp [ht, ho, hr] at h3
      | some c =>
        simp only [ht, ho, hr, hx] at h3
        obtain ⟨h4, h5⟩ := h3
        have h5 : s.get (.tmp d) = none ∧ s.get (.rel d) = some (.whole c) := by simpa using h5
        obtain ⟨h5, h6⟩ := h5
        have e : (jiggle L hard comp k d).flat s =
            ([⟨upd (upd s.get (.fin d) (some (.whole c))) (.rel d) none, s.dels⟩],
              ⟨upd (upd s.get (.fin d) (some (.whole c))) (.rel d) none, s.dels⟩, .ok) := by
          simp [jiggle, Prog.flat, hx, h1, h4, h5, h6, Act.flat]
        have key : StepOk L hard s0 k d s
            ⟨upd (upd s.get (.fin d) (some (.whole c))) (.rel d) none, s.dels⟩ := by
          refine ⟨?_, ?_, Or.inl rfl⟩
          · simp [Stage, h0, ht, ho, hr, upd, h1, h2, h4]
          · intro n hn
            cases n <;> simp_all [touches, upd]
        rw [e]
        exact ⟨by simpa using key, key, rfl, by simp [hf, upd, h1], by simp [hf]⟩

/-- The part after `inflate` exists. -/
theorem runOk_patch {L : Librsync C D S} {hard : Bool} {s0 : Slot C D} {k : K} {d : Str}
    {s : Store C D S K} {a : C} {fd : D} (h0 : s0.fwd = some fd) (h1 : s0.old = some a)
    (h : Stage L hard s0 s.get d) (hx : s.get (.fin d) = none)
    (hi : s.get .inflate = some (.whole a)) :
    RunOk L hard s0 k d s ((patchAndDiff L hard k d).flat s) := by
  have h' := h
  unfold Stage at h'
  simp only [h0, h1] at h'
  cases hp : L.patch a fd with
  | none =>
    have hf : fails L s0 = true := by simp [fails, h0, h1, hp]
    simp only [hp] at h'
    obtain ⟨-, h2, h3, h4⟩ := h'
    have key : ∀ g : Name → Option (Blob C D S), ∀ dl : List K,
        (∀ n, n ≠ .inflate → n ≠ .sig → n ≠ .tmp d → g n = s.get n) →
        (dl = s.dels ∨ dl = s.dels ++ [k]) → StepOk L hard s0 k d s ⟨g, dl⟩ := by
      intro g dl hg hdl
      refine ⟨?_, ?_, ?_⟩
      · simp [Stage, h0, h1, hp, hg, hx, h2, h3, h4]
      · intro n hn
        apply hg <;> (rintro rfl; simp [touches] at hn)
      · rcases hdl with h | h
        · exact Or.inl h
        · exact Or.inr ⟨hf, h⟩
    have e : (patchAndDiff L hard k d).flat s =
        ([⟨upd s.get (.tmp d) (some .junk), s.dels⟩,
          ⟨upd (upd s.get (.tmp d) (some .junk)) (.tmp d) none, s.dels⟩,
          ⟨upd (upd s.get (.tmp d) (some .junk)) (.tmp d) none, s.dels ++ [k]⟩,
          ⟨upd (upd (upd s.get (.tmp d) (some .junk)) (.tmp d) none) .inflate none, s.dels ++ [k]⟩],
          ⟨upd (upd (upd s.get (.tmp d) (some .junk)) (.tmp d) none) .inflate none, s.dels ++ [k]⟩,
          .ok) := by
      simp [patchAndDiff, Prog.flat, hi, h3, hp, Act.flat]
    rw [e]
    refine ⟨?_, ?_, rfl, by simp [hf], by simp [hf]⟩
    · intro t ht
      simp only [List.mem_cons, List.not_mem_nil, or_false] at ht
      rcases ht with rfl | rfl | rfl | rfl <;>
      · apply key
        · intro n a b c
          simp [upd, a, c]
        · simp
    · apply key
      · intro n a b c
        simp [upd, a, c]
      · simp
  | some c =>
    have hf : fails L s0 = false := by simp [fails, h0, h1, hp]
    simp only [hp, hx] at h'
    have h' : s.get (.old d) = some (.whole a) ∧ s.get (.fwd d) = some (.delta fd) ∧
        (hard = true → s.get (.rev d) = none) := by simpa using h'
    obtain ⟨h2, h3, h4⟩ := h'
    -- states before the new file exists
    have before : ∀ g : Name → Option (Blob C D S),
        (∀ n, n ≠ .inflate → n ≠ .sig → n ≠ .tmp d → (n = .rev d → hard = true) → g n = s.get n) →
        StepOk L hard s0 k d s ⟨g, s.dels⟩ := by
      intro g hg
      refine ⟨?_, ?_, Or.inl rfl⟩
      · simp only [Stage, h0, h1, hp]
        refine Or.inl ⟨?_, ?_, ?_, ?_⟩
        · rw [hg _ (by simp) (by simp) (by simp) (by simp)]; exact hx
        · rw [hg _ (by simp) (by simp) (by simp) (by simp)]; exact h2
        · rw [hg _ (by simp) (by simp) (by simp) (by simp)]; exact h3
        · intro hh
          rw [hg _ (by simp) (by simp) (by simp) (fun _ => hh)]; exact h4 hh
      · intro n hn
        apply hg <;> (rintro rfl; simp [touches] at hn)
    -- states after that
    have after : ∀ g : Name → Option (Blob C D S),
        g (.fin d) = some (.whole c) →
        ((hard = true ∧ g (.old d) = some (.whole a) ∧ g (.rev d) = none) ∨
           (hard = false ∧ g (.rev d) = some (.delta (L.delta (L.sig c) a)) ∧
             (g (.old d) = none ∨ g (.old d) = some (.whole a)))) →
        Frame d s.get g →
        StepOk L hard s0 k d s ⟨g, s.dels⟩ := by
      intro g g1 g2 g3
      refine ⟨?_, g3, Or.inl rfl⟩
      simp only [Stage, h0, h1, hp]
      exact Or.inr ⟨g1, g2⟩
    cases hard with
    | true =>
      have h4 := h4 rfl
      let g1 := upd s.get (.tmp d) (some .junk)
      let g2 := upd g1 (.tmp d) (some (.whole c))
      let g3 := upd (upd g2 (.fin d) (some (.whole c))) (.tmp d) none
      let g4 := upd g3 (.fwd d) none
      let g5 := upd g4 .inflate none
      have tt : ∀ n, n = .inflate ∨ n = .sig ∨ n = .tmp d ∨ n = .rev d ∨ n = .fin d ∨ n = .fwd d ∨
          n = .old d → touches d n = true := by
        rintro n (rfl | rfl | rfl | rfl | rfl | rfl | rfl) <;> simp [touches]
      have f0 : Frame d s.get s.get := fun _ _ => rfl
      have f1 : Frame d s.get g1 := f0.upd (tt _ (by simp)) _
      have f2 : Frame d s.get g2 := f1.upd (tt _ (by simp)) _
      have f3 : Frame d s.get g3 := (f2.upd (tt _ (by simp)) _).upd (tt _ (by simp)) _
      have f4 : Frame d s.get g4 := f3.upd (tt _ (by simp)) _
      have f5 : Frame d s.get g5 := f4.upd (tt _ (by simp)) _
      have e : (patchAndDiff L true k d).flat s =
          ([⟨g1, s.dels⟩, ⟨g2, s.dels⟩, ⟨g3, s.dels⟩, ⟨g4, s.dels⟩, ⟨g5, s.dels⟩],
            ⟨g5, s.dels⟩, .ok) := by
        simp [patchAndDiff, Prog.flat, hi, h3, hp, Act.flat, g1, g2, g3, g4, g5, upd]
      rw [e]
      have a5 : StepOk L true s0 k d s ⟨g5, s.dels⟩ := by
        apply after
        · simp [g5, g4, g3, upd]
        · simp [g5, g4, g3, g2, g1, upd, h2, h4]
        · exact f5
      refine ⟨?_, a5, rfl, by simp [hf, g5, g4, g3, upd], by simp [hf]⟩
      intro t ht
      simp only [List.mem_cons, List.not_mem_nil, or_false] at ht
      rcases ht with rfl | rfl | rfl | rfl | rfl
      · apply before; intro n a b c _; simp [g1, upd, c]
      · apply before; intro n a b c _; simp [g2, g1, upd, c]
      · apply after
        · simp [g3, upd]
        · simp [g3, g2, g1, upd, h2, h4]
        · exact f3
      · apply after
        · simp [g4, g3, upd]
        · simp [g4, g3, g2, g1, upd, h2, h4]
        · exact f4
      · exact a5
    | false =>
      let g1 := upd s.get (.tmp d) (some .junk)
      let g2 := upd g1 (.tmp d) (some (.whole c))
      let g3 := upd g2 .sig (some .junk)
      let g4 := upd g3 .sig (some (.sig (L.sig c)))
      let g5 := upd g4 (.rev d) (some .junk)
      let g6 := upd g5 (.rev d) (some (.delta (L.delta (L.sig c) a)))
      let g7 := upd g6 .sig none
      let g8 := upd (upd g7 (.fin d) (some (.whole c))) (.tmp d) none
      let g9 := upd g8 (.fwd d) none
      let g10 := upd g9 (.old d) none
      let g11 := upd g10 .inflate none
      have tt : ∀ n, n = .inflate ∨ n = .sig ∨ n = .tmp d ∨ n = .rev d ∨ n = .fin d ∨ n = .fwd d ∨
          n = .old d → touches d n = true := by
        rintro n (rfl | rfl | rfl | rfl | rfl | rfl | rfl) <;> simp [touches]
      have f0 : Frame d s.get s.get := fun _ _ => rfl
      have f1 : Frame d s.get g1 := f0.upd (tt _ (by simp)) _
      have f2 : Frame d s.get g2 := f1.upd (tt _ (by simp)) _
      have f3 : Frame d s.get g3 := f2.upd (tt _ (by simp)) _
      have f4 : Frame d s.get g4 := f3.upd (tt _ (by simp)) _
      have f5 : Frame d s.get g5 := f4.upd (tt _ (by simp)) _
      have f6 : Frame d s.get g6 := f5.upd (tt _ (by simp)) _
      have f7 : Frame d s.get g7 := f6.upd (tt _ (by simp)) _
      have f8 : Frame d s.get g8 := (f7.upd (tt _ (by simp)) _).upd (tt _ (by simp)) _
      have f9 : Frame d s.get g9 := f8.upd (tt _ (by simp)) _
      have f10 : Frame d s.get g10 := f9.upd (tt _ (by simp)) _
      have f11 : Frame d s.get g11 := f10.upd (tt _ (by simp)) _
      have e : (patchAndDiff L false k d).flat s =
          ([⟨g1, s.dels⟩, ⟨g2, s.dels⟩, ⟨g3, s.dels⟩, ⟨g4, s.dels⟩, ⟨g5, s.dels⟩,
            ⟨g6, s.dels⟩, ⟨g7, s.dels⟩, ⟨g8, s.dels⟩, ⟨g9, s.dels⟩, ⟨g10, s.dels⟩, ⟨g11, s.dels⟩],
            ⟨g11, s.dels⟩, .ok) := by
        simp [patchAndDiff, Prog.flat, hi, h2, h3, hp, Act.flat, g1, g2, g3, g4, g5, g6, g7, g8,
          g9, g10, g11, upd]
      rw [e]
      have a11 : StepOk L false s0 k d s ⟨g11, s.dels⟩ := by
        apply after
        · simp [g11, g10, g9, g8, upd]
        · simp [g11, g10, g9, g8, g7, g6, upd]
        · exact f11
      refine ⟨?_, a11, rfl, by simp [hf, g11, g10, g9, g8, upd], by simp [hf]⟩
      intro t ht
      simp only [List.mem_cons, List.not_mem_nil, or_false] at ht
      rcases ht with rfl | rfl | rfl | rfl | rfl | rfl | rfl | rfl | rfl | rfl | rfl
      · apply before; intro n a b c _; simp [g1, upd, c]
      · apply before; intro n a b c _; simp [g2, g1, upd, c]
      · apply before; intro n a b c _; simp [g3, g2, g1, upd, b, c]
      · apply before; intro n a b c _; simp [g4, g3, g2, g1, upd, b, c]
      · apply before; intro n a b c hr
        have hr : n ≠ .rev d := fun e => by simpa using hr e
        simp [g5, g4, g3, g2, g1, upd, b, c, hr]
      · apply before; intro n a b c hr
        have hr : n ≠ .rev d := fun e => by simpa using hr e
        simp [g6, g5, g4, g3, g2, g1, upd, b, c, hr]
      · apply before; intro n a b c hr
        have hr : n ≠ .rev d := fun e => by simpa using hr e
        simp [g7, g6, g5, g4, g3, g2, g1, upd, b, c, hr]
      · apply after
        · simp [g8, upd]
        · simp [g8, g7, g6, g5, g4, g3, g2, g1, upd, h2]
        · exact f8
      · apply after
        · simp [g9, g8, upd]
        · simp [g9, g8, g7, g6, g5, g4, g3, g2, g1, upd, h2]
        · exact f9
      · apply after
        · simp [g10, g9, g8, upd]
        · simp [g10, g9, g8, g7, g6, g5, g4, g3, g2, g1, upd]
        · exact f10
      · exact a11

theorem Stage.inflate {L : Librsync C D S} {hard : Bool} {s0 : Slot C D}
    {g : Name → Option (Blob C D S)} {d : Str} (h : Stage L hard s0 g d)
    (v : Option (Blob C D S)) : Stage L hard s0 (upd g .inflate v) d := by
  unfold Stage at h ⊢
  simp only [upd, reduceCtorEq, if_false]
  exact h

theorem RunOk.prepend {L : Librsync C D S} {hard : Bool} {s0 : Slot C D} {k : K} {d : Str}
    {s : Store C D S K} {r : List (Store C D S K) × Store C D S K × Ret}
    (v : Option (Blob C D S)) (hs : Stage L hard s0 s.get d)
    (h : RunOk L hard s0 k d ⟨upd s.get .inflate v, s.dels⟩ r) :
    RunOk L hard s0 k d s (⟨upd s.get .inflate v, s.dels⟩ :: r.1, r.2) := by
  have hf : Frame d s.get (upd s.get .inflate v) :=
    Frame.upd (fun _ _ => rfl) (by simp [touches]) _
  have tr : ∀ t, StepOk L hard s0 k d ⟨upd s.get .inflate v, s.dels⟩ t →
      StepOk L hard s0 k d s t :=
    fun t ht => ⟨ht.stage, fun n hn => (ht.frame n hn).trans (hf n hn), ht.dels⟩
  refine ⟨?_, tr _ h.last, h.ok, h.done, h.log⟩
  intro t ht
  rcases List.mem_cons.1 ht with rfl | ht
  · exact ⟨hs.inflate v, hf, Or.inl rfl⟩
  · exact tr t (h.trace t ht)

theorem runOk_forward {L : Librsync C D S} {hard comp : Bool} {s0 : Slot C D} {k : K} {d : Str}
    {s : Store C D S K} {fd : D} (h0 : s0.fwd = some fd)
    (h : Stage L hard s0 s.get d) (hx : s.get (.fin d) = none) :
    RunOk L hard s0 k d s ((jiggle L hard comp k d).flat s) := by
  have h' := h
  unfold Stage at h'
  simp only [h0] at h'
  cases h1 : s0.old with
  | none => simp [h1] at h'
  | some a =>
    have h2 : s.get (.old d) = some (.whole a) ∧ s.get (.fwd d) = some (.delta fd) := by
      simp only [h1] at h'
      cases hp : L.patch a fd with
      | none => simp only [hp] at h'; exact ⟨h'.2.1, h'.2.2.1⟩
      | some c =>
        simp only [hp, hx] at h'
        simp only [reduceCtorEq, false_and, or_false] at h'
        exact ⟨h'.2.1, h'.2.2.1⟩
    obtain ⟨h2, h3⟩ := h2
    have e : (jiggle L hard comp k d).flat s = (forward L hard comp k d).flat s := by
      simp [jiggle, Prog.flat, hx, h3]
    rw [e]
    have last : ∀ g : Name → Option (Blob C D S), g = upd s.get .inflate (some (.whole a)) →
        RunOk L hard s0 k d ⟨g, s.dels⟩ ((patchAndDiff L hard k d).flat ⟨g, s.dels⟩) := by
      rintro g rfl
      exact runOk_patch h0 h1 (h.inflate _) (by simp [upd, hx]) (by simp [upd])
    have twice : ∀ (v w : Option (Blob C D S)),
        upd (upd s.get .inflate v) .inflate w = upd s.get .inflate w := by
      intro v w; funext n; simp only [upd]; split <;> rfl
    cases comp with
    | true =>
      have e2 : (forward L hard true k d).flat s =
          (⟨upd s.get .inflate (some .junk), s.dels⟩ ::
            ⟨upd (upd s.get .inflate (some .junk)) .inflate (some (.whole a)), s.dels⟩ ::
            ((patchAndDiff L hard k d).flat
              ⟨upd (upd s.get .inflate (some .junk)) .inflate (some (.whole a)), s.dels⟩).1,
            ((patchAndDiff L hard k d).flat
              ⟨upd (upd s.get .inflate (some .junk)) .inflate (some (.whole a)), s.dels⟩).2) := by
        simp [forward, Prog.flat, h2, Act.flat, upd]
      rw [e2]
      refine RunOk.prepend (r := (_ :: _, _)) _ h ?_
      exact RunOk.prepend (s := ⟨upd s.get .inflate (some .junk), s.dels⟩) _ (h.inflate _)
        (last _ (twice _ _))
    | false =>
      cases hi : s.get .inflate with
      | none =>
        have e2 : (forward L hard false k d).flat s =
            (⟨upd s.get .inflate (some (.whole a)), s.dels⟩ ::
              ((patchAndDiff L hard k d).flat
                ⟨upd s.get .inflate (some (.whole a)), s.dels⟩).1,
              ((patchAndDiff L hard k d).flat
                ⟨upd s.get .inflate (some (.whole a)), s.dels⟩).2) := by
          simp [forward, Prog.flat, h2, hi, Act.flat]
        rw [e2]
        exact RunOk.prepend _ h (last _ rfl)
      | some x =>
        have e2 : (forward L hard false k d).flat s =
            (⟨upd s.get .inflate none, s.dels⟩ ::
              ⟨upd (upd s.get .inflate none) .inflate (some (.whole a)), s.dels⟩ ::
              ((patchAndDiff L hard k d).flat
                ⟨upd (upd s.get .inflate none) .inflate (some (.whole a)), s.dels⟩).1,
              ((patchAndDiff L hard k d).flat
                ⟨upd (upd s.get .inflate none) .inflate (some (.whole a)), s.dels⟩).2) := by
          have z1 : upd s.get .inflate none (.old d) = some (.whole a) := by simp [upd, h2]
          have z2 : upd s.get .inflate none .inflate = none := by simp [upd]
          simp [forward, Prog.flat, h2, hi, Act.flat, z1, z2]
        rw [e2]
        refine RunOk.prepend (r := (_ :: _, _)) _ h ?_
        exact RunOk.prepend (s := ⟨upd s.get .inflate none, s.dels⟩) _ (h.inflate _)
          (last _ (twice _ _))

theorem runOk {L : Librsync C D S} {hard comp : Bool} {s0 : Slot C D} {k : K} {d : Str}
    {s : Store C D S K} (h : Stage L hard s0 s.get d) :
    RunOk L hard s0 k d s ((jiggle L hard comp k d).flat s) := by
  cases hx : s.get (.fin d) with
  | some x => exact runOk_skip h hx
  | none =>
    cases h0 : s0.fwd with
    | none => exact runOk_plain h hx h0
    | some fd => exact runOk_forward h0 h hx

theorem allowed_patch (cw : Bool) (L : Librsync C D S) (hard : Bool) (k : K) (d : Str)
    (s : Store C D S K) : Allowed cw (patchAndDiff L hard k d) s := by
  unfold patchAndDiff
  show Allowed cw (match s.get .inflate with | some (.whole x) => _ | _ => _) s
  cases h1 : s.get .inflate with
  | none => trivial
  | some b =>
    cases b with
    | whole x =>
      show Allowed cw (match s.get (.fwd d) with | some (.delta fd) => _ | _ => _) s
      cases h2 : s.get (.fwd d) with
      | none => trivial
      | some b =>
        cases b with
        | delta fd =>
          refine ⟨rfl, ?_⟩
          cases hp : L.patch x fd with
          | none => simp [Allowed, okAct]
          | some c =>
            refine ⟨rfl, ?_⟩
            cases hard with
            | true => simp [Allowed, okAct, W]
            | false =>
              simp only [Bool.false_eq_true, if_false]
              refine ⟨rfl, rfl, ?_⟩
              simp only [Allowed]
              split
              · simp only [Allowed]
                split
                · simp [Allowed, okAct, W]
                · trivial
              · trivial
        | _ => trivial
    | _ => trivial

theorem allowed_jiggle {cw : Bool} {L : Librsync C D S} {hard comp : Bool} {k : K} {d : Str}
    {s : Store C D S K} (h : s.get (.fwd d) = none ∨ comp = cw) :
    Allowed cw (jiggle L hard comp k d) s := by
  unfold jiggle
  show Allowed cw (match s.get (.fin d) with | some _ => _ | none => _) s
  cases h1 : s.get (.fin d) with
  | some x => simp [Allowed, okAct]
  | none =>
    show Allowed cw (match s.get (.fwd d) with | some _ => _ | none => _) s
    cases h2 : s.get (.fwd d) with
    | some x =>
      have hc : comp = cw := by
        rcases h with h | h
        · rw [h] at h2; cases h2
        · exact h
      subst hc
      unfold forward
      show Allowed comp (match s.get (.old d) with | none => _ | some (.whole a) => _ | some _ => _) s
      cases h3 : s.get (.old d) with
      | none => simp [Allowed, okAct]
      | some b =>
        cases b with
        | whole a =>
          cases comp with
          | true => exact ⟨rfl, rfl, allowed_patch _ _ _ _ _ _⟩
          | false =>
            show Allowed false (match s.get .inflate with | none => _ | some _ => _) s
            cases h4 : s.get .inflate with
            | none => exact ⟨⟨rfl, rfl⟩, allowed_patch _ _ _ _ _ _⟩
            | some x => exact ⟨trivial, ⟨rfl, rfl⟩, allowed_patch _ _ _ _ _ _⟩
        | _ => trivial
    | none =>
      show Allowed cw (match s.get (.tmp d) with | some _ => _ | none => _) s
      cases h3 : s.get (.tmp d) with
      | some x => simp [Allowed, okAct, W]
      | none =>
        show Allowed cw (match s.get (.old d) with | some x => _ | none => _) s
        cases h4 : s.get (.old d) with
        | some x => cases hard <;> simp [Allowed, okAct, W]
        | none =>
          show Allowed cw (match s.get (.rel d) with | some x => _ | none => _) s
          cases h5 : s.get (.rel d) with
          | some x => simp [Allowed, okAct, W]
          | none => trivial

/-! ### The whole manifest -/

/-- The invariant of interrupted runs over the manifest; `g0` is the initial state. -/
structure Inv (L : Librsync C D S) (hard : Bool) (man : List (K × Str)) (ini : Str → Slot C D)
    (g0 : Name → Option (Blob C D S)) (s : Store C D S K) : Prop where
  stage : ∀ e ∈ man, Stage L hard (ini e.2) s.get e.2
  frame : ∀ n, n ≠ .inflate → n ≠ .sig → (∀ e ∈ man, touches e.2 n = false) → s.get n = g0 n
  dels : ∀ k ∈ s.dels, ∃ d, (k, d) ∈ man ∧ fails L (ini d) = true

theorem Inv.step {L : Librsync C D S} {hard : Bool} {man : List (K × Str)} {ini : Str → Slot C D}
    {g0 : Name → Option (Blob C D S)} {s t : Store C D S K} (h : Inv L hard man ini g0 s) {k : K}
    {d : Str} (he : (k, d) ∈ man) (ht : StepOk L hard (ini d) k d s t) :
    Inv L hard man ini g0 t := by
  refine ⟨?_, ?_, ?_⟩
  · intro e hm
    by_cases hd : e.2 = d
    · rw [hd]; exact ht.stage
    · exact (h.stage e hm).congr hd ht.frame
  · intro n h1 h2 h3
    rw [ht.frame n (h3 _ he)]
    exact h.frame n h1 h2 h3
  · intro x hx
    rcases ht.dels with hd | ⟨hf, hd⟩
    · exact h.dels x (hd ▸ hx)
    · rw [hd] at hx
      rcases List.mem_append.1 hx with hx | hx
      · exact h.dels x hx
      · simp only [List.mem_singleton] at hx
        subst hx
        exact ⟨d, he, hf⟩

/-- Entry `k`, `d` has been dealt with. -/
def Done (L : Librsync C D S) (ini : Str → Slot C D) (s : Store C D S K) (e : K × Str) : Prop :=
  if fails L (ini e.2) = true then e.1 ∈ s.dels
  else (s.get (.fin e.2) ≠ none ∧ s.get (.fwd e.2) = none)

theorem Done.step {L : Librsync C D S} {hard : Bool} {ini : Str → Slot C D} {s t : Store C D S K}
    {e : K × Str} (h : Done L ini s e) {k : K} {d : Str} (hd : e.2 ≠ d)
    (ht : StepOk L hard (ini d) k d s t) : Done L ini t e := by
  unfold Done at h ⊢
  split
  · rename_i hf
    rw [if_pos hf] at h
    rcases ht.dels with hdl | ⟨_, hdl⟩
    · rw [hdl]; exact h
    · rw [hdl]; exact List.mem_append_left _ h
  · rename_i hf
    rw [if_neg hf] at h
    rw [ht.frame (.fin e.2) (by simp [touches, hd]), ht.frame (.fwd e.2) (by simp [touches, hd])]
    exact h

theorem runAll {L : Librsync C D S} {hard cw : Bool} {comp : Str → Bool} {man : List (K × Str)}
    {ini : Str → Slot C D} {g0 : Name → Option (Blob C D S)}
    (hc : ∀ e ∈ man, (ini e.2).fwd ≠ none → comp e.2 = cw) :
    ∀ (es : List (K × Str)), (∀ e ∈ es, e ∈ man) → (es.map Prod.snd).Nodup →
      ∀ s : Store C D S K, Inv L hard man ini g0 s →
      Allowed cw (jiggleAll L hard comp es) s ∧
      (∀ t ∈ ((jiggleAll L hard comp es).flat s).1, Inv L hard man ini g0 t) ∧
      Inv L hard man ini g0 ((jiggleAll L hard comp es).flat s).2.1 ∧
      ((jiggleAll L hard comp es).flat s).2.2 = .ok ∧
      (∀ e ∈ es, Done L ini ((jiggleAll L hard comp es).flat s).2.1 e) ∧
      (∀ e, e.2 ∉ es.map Prod.snd → Done L ini s e →
        Done L ini ((jiggleAll L hard comp es).flat s).2.1 e) := by
  intro es
  induction es with
  | nil =>
    intro _ _ s h
    simp only [jiggleAll, Prog.flat, Allowed]
    exact ⟨trivial, by simp, h, trivial, by simp, fun _ _ h => h⟩
  | cons e es ih =>
    obtain ⟨k, d⟩ := e
    intro hsub hnd s h
    simp only [List.map_cons, List.nodup_cons] at hnd
    have he : (k, d) ∈ man := hsub _ (by simp)
    have r := runOk (comp := comp d) (k := k) (h.stage (k, d) he)
    have hi := h.step he r.last
    obtain ⟨a1, a2, a3, a4, a5, a6⟩ := ih (fun e he => hsub e (List.mem_cons_of_mem _ he)) hnd.2 _ hi
    have hdone : Done L ini ((jiggle L hard (comp d) k d).flat s).2.1 (k, d) := r.done
    have al : Allowed cw (jiggle L hard (comp d) k d) s := by
      apply allowed_jiggle
      by_cases hf : (ini d).fwd = none
      · left
        have := h.stage (k, d) he
        unfold Stage at this
        simp only [hf] at this
        exact this.1
      · exact Or.inr (hc (k, d) he hf)
    simp only [jiggleAll]
    rw [flat_andThen, if_pos r.ok]
    refine ⟨allowed_andThen _ _ _ al a1, ?_, a3, a4, ?_, ?_⟩
    · intro t ht
      rcases List.mem_append.1 ht with ht | ht
      · exact h.step he (r.trace t ht)
      · exact a2 t ht
    · intro e he
      rcases List.mem_cons.1 he with rfl | he
      · exact a6 _ hnd.1 hdone
      · exact a5 e he
    · intro e hne hde
      simp only [List.map_cons, List.mem_cons, not_or] at hne
      exact a6 e hne.2 (hde.step hne.1 r.last)

/-- The keys of the entries whose delta does not apply. -/
def failing (L : Librsync C D S) (ini : Str → Slot C D) (es : List (K × Str)) : List K :=
  (es.filter (fun e => fails L (ini e.2))).map Prod.fst

/-- What runs over the manifest add to the deletions file. -/
theorem runAll_log {L : Librsync C D S} {hard : Bool} {comp : Str → Bool} {man : List (K × Str)}
    {ini : Str → Slot C D} {g0 : Name → Option (Blob C D S)} :
    ∀ (es : List (K × Str)), (∀ e ∈ es, e ∈ man) →
      ∀ s : Store C D S K, Inv L hard man ini g0 s →
      (∀ t ∈ ((jiggleAll L hard comp es).flat s).1,
        ∃ p, p <+: failing L ini es ∧ t.dels = s.dels ++ p) ∧
      ((jiggleAll L hard comp es).flat s).2.1.dels = s.dels ++ failing L ini es := by
  intro es
  induction es with
  | nil => intro _ s _; simp [jiggleAll, Prog.flat, failing]
  | cons e es ih =>
    obtain ⟨k, d⟩ := e
    intro hsub s h
    have he : (k, d) ∈ man := hsub _ (by simp)
    have r := runOk (comp := comp d) (k := k) (h.stage (k, d) he)
    have hi := h.step he r.last
    obtain ⟨a1, a2⟩ := ih (fun e he => hsub e (List.mem_cons_of_mem _ he)) _ hi
    have hl : ((jiggle L hard (comp d) k d).flat s).2.1.dels ++ failing L ini es =
        s.dels ++ failing L ini ((k, d) :: es) := by
      cases hf : fails L (ini d) with
      | true => rw [r.log hf]; simp [failing, hf]
      | false =>
        rcases r.last.dels with hd | ⟨hd, _⟩
        · rw [hd]; simp [failing, hf]
        · rw [hf] at hd; cases hd
    have hp : ∀ t : Store C D S K, (t.dels = s.dels ∨ (fails L (ini d) = true ∧ t.dels = s.dels ++ [k])) →
        ∃ p, p <+: failing L ini ((k, d) :: es) ∧ t.dels = s.dels ++ p := by
      rintro t (ht | ⟨hf, ht⟩)
      · exact ⟨[], List.nil_prefix, by simp [ht]⟩
      · refine ⟨[k], ?_, ht⟩
        simp [failing, hf]
    simp only [jiggleAll]
    rw [flat_andThen, if_pos r.ok]
    refine ⟨?_, by rw [a2, hl]⟩
    intro t ht
    rcases List.mem_append.1 ht with ht | ht
    · exact hp t (r.trace t ht).dels
    · obtain ⟨p, ⟨q, hq⟩, hd⟩ := a1 t ht
      rw [← hq, ← List.append_assoc, ← hd] at hl
      have hlen : s.dels.length ≤ t.dels.length := by
        rw [hd]
        rcases r.last.dels with h | ⟨_, h⟩ <;> rw [h] <;> simp
      have hpre : s.dels <+: t.dels := List.prefix_of_prefix_length_le ⟨_, rfl⟩ ⟨q, hl⟩ hlen
      obtain ⟨x, hx⟩ := hpre
      refine ⟨x, ⟨q, ?_⟩, hx.symm⟩
      rw [← hx, List.append_assoc] at hl
      exact List.append_cancel_left hl

/-! ### Interrupted runs -/

theorem stage_initial {L : Librsync C D S} {hard : Bool} {s0 : Slot C D}
    {g : Name → Option (Blob C D S)} {d : Str} (h1 : g (.fin d) = none) (h2 : g (.rev d) = none)
    (h3 : g (.old d) = s0.old.map .whole) (h4 : g (.tmp d) = s0.tmp.map .whole)
    (h5 : g (.fwd d) = s0.fwd.map .delta) (h6 : g (.rel d) = s0.rel.map .whole)
    (h7 : s0.fin = none) (hj : History.jiggle L hard s0 ≠ none) : Stage L hard s0 g d := by
  unfold Stage
  unfold History.jiggle at hj
  simp only [h7] at hj
  cases hf : s0.fwd with
  | some fd =>
    simp only [hf] at hj ⊢
    cases ho : s0.old with
    | none => simp [ho] at hj
    | some a =>
      simp only [ho, hf, Option.map_some] at h3 h5 ⊢
      cases hp : L.patch a fd with
      | none => exact ⟨h1, h3, h5, h2⟩
      | some c => exact Or.inl ⟨h1, h3, h5, fun _ => h2⟩
  | none =>
    simp only [hf] at hj ⊢
    simp only [hf, Option.map_none] at h5
    refine ⟨h5, h2, ?_⟩
    cases ht : s0.tmp with
    | some c =>
      simp only [ht, Option.map_some] at h4
      exact ⟨h3, Or.inl ⟨h1, h4⟩⟩
    | none =>
      simp only [ht, Option.map_none] at h4 hj ⊢
      cases ho : s0.old with
      | some a =>
        simp only [ho, Option.map_some] at h3
        exact Or.inl ⟨h1, h4, h3⟩
      | none =>
        simp only [ho, Option.map_none] at h3 hj ⊢
        refine ⟨h3, ?_⟩
        cases hr : s0.rel with
        | none => simp [hr] at hj
        | some c =>
          simp only [hr, Option.map_some] at h6
          exact Or.inl ⟨h1, h4, h6⟩

/-- What is true in every state that interrupted runs leave, and after a complete run from it. -/
theorem crashed_inv {L : Librsync C D S} {hard cw : Bool} {comp : Str → Bool} {man : List (K × Str)}
    {ini : Str → Slot C D} {fs0 fs : FS C D S K} (h0 : Initial ini fs0)
    (hnd : (man.map Prod.snd).Nodup)
    (hj : ∀ e ∈ man, History.jiggle L hard (ini e.2) ≠ none)
    (hc : ∀ e ∈ man, (ini e.2).fwd ≠ none → comp e.2 = cw)
    (h : Crashed few (jiggleAll L hard comp man) fs0 fs) :
    Hyg cw fs ∧ Inv L hard man ini fs0.look fs.abs := by
  induction h with
  | start =>
    obtain ⟨a1, a2, a3, a4, a5, a6⟩ := h0
    refine ⟨⟨a5, ?_⟩, ?_, ?_, ?_⟩
    · intro n i m hw hn hm
      cases n with
      | tmp d => exact a6 d i m hn hm
      | sig => rw [look_eq_none.1 a3] at hn; cases hn
      | inflate => rw [look_eq_none.1 a2] at hn; cases hn
      | rev d => rw [look_eq_none.1 (a1 d).2.1] at hn; cases hn
      | _ => simp [W] at hw
    · intro e he
      obtain ⟨b1, b2, b3, b4, b5, b6, b7, _⟩ := a1 e.2
      exact stage_initial b1 b2 b3 b4 b5 b6 b7 (hj e he)
    · intro n _ _ _; rfl
    · intro k hk
      simp [FS.abs, a4] at hk
  | again _ hs ih =>
    obtain ⟨hh, hi⟩ := ih
    obtain ⟨al, t1, _⟩ := runAll hc man (fun _ h => h) hnd _ hi
    obtain ⟨p1, _, _, p4, _⟩ := prog_sim _ hh al
    refine ⟨p4 _ hs, ?_⟩
    apply t1
    rw [← p1]
    exact List.mem_map.2 ⟨_, hs, rfl⟩

/-- The deletions file after interrupted runs. -/
theorem crashed_log {L : Librsync C D S} {hard cw : Bool} {comp : Str → Bool} {man : List (K × Str)}
    {ini : Str → Slot C D} {fs0 fs : FS C D S K} (h0 : Initial ini fs0)
    (hnd : (man.map Prod.snd).Nodup)
    (hj : ∀ e ∈ man, History.jiggle L hard (ini e.2) ≠ none)
    (hc : ∀ e ∈ man, (ini e.2).fwd ≠ none → comp e.2 = cw)
    (h : Crashed few (jiggleAll L hard comp man) fs0 fs) :
    Logged (failing L ini man) fs.dels ∧
    ((jiggleAll L hard comp man).run few fs).2.1.dels = fs.dels ++ failing L ini man := by
  have key : ∀ fs : FS C D S K, Crashed few (jiggleAll L hard comp man) fs0 fs →
      (∀ t ∈ ((jiggleAll L hard comp man).run few fs).1,
        ∃ p, p <+: failing L ini man ∧ t.dels = fs.dels ++ p) ∧
      ((jiggleAll L hard comp man).run few fs).2.1.dels = fs.dels ++ failing L ini man := by
    intro fs h
    obtain ⟨hh, hi⟩ := crashed_inv h0 hnd hj hc h
    obtain ⟨al, _⟩ := runAll hc man (fun _ h => h) hnd _ hi
    obtain ⟨p1, p2, _, _, _⟩ := prog_sim _ hh al
    obtain ⟨l1, l2⟩ := runAll_log (comp := comp) man (fun _ h => h) _ hi
    refine ⟨?_, ?_⟩
    · intro t ht
      have : t.abs ∈ ((jiggleAll L hard comp man).flat fs.abs).1 := by
        rw [← p1]; exact List.mem_map.2 ⟨t, ht, rfl⟩
      exact l1 t.abs this
    · rw [← p2] at l2
      exact l2
  refine ⟨?_, (key fs h).2⟩
  induction h with
  | start => rw [h0.2.2.2.1]; exact .nil
  | again hs ht ih =>
    obtain ⟨p, hp, hd⟩ := (key _ hs).1 _ ht
    rw [hd]
    exact .more ih hp

theorem crashed_complete {L : Librsync C D S} {hard cw : Bool} {comp : Str → Bool}
    {man : List (K × Str)} {ini : Str → Slot C D} {fs0 fs : FS C D S K} (h0 : Initial ini fs0)
    (hnd : (man.map Prod.snd).Nodup)
    (hj : ∀ e ∈ man, History.jiggle L hard (ini e.2) ≠ none)
    (hc : ∀ e ∈ man, (ini e.2).fwd ≠ none → comp e.2 = cw)
    (h : Crashed few (jiggleAll L hard comp man) fs0 fs) :
    ((jiggleAll L hard comp man).run few fs).2.2 = .ok ∧
    Inv L hard man ini fs0.look ((jiggleAll L hard comp man).run few fs).2.1.abs ∧
    ∀ e ∈ man, Done L ini ((jiggleAll L hard comp man).run few fs).2.1.abs e := by
  obtain ⟨hh, hi⟩ := crashed_inv h0 hnd hj hc h
  obtain ⟨al, _, t2, t3, t4, _⟩ := runAll hc man (fun _ h => h) hnd _ hi
  obtain ⟨_, p2, p3, _, _⟩ := prog_sim _ hh al
  exact ⟨p3 ▸ t3, p2 ▸ t2, p2 ▸ t4⟩

/-- Every stage shows the content of the previous backup as before if that is a hardlinked archive. -/
theorem Stage.old_hard {L : Librsync C D S} {s0 : Slot C D} {g : Name → Option (Blob C D S)}
    {d : Str} (h : Stage L true s0 g d) : g (.old d) = s0.old.map .whole := by
  unfold Stage at h
  cases hf : s0.fwd with
  | some fd =>
    simp only [hf] at h
    cases ho : s0.old with
    | none => simp [ho] at h
    | some a =>
      simp only [ho] at h
      cases hp : L.patch a fd with
      | none => simp only [hp] at h; exact h.2.1
      | some c =>
        simp only [hp] at h
        rcases h with h | ⟨_, h | h⟩
        · exact h.2.1
        · exact h.2.1
        · cases h.1
  | none =>
    simp only [hf] at h
    obtain ⟨_, _, h⟩ := h
    cases ht : s0.tmp with
    | some c => simp only [ht] at h; exact h.1
    | none =>
      simp only [ht] at h
      cases ho : s0.old with
      | some a =>
        simp only [ho] at h
        rcases h with h | ⟨_, h | h⟩
        · exact h.2.2
        · exact h
        · cases h.1
      | none => simp only [ho] at h; exact h.1

/-- The stage and being done determine the new file, and leave the old content available. -/
theorem Stage.done {L : Librsync C D S} {hard : Bool} {s0 s' : Slot C D} {del : Bool}
    {g : Name → Option (Blob C D S)} {d : Str} (h : Stage L hard s0 g d) (h7 : s0.fin = none)
    (hd : fails L s0 = true ∨ g (.fin d) ≠ none)
    (hj : History.jiggle L hard s0 = some (s', del)) :
    del = fails L s0 ∧ g (.fin d) = s'.fin.map .whole ∧
    (g (.old d) = s0.old.map .whole ∧ (g (.rev d) = none ∨ ∃ x, g (.rev d) = some (.delta x)) ∨
     ∃ a c, s0.old = some a ∧ g (.old d) = none ∧ g (.fin d) = some (.whole c) ∧
      ((g (.rev d) = none ∧ c = a) ∨ g (.rev d) = some (.delta (L.delta (L.sig c) a)))) := by
  unfold Stage at h
  unfold fails at hd ⊢
  unfold History.jiggle at hj
  simp only [h7] at hj
  cases hf : s0.fwd with
  | some fd =>
    simp only [hf] at h hj hd ⊢
    cases ho : s0.old with
    | none => simp [ho] at h
    | some a =>
      simp only [ho] at h hj hd ⊢
      cases hp : L.patch a fd with
      | none =>
        simp only [hp] at h hj ⊢
        simp only [Option.some.injEq, Prod.mk.injEq] at hj
        obtain ⟨rfl, rfl⟩ := hj
        simp [h]
      | some c =>
        simp only [hp] at h hj hd ⊢
        simp only [Option.isNone_some, Bool.false_eq_true, false_or] at hd
        rcases h with h | ⟨h1, h2⟩
        · exact absurd h.1 hd
        · cases hard with
          | true =>
            simp only [if_true, Option.some.injEq, Prod.mk.injEq] at hj
            obtain ⟨rfl, rfl⟩ := hj
            simp only [true_and, Bool.true_eq_false, false_and, or_false] at h2
            simp [h1, h2]
          | false =>
            simp only [Bool.false_eq_true, if_false, Option.some.injEq, Prod.mk.injEq] at hj
            obtain ⟨rfl, rfl⟩ := hj
            simp only [Bool.false_eq_true, false_and, true_and, false_or] at h2
            obtain ⟨h2, h3 | h3⟩ := h2 <;> simp [h1, h2, h3]
  | none =>
    simp only [hf] at h hj hd ⊢
    obtain ⟨h1, h2, h⟩ := h
    simp only [Bool.false_eq_true, false_or] at hd
    cases ht : s0.tmp with
    | some c =>
      simp only [ht, Option.some.injEq, Prod.mk.injEq] at h hj
      obtain ⟨rfl, rfl⟩ := hj
      obtain ⟨h3, h4 | h4⟩ := h
      · exact absurd h4.1 hd
      · simp [h2, h3, h4]
    | none =>
      simp only [ht] at h hj
      cases ho : s0.old with
      | some a =>
        simp only [ho, Option.some.injEq, Prod.mk.injEq] at h hj
        obtain ⟨rfl, rfl⟩ := hj
        rcases h with h | ⟨h3, h4 | ⟨_, h4⟩⟩
        · exact absurd h.1 hd
        · simp [h2, h3, h4]
        · simp [h2, h3, h4]
      | none =>
        simp only [ho] at h hj
        obtain ⟨h3, h⟩ := h
        cases hr : s0.rel with
        | none => simp [hr] at h
        | some c =>
          simp only [hr, Option.some.injEq, Prod.mk.injEq] at h hj
          obtain ⟨rfl, rfl⟩ := hj
          rcases h with h | h
          · exact absurd h.1 hd
          · simp [h2, h3, h]

theorem untouched {man : List (K × Str)} {d : Str} (h : d ∉ man.map Prod.snd) :
    ∀ e ∈ man, e.2 ≠ d := by
  rintro e he rfl
  exact h (List.mem_map.2 ⟨e, he, rfl⟩)

end Verif.Jiggle
