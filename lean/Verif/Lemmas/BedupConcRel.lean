import Verif.Lemmas.BedupConcInv

/-! # The server with `bedup` and without -/

namespace Verif.BedupConc
open Verif

/-- `a` is what the server would have on its own. -/
structure Rel (ext : Str) (a : Server) (t : Sys) : Prop where
  working : a.working = t.server.working
  finishing : a.finishing = t.server.finishing
  writing : a.writing = t.server.writing
  next : a.next = t.server.next
  fresh : ∀ p i, a.at_ p = some i → i < a.next
  content : ∀ i ∈ t.server.writing, a.content i = t.server.content i
  shared : ∀ i ∈ t.server.writing, ∀ p, a.at_ p = some i ↔ t.server.at_ p = some i
  le : ∀ p x, ¬ isTmp ext p → a.view p = some x → t.server.view p = some x

/-- The other way round, too. -/
def Same (ext : Str) (a : Server) (t : Sys) : Prop :=
  ∀ p x, ¬ isTmp ext p → t.server.view p = some x → a.view p = some x

section
variable {ext : Str} {a : Server} {t : Sys}

theorem Rel.put_both (h : Rel ext a t) (q : Path) (i j : Nat) (t' : Sys) (a' : Server)
    (ht : t'.server = t.server.put q (some j)) (ha : a' = a.put q (some i))
    (hi : i < a.next) (hx : ¬ isTmp ext q → a.content i = t.server.content j)
    (hs : ∀ k ∈ t.server.writing, i = k ↔ j = k) : Rel ext a' t' := by
  subst ha
  refine ⟨?_, ?_, ?_, ?_, ?_, ?_, ?_, ?_⟩
  · rw [ht]; exact h.working
  · rw [ht]; exact h.finishing
  · rw [ht]; exact h.writing
  · rw [ht]; exact h.next
  · intro p k hk
    rw [put_at] at hk
    split at hk
    · cases hk; exact hi
    · exact h.fresh p k hk
  · rw [ht]; exact h.content
  · rw [ht]
    intro k hk p
    rw [put_at, put_at]
    split
    · simp only [Option.some.injEq]; exact hs k hk
    · exact h.shared k hk p
  · intro p x h0 hv
    rw [view_some] at hv ⊢
    rw [ht]
    obtain ⟨k, k1, k2⟩ := hv
    have k2 : a.content k = x := k2
    rw [put_at] at k1
    split at k1
    · rename_i e
      cases k1
      refine ⟨j, by rw [e]; exact put_self _ _ _, ?_⟩
      show t.server.content j = x
      rw [← hx (e ▸ h0)]; exact k2
    · rename_i e
      obtain ⟨m, m1, m2⟩ := view_some.1 (h.le p x h0 (view_some.2 ⟨k, k1, k2⟩))
      exact ⟨m, by rw [put_ne _ _ e]; exact m1, m2⟩

theorem Rel.unput_both (h : Rel ext a t) (q : Path) (t' : Sys) (a' : Server)
    (ht : t'.server = t.server.put q none) (ha : a' = a.put q none) : Rel ext a' t' := by
  subst ha
  refine ⟨?_, ?_, ?_, ?_, ?_, ?_, ?_, ?_⟩
  · rw [ht]; exact h.working
  · rw [ht]; exact h.finishing
  · rw [ht]; exact h.writing
  · rw [ht]; exact h.next
  · intro p k hk
    rw [put_at] at hk
    split at hk
    · cases hk
    · exact h.fresh p k hk
  · rw [ht]; exact h.content
  · rw [ht]
    intro k hk p
    rw [put_at, put_at]
    split
    · simp
    · exact h.shared k hk p
  · intro p x h0 hv
    rw [view_some] at hv ⊢
    rw [ht]
    obtain ⟨k, k1, k2⟩ := hv
    have k2 : a.content k = x := k2
    rw [put_at] at k1
    split at k1
    · cases k1
    · rename_i e
      obtain ⟨m, m1, m2⟩ := view_some.1 (h.le p x h0 (view_some.2 ⟨k, k1, k2⟩))
      exact ⟨m, by rw [put_ne _ _ e]; exact m1, m2⟩

/-- Only on the disk with `bedup` is there something new at a path where there was nothing. -/
theorem Rel.put_one (h : Rel ext a t) (q : Path) (o : Option Nat) (t' : Sys)
    (ht : t'.server = t.server.put q o) (hs : ∀ k ∈ t.server.writing, a.at_ q ≠ some k ∧ o ≠ some k)
    (hx : ¬ isTmp ext q → ∀ x, a.view q = some x → ∃ j, o = some j ∧ t.server.content j = x) : Rel ext a t' := by
  refine ⟨?_, ?_, ?_, ?_, h.fresh, ?_, ?_, ?_⟩
  · rw [ht]; exact h.working
  · rw [ht]; exact h.finishing
  · rw [ht]; exact h.writing
  · rw [ht]; exact h.next
  · rw [ht]; exact h.content
  · rw [ht]
    intro k hk p
    rw [put_at]
    split
    · rename_i e
      subst e
      exact ⟨fun hp => absurd hp (hs k hk).1, fun hp => absurd hp (hs k hk).2⟩
    · exact h.shared k hk p
  · intro p x h0 hv
    by_cases e : p = q
    · subst e
      obtain ⟨j, j1, j2⟩ := hx h0 x hv
      rw [view_some, ht]
      exact ⟨j, by rw [put_self]; exact j1, j2⟩
    · obtain ⟨m, m1, m2⟩ := view_some.1 (h.le p x h0 hv)
      rw [view_some, ht]
      exact ⟨m, by rw [put_ne _ _ e]; exact m1, m2⟩

theorem none_of_le (h : Rel ext a t) {q : Path} (hq : t.server.at_ q = none) (h0 : ¬ isTmp ext q) : a.view q = none := by
  cases hv : a.view q with
  | none => rfl
  | some x =>
    obtain ⟨i, hi, _⟩ := view_some.1 (h.le q x h0 hv)
    rw [hq] at hi; cases hi

theorem Rel.link (h : Rel ext a t) (p q : Path) (hq : t.server.at_ q = none)
    (hpq : isTmp ext p → isTmp ext q) : Rel ext (a.act (.link p q)) (t.acted (.link p q)) := by
  have ea : a.act (.link p q) = match a.at_ p with
    | none => a
    | some i => a.put q (some i) := rfl
  have et : (t.acted (.link p q)).server = match t.server.at_ p with
    | none => t.server
    | some i => t.server.put q (some i) := rfl
  cases hj : t.server.at_ p with
  | none =>
    rw [hj] at et
    simp only [] at et
    cases hi : a.at_ p with
    | none =>
      rw [ea, hi]
      exact ⟨by rw [et]; exact h.working, by rw [et]; exact h.finishing, by rw [et]; exact h.writing,
        by rw [et]; exact h.next, h.fresh, by rw [et]; exact h.content, by rw [et]; exact h.shared, by rw [et]; exact h.le⟩
    | some i =>
      -- only a temporary name can be there without being there
      rw [ea, hi]
      simp only []
      have hp : isTmp ext p := by
        apply Classical.byContradiction
        intro h0
        obtain ⟨k, hk, _⟩ := view_some.1 (h.le p _ h0 (view_some.2 ⟨i, hi, rfl⟩))
        rw [hj] at hk; cases hk
      have hw : i ∉ t.server.writing := by
        intro hw
        have := (h.shared i hw p).1 hi
        rw [hj] at this; cases this
      refine ⟨by rw [et]; exact h.working, by rw [et]; exact h.finishing, by rw [et]; exact h.writing,
        by rw [et]; exact h.next, ?_, by rw [et]; exact h.content, ?_, ?_⟩
      · intro r k hk
        rw [put_at] at hk
        split at hk
        · cases hk; exact h.fresh p i hi
        · exact h.fresh r k hk
      · rw [et]
        intro k hk r
        rw [put_at]
        split
        · rename_i e
          subst e
          constructor
          · intro hh; cases hh; exact absurd hk hw
          · intro hh; rw [hq] at hh; cases hh
        · exact h.shared k hk r
      · rw [et]
        intro r x h0 hv
        obtain ⟨k, k1, k2⟩ := view_some.1 hv
        rw [put_ne] at k1
        · exact h.le r x h0 (view_some.2 ⟨k, k1, k2⟩)
        · rintro rfl; exact h0 (hpq hp)
  | some j =>
    rw [hj] at et
    simp only [] at et
    cases hi : a.at_ p with
    | none =>
      rw [ea, hi]
      simp only []
      refine h.put_one q (some j) _ et ?_ ?_
      · intro k hk
        refine ⟨?_, ?_⟩
        · intro hh
          have := (h.shared k hk q).1 hh
          rw [hq] at this; cases this
        · intro hh
          cases hh
          have := (h.shared j hk p).2 hj
          rw [hi] at this; cases this
      · intro h0 x hv
        rw [none_of_le h hq h0] at hv; cases hv
    | some i =>
      rw [ea, hi]
      simp only []
      refine h.put_both q i j _ _ et rfl (h.fresh p i hi) ?_ ?_
      · intro h0
        have hp : ¬ isTmp ext p := fun hp => h0 (hpq hp)
        obtain ⟨k, k1, k2⟩ := view_some.1 (h.le p _ hp (view_some.2 ⟨i, hi, rfl⟩))
        rw [hj] at k1; cases k1
        exact k2.symm
      · intro k hk
        constructor
        · rintro rfl
          have := (h.shared i hk p).1 hi
          rw [hj] at this; cases this; rfl
        · rintro rfl
          have := (h.shared j hk p).2 hj
          rw [hi] at this; cases this; rfl

theorem put_none_self (s : Server) (p : Path) (h : s.at_ p = none) : s.put p none = s := by
  have : (fun q => if q = p then none else s.at_ q) = s.at_ := by
    funext q
    by_cases e : q = p
    · rw [if_pos e, e, h]
    · rw [if_neg e]
  unfold Server.put
  rw [this]

/-- Renaming is linking and removing. -/
theorem rename_eq (s : Server) (p q : Path) (h : p ≠ q) :
    s.act (.rename p q) = (s.act (.link p q)).act (.unlink p) := by
  have e1 : s.act (.rename p q) = match s.at_ p with
    | none => s
    | some i => (s.put p none).put q (some i) := rfl
  have e2 : s.act (.link p q) = match s.at_ p with
    | none => s
    | some i => s.put q (some i) := rfl
  rw [e1, e2]
  cases hp : s.at_ p with
  | none => exact (put_none_self s p hp).symm
  | some i =>
    simp only []
    show (s.put p none).put q (some i) = (s.put q (some i)).put p none
    unfold Server.put
    simp only []
    congr 1
    funext r
    by_cases hr : r = p
    · subst hr
      rw [if_neg h, if_pos rfl, if_pos rfl]
    · rw [if_neg hr, if_neg hr]

theorem rename_same (s : Server) (p : Path) : s.act (.rename p p) = s := by
  have e1 : s.act (.rename p p) = match s.at_ p with
    | none => s
    | some i => (s.put p none).put p (some i) := rfl
  rw [e1]
  cases hp : s.at_ p with
  | none => rfl
  | some i =>
    simp only []
    have : (fun q => if q = p then some i else (s.put p none).at_ q) = s.at_ := by
      funext q
      by_cases e : q = p
      · rw [if_pos e, e, hp]
      · rw [if_neg e, put_ne _ _ e]
    show { s.put p none with at_ := fun q => if q = p then some i else (s.put p none).at_ q } = s
    rw [this]
    rfl

/-- Where the file system is changed by moving paths about, in the same way on both. -/
theorem Rel.moved (h : Rel ext a t) (t' : Sys) (a' : Server) (fa ft : Path → Option Nat)
    (ha : a' = { a with at_ := fa }) (ht : t'.server = { t.server with at_ := ft })
    (hm : ∀ p, (fa p = a.at_ p ∧ ft p = t.server.at_ p) ∨ (fa p = none ∧ ft p = none) ∨
      ∃ q, (isTmp ext q → isTmp ext p) ∧ fa p = a.at_ q ∧ ft p = t.server.at_ q) : Rel ext a' t' := by
  subst ha
  refine ⟨by rw [ht]; exact h.working, by rw [ht]; exact h.finishing, by rw [ht]; exact h.writing,
    by rw [ht]; exact h.next, ?_, by rw [ht]; exact h.content, ?_, ?_⟩
  · intro p i hi
    have hi : fa p = some i := hi
    rcases hm p with ⟨h1, _⟩ | ⟨h1, _⟩ | ⟨q, _, h1, _⟩
    · exact h.fresh p i (by rw [← h1]; exact hi)
    · rw [h1] at hi; cases hi
    · exact h.fresh q i (by rw [← h1]; exact hi)
  · rw [ht]
    intro k hk p
    show fa p = some k ↔ ft p = some k
    rcases hm p with ⟨h1, h2⟩ | ⟨h1, h2⟩ | ⟨q, _, h1, h2⟩
    · rw [h1, h2]; exact h.shared k hk p
    · rw [h1, h2]
    · rw [h1, h2]; exact h.shared k hk q
  · intro p x h0 hv
    rw [view_some] at hv ⊢
    obtain ⟨k, k1, k2⟩ := hv
    have k1 : fa p = some k := k1
    rw [ht]
    show ∃ i, ft p = some i ∧ t.server.content i = x
    rcases hm p with ⟨h1, h2⟩ | ⟨h1, h2⟩ | ⟨q, hq, h1, h2⟩
    · rw [h2]; exact view_some.1 (h.le p x h0 (view_some.2 ⟨k, by rw [← h1]; exact k1, k2⟩))
    · rw [h1] at k1; cases k1
    · rw [h2]
      exact view_some.1 (h.le q x (fun hh => h0 (hq hh)) (view_some.2 ⟨k, by rw [← h1]; exact k1, k2⟩))

theorem Rel.unlink (h : Rel ext a t) (p : Path) : Rel ext (a.act (.unlink p)) (t.acted (.unlink p)) :=
  h.unput_both p _ _ rfl rfl

/-- `Rel` does not depend on anything but the disk. -/
theorem Rel.congr (h : Rel ext a t) (t' : Sys) (ht : t'.server = t.server) : Rel ext a t' :=
  ⟨by rw [ht]; exact h.working, by rw [ht]; exact h.finishing, by rw [ht]; exact h.writing, by rw [ht]; exact h.next,
    h.fresh, by rw [ht]; exact h.content, by rw [ht]; exact h.shared, by rw [ht]; exact h.le⟩

theorem Rel.acted (h : Rel ext a t) (hb : Base ext t) (x : Act) (hm : t.server.may ext t.old x) :
    Rel ext (a.act x) (t.acted x) := by
  cases x with
  | start c d =>
    refine ⟨?_, h.finishing, h.writing, h.next, h.fresh, h.content, h.shared, h.le⟩
    show (fun x => if x = c then some d else a.working x) = fun x => if x = c then some d else t.server.working x
    rw [h.working]
  | create p =>
    have hnw : ∀ i ∈ t.server.writing, i ≠ t.server.next := fun i hi => Nat.ne_of_lt (hb.writing i hi)
    refine ⟨h.working, h.finishing, ?_, ?_, ?_, ?_, ?_, ?_⟩
    · show a.next :: a.writing = t.server.next :: t.server.writing
      rw [h.next, h.writing]
    · show a.next + 1 = t.server.next + 1
      rw [h.next]
    · intro q i hi
      have hi : (if q = p then some a.next else a.at_ q) = some i := hi
      show i < a.next + 1
      split at hi
      · cases hi; exact Nat.lt_succ_self _
      · exact Nat.lt_succ_of_lt (h.fresh q i hi)
    · intro i hi
      have hi : i ∈ t.server.next :: t.server.writing := hi
      show (if i = a.next then [] else a.content i) = (if i = t.server.next then [] else t.server.content i)
      rw [h.next]
      rcases List.mem_cons.1 hi with rfl | hi
      · rw [if_pos rfl, if_pos rfl]
      · rw [if_neg (hnw i hi), if_neg (hnw i hi)]; exact h.content i hi
    · intro i hi q
      have hi : i ∈ t.server.next :: t.server.writing := hi
      show (if q = p then some a.next else a.at_ q) = some i ↔ (if q = p then some t.server.next else t.server.at_ q) = some i
      rw [h.next]
      split
      · exact Iff.rfl
      · rcases List.mem_cons.1 hi with rfl | hi
        · constructor
          · intro hh; have := h.fresh q _ hh; rw [h.next] at this; omega
          · intro hh; have := hb.fresh q _ hh; omega
        · exact h.shared i hi q
    · intro q y h0 hv
      rw [view_some] at hv ⊢
      obtain ⟨k, k1, k2⟩ := hv
      have k1 : (if q = p then some a.next else a.at_ q) = some k := k1
      have k2 : (if k = a.next then [] else a.content k) = y := k2
      show ∃ i, (if q = p then some t.server.next else t.server.at_ q) = some i ∧
        (if i = t.server.next then [] else t.server.content i) = y
      by_cases e : q = p
      · rw [if_pos e] at k1 ⊢
        cases k1
        exact ⟨t.server.next, rfl, by rw [if_pos rfl] at k2 ⊢; exact k2⟩
      · rw [if_neg e] at k1 ⊢
        rw [if_neg (Nat.ne_of_lt (h.fresh q k k1))] at k2
        obtain ⟨m, m1, m2⟩ := view_some.1 (h.le q y h0 (view_some.2 ⟨k, k1, k2⟩))
        exact ⟨m, m1, by rw [if_neg (Nat.ne_of_lt (hb.fresh q m m1))]; exact m2⟩
  | write i b =>
    have hi : i ∈ t.server.writing := hm
    refine ⟨h.working, h.finishing, h.writing, h.next, h.fresh, ?_, h.shared, ?_⟩
    · intro j hj
      show (if j = i then a.content i ++ b else a.content j) = (if j = i then t.server.content i ++ b else t.server.content j)
      rw [h.content i hi, h.content j hj]
    · intro p y h0 hv
      rw [view_some] at hv ⊢
      obtain ⟨k, k1, k2⟩ := hv
      have k1 : a.at_ p = some k := k1
      have k2 : (if k = i then a.content i ++ b else a.content k) = y := k2
      show ∃ j, t.server.at_ p = some j ∧ (if j = i then t.server.content i ++ b else t.server.content j) = y
      by_cases e : k = i
      · subst e
        refine ⟨k, (h.shared k hi p).1 k1, ?_⟩
        rw [if_pos rfl] at k2 ⊢
        rw [← h.content k hi]; exact k2
      · rw [if_neg e] at k2
        obtain ⟨m, m1, m2⟩ := view_some.1 (h.le p y h0 (view_some.2 ⟨k, k1, k2⟩))
        refine ⟨m, m1, ?_⟩
        rw [if_neg]
        · exact m2
        · rintro rfl
          exact e (Option.some.inj (k1.symm.trans ((h.shared m hi p).2 m1)))
  | close i =>
    refine ⟨h.working, h.finishing, ?_, h.next, h.fresh, ?_, ?_, h.le⟩
    · show a.writing.filter (· ≠ i) = t.server.writing.filter (· ≠ i)
      rw [h.writing]
    · intro j hj
      exact h.content j (List.mem_filter.1 hj).1
    · intro j hj
      exact h.shared j (List.mem_filter.1 hj).1
  | link p q => exact h.link p q hm.2.1 hm.2.2
  | rename p q =>
    obtain ⟨_, _, hq, hpq⟩ := hm
    by_cases e : p = q
    · subst e
      rw [rename_same]
      exact h.congr _ (rename_same _ _)
    · have h2 := (h.link p q hq hpq).unlink p
      rw [rename_eq _ _ _ e]
      exact h2.congr _ (rename_eq _ _ _ e)
  | unlink p => exact h.unlink p
  | finishing c =>
    refine ⟨?_, ?_, h.writing, h.next, h.fresh, h.content, h.shared, h.le⟩
    · show (fun x => if x = c then none else a.working x) = fun x => if x = c then none else t.server.working x
      rw [h.working]
    · show (fun x => if x = c then a.working c else a.finishing x) = fun x => if x = c then t.server.working c else t.server.finishing x
      rw [h.working, h.finishing]
  | finish c =>
    refine ⟨h.working, ?_, h.writing, h.next, h.fresh, h.content, h.shared, h.le⟩
    show (fun x => if x = c then none else a.finishing x) = fun x => if x = c then none else t.server.finishing x
    rw [h.finishing]
  | abandon c =>
    refine ⟨?_, h.finishing, h.writing, h.next, h.fresh, h.content, h.shared, h.le⟩
    show (fun x => if x = c then none else a.working x) = fun x => if x = c then none else t.server.working x
    rw [h.working]
  | drop c d =>
    refine h.moved _ _ (fun p => if below c d p then none else a.at_ p)
      (fun p => if below c d p then none else t.server.at_ p) rfl rfl ?_
    intro p
    by_cases e : below c d p
    · right; left; simp only [if_pos e, and_self]
    · left; simp only [if_neg e, and_self]
  | replace c d sub =>
    refine h.moved _ _ (a.replaced c d sub) (t.server.replaced c d sub) rfl rfl ?_
    intro p
    unfold Server.replaced
    rw [h.finishing]
    by_cases e : below c d p
    · rw [if_pos e, if_pos e]
      cases hf : t.server.finishing c with
      | none => exact Or.inr (Or.inl ⟨rfl, rfl⟩)
      | some w =>
        obtain ⟨e1, r, rfl⟩ := below_iff.1 e
        exact Or.inr (Or.inr ⟨(c, w :: sub :: e1 :: r), isTmp_below ext c d w sub e1 r, rfl, rfl⟩)
    · rw [if_neg e, if_neg e]
      split
      · exact Or.inr (Or.inl ⟨rfl, rfl⟩)
      · exact Or.inl ⟨rfl, rfl⟩

/-- A step of `bedup`. -/
theorem Rel.does (h : Rel ext a t) (hb : Base ext t) {u : Sys} (hu : Touch ext t u.server) : Rel ext a u := by
  generalize hs : u.server = s at hu
  have nw : ∀ p, ¬ t.server.inBusy p → ∀ k ∈ t.server.writing, a.at_ p ≠ some k := by
    intro p hp k hk ha
    exact hp (hb.closed p k ((h.shared k hk p).1 ha) hk)
  cases hu with
  | none => exact h.congr _ hs
  | temp p o h1 h2 =>
    refine h.put_one _ o _ hs ?_ ?_
    · intro k hk
      exact ⟨nw _ h1.tmp_not_busy k hk, fun ho => h2 k ho hk⟩
    · intro hn
      exact absurd rfl (h1.ne_tmp _ hn)
  | over p j h1 h2 h3 h4 =>
    have hr : Rel ext a { t with server := t.server.put (tmp ext p) none } := by
      refine h.put_one _ none _ rfl ?_ ?_
      · intro k hk
        exact ⟨nw _ h1.tmp_not_busy k hk, by simp⟩
      · intro hn
        exact absurd rfl (h1.ne_tmp _ hn)
    refine hr.put_one p (some j) _ hs ?_ ?_
    · intro k hk
      refine ⟨nw p h1.not_busy k hk, ?_⟩
      intro hh; cases hh; exact h2 hk
    · intro h0 x hv
      refine ⟨j, rfl, ?_⟩
      have := hb.old p x h0 h1.not_busy (h.le p x h0 hv)
      rw [h4] at this
      exact Option.some.inj this

theorem rel_begin (s : Server) (h : Fine s) : Rel ext s (begin_ s) :=
  ⟨rfl, rfl, rfl, rfl, h.fresh, fun _ _ => rfl, fun _ _ _ => Iff.rfl, fun _ _ _ h => h⟩

theorem base_begin (s : Server) (h : Fine s) : Base ext (begin_ s) := by
  refine ⟨h.known, h.busy, h.fresh, h.writing, h.closed, ?_, ?_, trivial, (fun f hf => by cases hf), trivial⟩
  · intro p x _ hb hv
    obtain ⟨i, hi, _⟩ := view_some.1 hv
    obtain ⟨d, e, r, h1, _⟩ := h.known p (by intro hn; have hi : s.at_ p = some i := hi; rw [hn] at hi; cases hi)
    exact note_new s (fun _ => none) p x rfl ⟨d, e, r, h1⟩ hb hv
  · intro p x hx
    obtain ⟨⟨d, e, r, h1, h2⟩, h3⟩ := note_none s (fun _ => none) p x rfl hx
    obtain ⟨i, hi, _⟩ := view_some.1 h3
    obtain ⟨d', e', r', h4, h5⟩ := h.known p (by intro hn; rw [hn] at hi; cases hi)
    rw [h1] at h4; cases h4
    exact ⟨d, e, r, h1, h5, h2⟩

/-- A whole run. -/
theorem run_rel {u : Sys} {as : List Act} (hr : Run ext Quiet t as u) (hb : Base ext t) (h : Rel ext a t) :
    Base ext u ∧ Rel ext (as.foldl Server.act a) u := by
  induction hr with
  | nil => exact ⟨hb, h⟩
  | does u v as _ hd ih =>
    obtain ⟨h1, h2⟩ := ih
    obtain ⟨h3, h4, _⟩ := h1.does hd
    exact ⟨h3, h2.does h1 h4⟩
  | act u as x _ hm hq ih =>
    obtain ⟨h1, h2⟩ := ih
    refine ⟨h1.acted hm hq, ?_⟩
    rw [List.foldl_append]
    exact h2.acted h1 x hm

/-- What there has been stays known. -/
theorem run_old {u : Sys} {as : List Act} (hr : Run ext Quiet t as u) (hb : Base ext t) (p : Path) (x : Str)
    (h : t.old p = some x) : u.old p = some x ∧ Base ext u := by
  induction hr with
  | nil => exact ⟨h, hb⟩
  | does u v as _ hd ih =>
    obtain ⟨h1, h2⟩ := ih
    obtain ⟨h3, _, h4⟩ := h2.does hd
    exact ⟨by rw [h4]; exact h1, h3⟩
  | act u as y _ hm hq ih =>
    obtain ⟨h1, h2⟩ := ih
    exact ⟨note_some _ _ _ _ h1, h2.acted hm hq⟩

/-! ### As long as the server takes no finished backup away -/

/-- What there has been is still there. -/
def Stays (ext : Str) (t : Sys) : Prop := ∀ p x, ¬ isTmp ext p → t.old p = some x → t.server.view p = some x

theorem act_at_eq {old : Path → Option Str} (s : Server) (x : Act) (hm : s.may ext old x) (hk : x.keeps) (p : Path)
    (hp : ¬ s.inBusy p) : (s.act x).at_ p = s.at_ p := by
  cases x with
  | create q =>
    show (s.put q (some s.next)).at_ p = _
    rw [put_ne]
    rintro rfl; exact hp hm.1
  | link q q' =>
    simp only [Server.act]
    split
    · rfl
    · rw [put_ne]
      rintro rfl; exact hp hm.1
  | rename q q' =>
    simp only [Server.act]
    split
    · rfl
    · rw [put_ne, put_ne]
      · rintro rfl; exact hp hm.1
      · rintro rfl; exact hp hm.2.1
  | unlink q =>
    show (s.put q none).at_ p = _
    rw [put_ne]
    rintro rfl; exact hp hm
  | drop c d => exact absurd hk id
  | replace c d sub => exact absurd hk id
  | _ => rfl

theorem Stays.acted (h : Stays ext t) (hb : Base ext t) (x : Act) (hm : t.server.may ext t.old x) (hk : x.keeps) :
    Stays ext (t.acted x) := by
  intro p y h0 ho
  cases hp : t.old p with
  | none => exact (note_none _ _ _ _ hp ho).2
  | some z =>
    have ho : note (t.server.act x) t.old p = some y := ho
    rw [note_some _ _ _ _ hp] at ho
    cases ho
    obtain ⟨d, e, r, h1, _, h3⟩ := hb.done p _ hp
    have hnb : ¬ t.server.inBusy p := by
      rintro ⟨d', e', r', h4, h5⟩
      rw [h1] at h4; cases h4; exact h3 h5
    obtain ⟨i, hi, hx⟩ := view_some.1 (h p _ h0 hp)
    rw [view_some]
    refine ⟨i, ?_, ?_⟩
    · show (t.server.act x).at_ p = some i
      rw [act_at_eq _ _ hm hk p hnb]; exact hi
    · show (t.server.act x).content i = _
      rw [act_content _ _ hm i (fun hw => hnb (hb.closed p i hi hw)) (hb.fresh p i hi)]
      exact hx

theorem Stays.does (h : Stays ext t) {u : Sys} (hu : Touch ext t u.server) (ho : u.old = t.old) : Stays ext u := by
  generalize hs : u.server = s at hu
  intro p x h0 hx
  rw [ho] at hx
  have hv := h p x h0 hx
  rw [hs]
  obtain ⟨i, hi, hc⟩ := view_some.1 hv
  rw [view_some]
  cases hu with
  | none => exact ⟨i, hi, hc⟩
  | temp q o h1 h2 => exact ⟨i, by rw [put_ne _ _ (h1.ne_tmp p h0)]; exact hi, hc⟩
  | over q j h1 h2 h3 h4 =>
    by_cases e : p = q
    · subst e
      refine ⟨j, put_self _ _ _, ?_⟩
      rw [hx] at h4
      exact (Option.some.inj h4).symm
    · exact ⟨i, by rw [put_ne _ _ e, put_ne _ _ (h1.ne_tmp p h0)]; exact hi, hc⟩

theorem Same.does (h : Same ext a t) (hst : Stays ext t) {u : Sys} (hu : Touch ext t u.server) : Same ext a u := by
  generalize hs : u.server = s at hu
  intro p x h0 hv
  rw [hs] at hv
  obtain ⟨i, hi, hc⟩ := view_some.1 hv
  cases hu with
  | none => exact h p x h0 (view_some.2 ⟨i, hi, hc⟩)
  | temp q o h1 h2 =>
    rw [put_ne _ _ (h1.ne_tmp p h0)] at hi
    exact h p x h0 (view_some.2 ⟨i, hi, hc⟩)
  | over q j h1 h2 h3 h4 =>
    by_cases e : p = q
    · subst e
      rw [put_self] at hi
      have hc : t.server.content i = x := hc
      rw [← Option.some.inj hi] at hc
      rw [hc] at h4
      exact h p x h0 (hst p x h0 h4)
    · rw [put_ne _ _ e, put_ne _ _ (h1.ne_tmp p h0)] at hi
      exact h p x h0 (view_some.2 ⟨i, hi, hc⟩)

theorem Same.link (h : Same ext a t) (p q : Path) (hq : t.server.at_ q = none) (hpq : isTmp ext p → isTmp ext q) :
    Same ext (a.act (.link p q)) (t.acted (.link p q)) := by
  intro r x h0 hv
  have ea : a.act (.link p q) = match a.at_ p with
    | none => a
    | some i => a.put q (some i) := rfl
  have et : (t.acted (.link p q)).server = match t.server.at_ p with
    | none => t.server
    | some i => t.server.put q (some i) := rfl
  rw [et] at hv
  rw [ea]
  by_cases e : r = q
  · subst e
    have hp : ¬ isTmp ext p := fun hp => h0 (hpq hp)
    cases hj : t.server.at_ p with
    | none =>
      rw [hj] at hv
      simp only [] at hv
      obtain ⟨k, k1, k2⟩ := view_some.1 hv
      rw [hq] at k1; cases k1
    | some j =>
      rw [hj] at hv
      simp only [] at hv
      obtain ⟨k, k1, k2⟩ := view_some.1 hv
      rw [put_self] at k1
      cases k1
      obtain ⟨i, i1, i2⟩ := view_some.1 (h p x hp (view_some.2 ⟨j, hj, k2⟩))
      rw [i1]
      exact view_some.2 ⟨i, put_self _ _ _, i2⟩
  · have hv : t.server.view r = some x := by
      obtain ⟨k, k1, k2⟩ := view_some.1 hv
      cases hj : t.server.at_ p with
      | none => rw [hj] at k1 k2; exact view_some.2 ⟨k, k1, k2⟩
      | some j => rw [hj] at k1 k2; rw [put_ne _ _ e] at k1; exact view_some.2 ⟨k, k1, k2⟩
    obtain ⟨k, k1, k2⟩ := view_some.1 (h r x h0 hv)
    cases hi : a.at_ p with
    | none => exact view_some.2 ⟨k, k1, k2⟩
    | some i => exact view_some.2 ⟨k, by rw [put_ne _ _ e]; exact k1, k2⟩

theorem Same.unlink (h : Same ext a t) (p : Path) : Same ext (a.act (.unlink p)) (t.acted (.unlink p)) := by
  intro r x h0 hv
  obtain ⟨k, k1, k2⟩ := view_some.1 hv
  have k1 : (t.server.put p none).at_ r = some k := k1
  by_cases e : r = p
  · subst e
    rw [put_self] at k1; cases k1
  · rw [put_ne _ _ e] at k1
    obtain ⟨i, i1, i2⟩ := view_some.1 (h r x h0 (view_some.2 ⟨k, k1, k2⟩))
    exact view_some.2 ⟨i, by show (a.put p none).at_ r = some i; rw [put_ne _ _ e]; exact i1, i2⟩

theorem Same.congr (h : Same ext a t) (t' : Sys) (ht : t'.server = t.server) : Same ext a t' := by
  intro p x h0 hv
  rw [ht] at hv
  exact h p x h0 hv

theorem Same.acted (h : Same ext a t) (hr : Rel ext a t) (hb : Base ext t) (x : Act)
    (hm : t.server.may ext t.old x) (hk : x.keeps) : Same ext (a.act x) (t.acted x) := by
  cases x with
  | create p =>
    intro q y h0 hv
    rw [view_some] at hv ⊢
    obtain ⟨k, k1, k2⟩ := hv
    have k1 : (if q = p then some t.server.next else t.server.at_ q) = some k := k1
    have k2 : (if k = t.server.next then [] else t.server.content k) = y := k2
    show ∃ i, (if q = p then some a.next else a.at_ q) = some i ∧ (if i = a.next then [] else a.content i) = y
    by_cases e : q = p
    · rw [if_pos e] at k1 ⊢
      cases k1
      exact ⟨a.next, rfl, by rw [if_pos rfl] at k2 ⊢; exact k2⟩
    · rw [if_neg e] at k1 ⊢
      rw [if_neg (Nat.ne_of_lt (hb.fresh q k k1))] at k2
      obtain ⟨m, m1, m2⟩ := view_some.1 (h q y h0 (view_some.2 ⟨k, k1, k2⟩))
      exact ⟨m, m1, by rw [if_neg (Nat.ne_of_lt (hr.fresh q m m1))]; exact m2⟩
  | write i b =>
    have hi : i ∈ t.server.writing := hm
    intro p y h0 hv
    rw [view_some] at hv ⊢
    obtain ⟨k, k1, k2⟩ := hv
    have k1 : t.server.at_ p = some k := k1
    have k2 : (if k = i then t.server.content i ++ b else t.server.content k) = y := k2
    show ∃ j, a.at_ p = some j ∧ (if j = i then a.content i ++ b else a.content j) = y
    by_cases e : k = i
    · subst e
      refine ⟨k, (hr.shared k hi p).2 k1, ?_⟩
      rw [if_pos rfl] at k2 ⊢
      rw [hr.content k hi]; exact k2
    · rw [if_neg e] at k2
      obtain ⟨m, m1, m2⟩ := view_some.1 (h p y h0 (view_some.2 ⟨k, k1, k2⟩))
      refine ⟨m, m1, ?_⟩
      rw [if_neg]
      · exact m2
      · rintro rfl
        exact e (Option.some.inj (k1.symm.trans ((hr.shared m hi p).1 m1)))
  | link p q => exact h.link p q hm.2.1 hm.2.2
  | rename p q =>
    obtain ⟨_, _, hq, hpq⟩ := hm
    by_cases e : p = q
    · subst e
      rw [rename_same]
      exact h.congr _ (rename_same _ _)
    · have h2 := (h.link p q hq hpq).unlink p
      rw [rename_eq _ _ _ e]
      exact h2.congr _ (rename_eq _ _ _ e)
  | unlink p => exact h.unlink p
  | drop c d => exact absurd hk id
  | replace c d sub => exact absurd hk id
  | _ => exact h

theorem run_same {u : Sys} {as : List Act} (hr : Run ext Quiet t as u) (hb : Base ext t) (h : Rel ext a t)
    (hs : Same ext a t) (hst : Stays ext t) (hk : ∀ x ∈ as, x.keeps) :
    Same ext (as.foldl Server.act a) u ∧ Stays ext u := by
  induction hr with
  | nil => exact ⟨hs, hst⟩
  | does u v as hru hd ih =>
    obtain ⟨h1, _⟩ := run_rel hru hb h
    obtain ⟨h3, h4⟩ := ih hk
    obtain ⟨_, h5, h6⟩ := h1.does hd
    exact ⟨h3.does h4 h5, h4.does h5 h6⟩
  | act u as x hru hm hq ih =>
    obtain ⟨h1, h2⟩ := run_rel hru hb h
    obtain ⟨h3, h4⟩ := ih (fun y hy => hk y (by simp [hy]))
    have hx : x.keeps := hk x (by simp)
    rw [List.foldl_append]
    exact ⟨h3.acted h2 h1 x hm hx, h4.acted h1 x hm hx⟩

end

end Verif.BedupConc
