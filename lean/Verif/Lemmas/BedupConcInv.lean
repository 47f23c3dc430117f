import Verif.Lemmas.BedupConc

/-! # What holds while `bedup` and the server are at work -/

namespace Verif.BedupConc
open Verif

/-- A path below the directory of a finished backup. -/
def Done (ext : Str) (s : Server) (p : Path) : Prop :=
  ¬ isTmp ext p ∧ ∃ d e r, p.2 = d :: e :: r ∧ d ∈ s.used p.1 ∧ ¬ s.busy p.1 d

/-- An inode with what the path stands for, which will not change any more. -/
def Held (t : Sys) (p : Path) (i : Nat) : Prop :=
  i < t.server.next ∧ i ∉ t.server.writing ∧ t.old p = some (t.server.content i)

/-- What `bedup` knows of the links of the client it is at. -/
def Links (t : Sys) : Where → Prop
  | .halfway c => ∀ d, t.server.working c = some d → t.prog.working = d
  | .inside c => (∀ d, t.server.working c = some d → t.prog.working = d) ∧
      ∀ d, t.server.finishing c = some d → t.prog.working = d ∨ t.prog.finishing = d
  | _ => True

/-- What `bedup` knows of the files it is at. -/
def Files (ext : Str) (t : Sys) : Phase → Prop
  | .looked p o => Done ext t.server p ∧ ∀ i, o = some i → Held t p i
  | .comparing p f ni oi pos got => Done ext t.server p ∧ Done ext t.server f ∧ Held t p ni ∧ Held t f oi ∧
      (t.server.content ni).take pos = (t.server.content oi).take pos ∧ ∀ g, got = some g → g = chunk t.server ni pos
  | .matched p f => Done ext t.server p ∧ Done ext t.server f ∧ ∃ x, t.old p = some x ∧ t.old f = some x
  | .linked p => Done ext t.server p ∧ ∃ x, t.old p = some x ∧
      ∀ j, t.server.at_ (tmp ext p) = some j → t.server.content j = x ∧ j ∉ t.server.writing
  | _ => True

/-- Of the server and `bedup`. -/
structure Base (ext : Str) (t : Sys) : Prop where
  known : ∀ p, t.server.at_ p ≠ none → ∃ d e r, p.2 = d :: e :: r ∧ d ∈ t.server.used p.1
  busy : ∀ c d, t.server.busy c d → d ∈ t.server.used c
  fresh : ∀ p i, t.server.at_ p = some i → i < t.server.next
  writing : ∀ i ∈ t.server.writing, i < t.server.next
  closed : ∀ p i, t.server.at_ p = some i → i ∈ t.server.writing → t.server.inBusy p
  old : ∀ p x, ¬ isTmp ext p → ¬ t.server.inBusy p → t.server.view p = some x → t.old p = some x
  done : ∀ p x, t.old p = some x → ∃ d e r, p.2 = d :: e :: r ∧ d ∈ t.server.used p.1 ∧ ¬ t.server.busy p.1 d
  links : Links t t.prog.place
  mem : ∀ f ∈ t.prog.mem, Done ext t.server f
  files : Files ext t t.prog.phase

theorem Done.not_busy {ext : Str} {s : Server} {p : Path} (h : Done ext s p) : ¬ s.inBusy p := by
  obtain ⟨_, d, e, r, h1, _, h2⟩ := h
  rintro ⟨d', e', r', h3, h4⟩
  rw [h1] at h3
  cases h3
  exact h2 h4

theorem Done.tmp_not_busy {ext : Str} {s : Server} {p : Path} (h : Done ext s p) : ¬ s.inBusy (tmp ext p) := by
  obtain ⟨_, d, e, r, h1, _, h2⟩ := h
  obtain ⟨e1, r1, h3⟩ := tmp_below ext p d e r h1
  rintro ⟨d', e', r', h4, h5⟩
  rw [h3] at h4
  cases h4
  exact h2 h5

theorem Done.ne_tmp {ext : Str} {s : Server} {p : Path} (h : Done ext s p) (q : Path) (hq : ¬ isTmp ext q) :
    q ≠ tmp ext p := by
  rintro rfl
  obtain ⟨_, d, e, r, h1, _⟩ := h
  exact hq (isTmp_tmp ext p (by rw [h1]; simp))

/-! ### Acts of the server -/

section
variable {ext : Str} {t : Sys} {a : Act}

/-- What comes of an act. -/
def Sys.acted (t : Sys) (a : Act) : Sys :=
  { t with server := t.server.act a, old := note (t.server.act a) t.old }

theorem Done.acted {p : Path} (h : Done ext t.server p) (hm : t.server.may ext t.old a) :
    Done ext (t.acted a).server p := by
  obtain ⟨h0, d, e, r, h1, h2, h3⟩ := h
  exact ⟨h0, d, e, r, h1, act_used _ _ _ _ h2, act_not_busy _ _ hm _ _ h2 h3⟩

theorem Held.acted {p : Path} {i : Nat} (h : Held t p i) (hm : t.server.may ext t.old a) :
    Held (t.acted a) p i ∧ (t.acted a).server.content i = t.server.content i := by
  obtain ⟨h1, h2, h3⟩ := h
  have hc : (t.acted a).server.content i = t.server.content i := act_content _ _ hm i h2 h1
  refine ⟨⟨Nat.lt_of_lt_of_le h1 (act_next _ _), ?_, ?_⟩, hc⟩
  · intro h
    rcases act_writing _ _ _ h with h | h
    · exact h2 h
    · omega
  · rw [hc]; exact note_some _ _ _ _ h3

theorem busy_of_finishing {c d : Str} (e : Str) (r : List Str) (h : t.server.finishing c = some d) :
    t.server.inBusy (c, d :: e :: r) := ⟨d, e, r, rfl, Or.inr h⟩

theorem Base.acted_known (h : Base ext t) (hm : t.server.may ext t.old a) (p : Path)
    (hp : (t.server.act a).at_ p ≠ none) : ∃ d e r, p.2 = d :: e :: r ∧ d ∈ (t.server.act a).used p.1 := by
  by_cases hb : t.server.inBusy p
  · obtain ⟨d, e, r, h1, h2⟩ := hb
    exact ⟨d, e, r, h1, act_used _ _ _ _ (h.busy _ _ h2)⟩
  · cases hi : (t.server.act a).at_ p with
    | none => exact absurd hi hp
    | some i =>
      rcases act_at _ _ hm p hb i hi with h1 | ⟨c, d, sub, w, e, r, rfl, rfl, _, _⟩
      · obtain ⟨d, e, r, h2, h3⟩ := h.known p (by rw [h1]; simp)
        exact ⟨d, e, r, h2, act_used _ _ _ _ h3⟩
      · exact ⟨d, e, r, rfl, hm.2.1⟩

theorem Base.acted_busy (h : Base ext t) (c d : Str) (hb : (t.server.act a).busy c d) :
    d ∈ (t.server.act a).used c := by
  rcases act_busy _ _ _ _ hb with h1 | rfl
  · exact act_used _ _ _ _ (h.busy _ _ h1)
  · show d ∈ (if c = c then d :: t.server.used c else t.server.used c)
    rw [if_pos rfl]; simp

theorem acted_at (p : Path) (i : Nat)
    (hp : (t.server.act a).at_ p = some i) :
    (∃ q, t.server.at_ q = some i) ∨ (a = .create p ∧ i = t.server.next) := by
  cases a with
  | create q =>
    have hp : (if p = q then some t.server.next else t.server.at_ p) = some i := hp
    split at hp
    · rename_i hq
      cases hp
      exact Or.inr ⟨by rw [hq], rfl⟩
    · exact Or.inl ⟨p, hp⟩
  | link q q' =>
    simp only [Server.act] at hp
    split at hp
    · exact Or.inl ⟨p, hp⟩
    · rename_i j hj
      rw [put_at] at hp
      split at hp
      · cases hp; exact Or.inl ⟨q, hj⟩
      · exact Or.inl ⟨p, hp⟩
  | rename q q' =>
    simp only [Server.act] at hp
    split at hp
    · exact Or.inl ⟨p, hp⟩
    · rename_i j hj
      rw [put_at, put_at] at hp
      split at hp
      · cases hp; exact Or.inl ⟨q, hj⟩
      · split at hp
        · cases hp
        · exact Or.inl ⟨p, hp⟩
  | unlink q =>
    have hp : (if p = q then none else t.server.at_ p) = some i := hp
    split at hp
    · cases hp
    · exact Or.inl ⟨p, hp⟩
  | drop c d =>
    have hp : (if below c d p then none else t.server.at_ p) = some i := hp
    split at hp
    · cases hp
    · exact Or.inl ⟨p, hp⟩
  | replace c d sub =>
    have hp : t.server.replaced c d sub p = some i := hp
    unfold Server.replaced at hp
    split at hp
    · cases hf : t.server.finishing c with
      | none => rw [hf] at hp; cases hp
      | some w => rw [hf] at hp; exact Or.inl ⟨_, hp⟩
    · split at hp
      · cases hp
      · exact Or.inl ⟨p, hp⟩
  | _ => exact Or.inl ⟨p, hp⟩

theorem Base.acted_fresh (h : Base ext t) (p : Path) (i : Nat) (hp : (t.server.act a).at_ p = some i) :
    i < (t.server.act a).next := by
  rcases acted_at p i hp with ⟨q, hq⟩ | ⟨rfl, rfl⟩
  · exact Nat.lt_of_lt_of_le (h.fresh q i hq) (act_next _ _)
  · exact Nat.lt_succ_self _

theorem Base.acted_writing (h : Base ext t) (i : Nat) (hi : i ∈ (t.server.act a).writing) :
    i < (t.server.act a).next := by
  by_cases hc : ∃ p, a = .create p
  · obtain ⟨p, rfl⟩ := hc
    have hi : i ∈ t.server.next :: t.server.writing := hi
    show i < t.server.next + 1
    rcases List.mem_cons.1 hi with rfl | hi
    · exact Nat.lt_succ_self _
    · exact Nat.lt_succ_of_lt (h.writing i hi)
  · have : i ∈ t.server.writing := by
      cases a with
      | create p => exact absurd ⟨p, rfl⟩ hc
      | close j =>
        have hi : i ∈ t.server.writing.filter (· ≠ j) := hi
        exact (List.mem_filter.1 hi).1
      | link p q => simp only [Server.act] at hi; split at hi <;> exact hi
      | rename p q => simp only [Server.act] at hi; split at hi <;> exact hi
      | _ => exact hi
    exact Nat.lt_of_lt_of_le (h.writing i this) (act_next _ _)

/-- A path below the directory of a backup that is being made, which is so no longer. -/
theorem still_busy (hm : t.server.may ext t.old a) (p : Path) (i : Nat) (hp : (t.server.act a).at_ p = some i)
    (hb : t.server.inBusy p) (hi : i ∈ (t.server.act a).writing) : (t.server.act a).inBusy p := by
  obtain ⟨d, e, r, h1, h2⟩ := hb
  obtain ⟨c, n⟩ := p
  cases h1
  refine ⟨d, e, r, rfl, ?_⟩
  unfold Server.busy at *
  simp only [] at h2 ⊢
  cases a with
  | start c' d' =>
    rcases h2 with h2 | h2
    · left
      show (if c = c' then some d' else t.server.working c) = some d
      rw [if_neg]
      · exact h2
      · rintro rfl
        rw [hm.1] at h2; cases h2
    · exact Or.inr h2
  | finishing c' =>
    by_cases hc : c = c'
    · subst hc
      rcases h2 with h2 | h2
      · right
        show (if c = c then t.server.working c else t.server.finishing c) = some d
        rw [if_pos rfl]; exact h2
      · have hm : t.server.finishing c = none := hm
        rw [hm] at h2; cases h2
    · rcases h2 with h2 | h2
      · left
        show (if c = c' then none else t.server.working c) = some d
        rw [if_neg hc]; exact h2
      · right
        show (if c = c' then t.server.working c' else t.server.finishing c) = some d
        rw [if_neg hc]; exact h2
  | finish c' =>
    by_cases hc : c = c'
    · subst hc
      rcases h2 with h2 | h2
      · exact Or.inl h2
      · exact absurd hi (hm d (e :: r) i h2 hp)
    · rcases h2 with h2 | h2
      · exact Or.inl h2
      · right
        show (if c = c' then none else t.server.finishing c) = some d
        rw [if_neg hc]; exact h2
  | abandon c' =>
    by_cases hc : c = c'
    · subst hc
      rcases h2 with h2 | h2
      · have hp : t.server.at_ (c, d :: e :: r) = some i := hp
        rw [hm d (e :: r) h2] at hp; cases hp
      · exact Or.inr h2
    · rcases h2 with h2 | h2
      · left
        show (if c = c' then none else t.server.working c) = some d
        rw [if_neg hc]; exact h2
      · exact Or.inr h2
  | link p q => simp only [Server.act]; split <;> exact h2
  | rename p q => simp only [Server.act]; split <;> exact h2
  | _ => exact h2

theorem Base.acted_closed (h : Base ext t) (hm : t.server.may ext t.old a) (p : Path) (i : Nat)
    (hp : (t.server.act a).at_ p = some i) (hi : i ∈ (t.server.act a).writing) : (t.server.act a).inBusy p := by
  by_cases hb : t.server.inBusy p
  · exact still_busy hm p i hp hb hi
  · exfalso
    rcases act_at _ _ hm p hb i hp with h1 | ⟨c, d, sub, w, e, r, rfl, rfl, h2, h3⟩
    · rcases act_writing _ _ _ hi with h2 | h2
      · exact hb (h.closed p i h1 h2)
      · have := h.fresh p i h1; omega
    · exact (hm.2.2.2 w (e :: r) i h2 h3).1 hi

theorem Base.acted_old (h : Base ext t) (hm : t.server.may ext t.old a) (p : Path) (x : Str) (h0 : ¬ isTmp ext p)
    (hb : ¬ (t.server.act a).inBusy p) (hv : (t.server.act a).view p = some x) :
    note (t.server.act a) t.old p = some x := by
  obtain ⟨i, hi, hx⟩ := view_some.1 hv
  cases ho : t.old p with
  | none =>
    obtain ⟨d, e, r, h1, _⟩ := h.acted_known hm p (by rw [hi]; simp)
    exact note_new _ _ p x ho ⟨d, e, r, h1⟩ hb hv
  | some y =>
    rw [note_some _ _ _ _ ho]
    obtain ⟨d, e, r, h1, h2, h3⟩ := h.done p y ho
    have hnb : ¬ t.server.inBusy p := by
      rintro ⟨d', e', r', h4, h5⟩
      rw [h1] at h4; cases h4; exact h3 h5
    rcases act_at _ _ hm p hnb i hi with h4 | ⟨c, d', sub, w, e', r', rfl, rfl, h4, h5⟩
    · have hw : i ∉ t.server.writing := fun hw => hnb (h.closed p i h4 hw)
      have hc := act_content _ _ hm i hw (h.fresh p i h4)
      have := h.old p x h0 hnb (view_some.2 ⟨i, h4, by rw [← hc]; exact hx⟩)
      rw [← this, ho]
    · have := (hm.2.2.2 w (e' :: r') i h4 h5).2.2 y ho
      have hx : t.server.content i = x := hx
      rw [← hx, this]

theorem Base.acted_done (h : Base ext t) (hm : t.server.may ext t.old a) (p : Path) (x : Str)
    (hx : note (t.server.act a) t.old p = some x) :
    ∃ d e r, p.2 = d :: e :: r ∧ d ∈ (t.server.act a).used p.1 ∧ ¬ (t.server.act a).busy p.1 d := by
  cases ho : t.old p with
  | none =>
    obtain ⟨⟨d, e, r, h1, h2⟩, h3⟩ := note_none _ _ _ _ ho hx
    obtain ⟨i, hi, _⟩ := view_some.1 h3
    obtain ⟨d', e', r', h4, h5⟩ := h.acted_known hm p (by rw [hi]; simp)
    rw [h1] at h4; cases h4
    exact ⟨d, e, r, h1, h5, h2⟩
  | some y =>
    obtain ⟨d, e, r, h1, h2, h3⟩ := h.done p y ho
    exact ⟨d, e, r, h1, act_used _ _ _ _ h2, act_not_busy _ _ hm _ _ h2 h3⟩

theorem acted_links (h : Base ext t) (hq : Quiet t a) : Links (t.acted a) t.prog.place := by
  have hl := h.links
  cases hp : t.prog.place with
  | outside => trivial
  | entering c => trivial
  | halfway c =>
    rw [hp] at hl
    intro d hd
    have hd : (t.server.act a).working c = some d := hd
    show t.prog.working = d
    apply hl
    cases a with
    | start c' d' =>
      have hd : (if c = c' then some d' else t.server.working c) = some d := hd
      split at hd
      · rename_i hc
        exact absurd (by rw [hp, hc]) hq.1
      · exact hd
    | finishing c' =>
      have hd : (if c = c' then none else t.server.working c) = some d := hd
      split at hd
      · cases hd
      · exact hd
    | abandon c' =>
      have hd : (if c = c' then none else t.server.working c) = some d := hd
      split at hd
      · cases hd
      · exact hd
    | link p q => simp only [Server.act] at hd; split at hd <;> exact hd
    | rename p q => simp only [Server.act] at hd; split at hd <;> exact hd
    | _ => exact hd
  | inside c =>
    rw [hp] at hl
    have hb : ∀ d, (t.server.act a).busy c d → t.server.busy c d := by
      intro d hd
      rcases act_busy _ _ _ _ hd with h1 | rfl
      · exact h1
      · exact absurd hp hq.2
    refine ⟨?_, ?_⟩
    · intro d hd
      have hd : (t.server.act a).working c = some d := hd
      show t.prog.working = d
      apply hl.1
      cases a with
      | start c' d' =>
        have hd : (if c = c' then some d' else t.server.working c) = some d := hd
        split at hd
        · rename_i hc
          exact absurd (by rw [hp, hc]) hq.2
        · exact hd
      | finishing c' =>
        have hd : (if c = c' then none else t.server.working c) = some d := hd
        split at hd
        · cases hd
        · exact hd
      | abandon c' =>
        have hd : (if c = c' then none else t.server.working c) = some d := hd
        split at hd
        · cases hd
        · exact hd
      | link p q => simp only [Server.act] at hd; split at hd <;> exact hd
      | rename p q => simp only [Server.act] at hd; split at hd <;> exact hd
      | _ => exact hd
    · intro d hd
      show t.prog.working = d ∨ t.prog.finishing = d
      rcases hb d (Or.inr hd) with h1 | h1
      · exact Or.inl (hl.1 d h1)
      · exact hl.2 d h1

theorem Base.acted_files (h : Base ext t) (hm : t.server.may ext t.old a) : Files ext (t.acted a) t.prog.phase := by
  have hf := h.files
  cases hp : t.prog.phase with
  | idle => trivial
  | stopped => trivial
  | looked p o =>
    rw [hp] at hf
    exact ⟨hf.1.acted hm, fun i hi => ((hf.2 i hi).acted hm).1⟩
  | comparing p f ni oi pos got =>
    rw [hp] at hf
    obtain ⟨h1, h2, h3, h4, h5, h6⟩ := hf
    refine ⟨h1.acted hm, h2.acted hm, (h3.acted hm).1, (h4.acted hm).1, ?_, ?_⟩
    · rw [(h3.acted hm).2, (h4.acted hm).2]; exact h5
    · intro g hg
      unfold chunk
      rw [(h3.acted hm).2]
      exact h6 g hg
  | matched p f =>
    rw [hp] at hf
    obtain ⟨h1, h2, x, h3, h4⟩ := hf
    exact ⟨h1.acted hm, h2.acted hm, x, note_some _ _ _ _ h3, note_some _ _ _ _ h4⟩
  | linked p =>
    rw [hp] at hf
    obtain ⟨h1, x, h3, h4⟩ := hf
    refine ⟨h1.acted hm, x, note_some _ _ _ _ h3, ?_⟩
    intro j hj
    rcases act_at _ _ hm _ h1.tmp_not_busy j hj with h5 | ⟨c, d, sub, w, e, r, rfl, h6, h7, h8⟩
    · obtain ⟨h6, h7⟩ := h4 j h5
      refine ⟨?_, ?_⟩
      · show (t.server.act a).content j = x
        rw [act_content _ _ hm j h7 (h.fresh _ _ h5)]; exact h6
      · intro hw
        rcases act_writing _ _ _ hw with hw | hw
        · exact h7 hw
        · have := h.fresh _ _ h5; omega
    · exfalso
      obtain ⟨_, d', e', r', h9, _⟩ := h1
      exact (hm.2.2.2 w (e :: r) j h7 h8).2.1 (by rw [← h6]; exact isTmp_tmp ext p (by rw [h9]; simp))

theorem Base.acted (h : Base ext t) (hm : t.server.may ext t.old a) (hq : Quiet t a) : Base ext (t.acted a) where
  known := h.acted_known hm
  busy := h.acted_busy
  fresh := h.acted_fresh
  writing := h.acted_writing
  closed := h.acted_closed hm
  old := h.acted_old hm
  done := h.acted_done hm
  links := acted_links h hq
  mem := fun f hf => (h.mem f hf).acted hm
  files := h.acted_files hm

end

/-! ### Steps of `bedup` -/

/-- Only `bedup` has changed. -/
theorem Base.prog {ext : Str} {t : Sys} (h : Base ext t) (b : Prog) (h1 : Links { t with prog := b } b.place)
    (h2 : ∀ f ∈ b.mem, Done ext t.server f) (h3 : Files ext { t with prog := b } b.phase) :
    Base ext { t with prog := b } :=
  ⟨h.known, h.busy, h.fresh, h.writing, h.closed, h.old, h.done, h1, h2, h3⟩

theorem Done.held {ext : Str} {t : Sys} (h : Base ext t) {p : Path} (hp : Done ext t.server p) {i : Nat}
    (hi : t.server.at_ p = some i) : Held t p i :=
  ⟨h.fresh p i hi, fun hw => hp.not_busy (h.closed p i hi hw),
    h.old p _ hp.1 hp.not_busy (view_some.2 ⟨i, hi, rfl⟩)⟩

theorem excluded_false {b : Prog} {n : List Str} (h : excluded b n = false) :
    ∃ d e r, n = d :: e :: r ∧ d ≠ b.working ∧ d ≠ b.finishing := by
  cases n with
  | nil => cases h
  | cons d n =>
    cases n with
    | nil => cases h
    | cons e r =>
      refine ⟨d, e, r, rfl, ?_⟩
      unfold excluded at h
      rw [Bool.or_eq_false_iff] at h
      have h := h.1
      unfold Bedup.levelExclusion at h
      rw [if_pos rfl] at h
      split at h
      · cases h
      · split at h
        · cases h
        · rename_i hn
          exact ⟨fun hd => hn (Or.inl hd), fun hd => hn (Or.inr hd)⟩

/-- The file system has changed at one path that is not below a backup that is being made. -/
theorem Base.put {ext : Str} {t : Sys} (h : Base ext t) (q : Path) (o : Option Nat) (b : Prog)
    (hk : ∃ d e r, q.2 = d :: e :: r ∧ d ∈ t.server.used q.1)
    (ho : ∀ j, o = some j → j < t.server.next ∧ j ∉ t.server.writing)
    (hx : ¬ isTmp ext q → ∀ j, o = some j → t.old q = some (t.server.content j))
    (hpl : b.place = t.prog.place) (hw : b.working = t.prog.working) (hf : b.finishing = t.prog.finishing)
    (hme : b.mem = t.prog.mem) (h3 : Files ext { t with server := t.server.put q o, prog := b } b.phase) :
    Base ext { t with server := t.server.put q o, prog := b } := by
  refine ⟨?_, h.busy, ?_, h.writing, ?_, ?_, h.done, ?_, ?_, h3⟩
  · intro p hp
    by_cases e : p = q
    · rw [e]; exact hk
    · exact h.known p (by have hp : (t.server.put q o).at_ p ≠ none := hp; rwa [put_ne _ _ e] at hp)
  · intro p i hp
    have hp : (t.server.put q o).at_ p = some i := hp
    rw [put_at] at hp
    split at hp
    · exact (ho i hp).1
    · exact h.fresh p i hp
  · intro p i hp hi
    have hp : (t.server.put q o).at_ p = some i := hp
    rw [put_at] at hp
    split at hp
    · exact absurd hi (ho i hp).2
    · exact h.closed p i hp hi
  · intro p x h0 hb hv
    obtain ⟨i, hi, hc⟩ := view_some.1 hv
    have hi : (t.server.put q o).at_ p = some i := hi
    have hc : t.server.content i = x := hc
    rw [put_at] at hi
    split at hi
    · rename_i e
      rw [← hc, e]
      exact hx (e ▸ h0) i hi
    · exact h.old p x h0 hb (view_some.2 ⟨i, hi, hc⟩)
  · have hl := h.links
    rw [hpl]
    unfold Links at *
    cases hp : t.prog.place with
    | outside => trivial
    | entering c => trivial
    | halfway c => rw [hp] at hl; simp only [hw]; exact hl
    | inside c => rw [hp] at hl; simp only [hw, hf]; exact hl
  · intro f hf
    rw [hme] at hf
    exact h.mem f hf

theorem links_same {t : Sys} (b : Prog) (h : Links t t.prog.place) (hpl : b.place = t.prog.place)
    (hw : b.working = t.prog.working) (hf : b.finishing = t.prog.finishing) : Links { t with prog := b } b.place := by
  rw [hpl]
  unfold Links at *
  cases hp : t.prog.place with
  | outside => trivial
  | entering c => trivial
  | halfway c => rw [hp] at h; simp only [hw]; exact h
  | inside c => rw [hp] at h; simp only [hw, hf]; exact h

/-- How the paths that a step of `bedup` changes are chosen. -/
inductive Touch (ext : Str) (t : Sys) : Server → Prop where
  | none : Touch ext t t.server
  | temp (p : Path) (o : Option Nat) : Done ext t.server p → (∀ j, o = some j → j ∉ t.server.writing) →
      Touch ext t (t.server.put (tmp ext p) o)
  | over (p : Path) (j : Nat) : Done ext t.server p → j ∉ t.server.writing →
      t.server.at_ (tmp ext p) = some j → t.old p = some (t.server.content j) →
      Touch ext t ((t.server.put (tmp ext p) none).put p (some j))

theorem Base.does {ext : Str} {t u : Sys} (h : Base ext t) (hd : Does ext t u) :
    Base ext u ∧ Touch ext t u.server ∧ u.old = t.old := by
  have hl := h.links
  have hf := h.files
  cases hd with
  | enter c h1 h2 =>
    exact ⟨h.prog _ trivial h.mem (by show Files ext _ t.prog.phase; rw [h2]; trivial), .none, rfl⟩
  | readWorking c h1 =>
    refine ⟨h.prog _ ?_ h.mem ?_, .none, rfl⟩
    · intro d hd
      have hd : t.server.working c = some d := hd
      show getLink (t.server.working c) t.prog.working = d
      rw [hd]; rfl
    · exact hf
  | readFinishing c h1 =>
    rw [h1] at hl
    refine ⟨h.prog _ ⟨hl, ?_⟩ h.mem hf, .none, rfl⟩
    intro d hd
    have hd : t.server.finishing c = some d := hd
    right
    show getLink (t.server.finishing c) t.prog.finishing = d
    rw [hd]; rfl
  | leave c h1 h2 =>
    exact ⟨h.prog _ trivial h.mem hf, .none, rfl⟩
  | look c p h1 h2 h3 h4 h5 h6 =>
    refine ⟨h.prog _ (links_same _ hl rfl rfl rfl) h.mem ⟨⟨h6, ?_⟩, fun i hi => by cases hi⟩, .none, rfl⟩
    obtain ⟨d, e, r, e1, e2, e3⟩ := excluded_false h5
    obtain ⟨d', e', r', k1, k2⟩ := h.known p (by intro hn; rw [hn] at h4; cases h4)
    rw [e1] at k1; cases k1
    refine ⟨d, e, r, e1, k2, ?_⟩
    rw [h1] at hl
    rw [h3]
    rintro (hb | hb)
    · exact e2 (hl.1 d hb).symm
    · rcases hl.2 d hb with hb | hb
      · exact e2 hb.symm
      · exact e3 hb.symm
  | pass p o h1 =>
    exact ⟨h.prog _ (links_same _ hl rfl rfl rfl) h.mem trivial, .none, rfl⟩
  | remember p o h1 =>
    rw [h1] at hf
    refine ⟨h.prog _ (links_same _ hl rfl rfl rfl) ?_ trivial, .none, rfl⟩
    intro f hm
    rcases List.mem_cons.1 hm with rfl | hm
    · exact hf.1
    · exact h.mem f hm
  | openNew p i h1 h2 =>
    rw [h1] at hf
    refine ⟨h.prog _ (links_same _ hl rfl rfl rfl) h.mem ⟨hf.1, ?_⟩, .none, rfl⟩
    intro j hj
    cases hj
    exact hf.1.held h h2
  | openOld p f ni oi h1 h2 h3 =>
    rw [h1] at hf
    refine ⟨h.prog _ (links_same _ hl rfl rfl rfl) h.mem ⟨hf.1, h.mem f h2, hf.2 ni rfl, (h.mem f h2).held h h3, ?_,
      fun g hg => by cases hg⟩, .none, rfl⟩
    rw [List.take_zero, List.take_zero]
  | giveUp p f ni oi pos got h1 =>
    rw [h1] at hf
    refine ⟨h.prog _ (links_same _ hl rfl rfl rfl) h.mem ⟨hf.1, ?_⟩, .none, rfl⟩
    intro i hi
    cases hi
    exact hf.2.2.1
  | readNew p f ni oi pos h1 =>
    rw [h1] at hf
    obtain ⟨k1, k2, k3, k4, k5, _⟩ := hf
    refine ⟨h.prog _ (links_same _ hl rfl rfl rfl) h.mem ⟨k1, k2, k3, k4, k5, ?_⟩, .none, rfl⟩
    intro g hg
    cases hg
    rfl
  | readOld p f ni oi pos g h1 =>
    rw [h1] at hf
    obtain ⟨k1, k2, k3, k4, k5, k6⟩ := hf
    have hg := k6 g rfl
    refine ⟨h.prog _ (links_same _ hl rfl rfl rfl) h.mem ?_, .none, rfl⟩
    show Files ext _ (compared t.server p f ni oi pos g)
    unfold compared
    split
    · exact ⟨k1, fun i hi => by cases hi; exact k3⟩
    · rename_i he
      have he : g = chunk t.server oi pos := Classical.not_not.1 he
      split
      · rename_i hlen
        have hs : t.server.content ni = t.server.content oi := by
          apply same_of_chunks _ _ pos k5
          · show chunk t.server ni pos = chunk t.server oi pos
            rw [← hg, ← he]
          · show (chunk t.server ni pos).length < 4096
            rw [← hg]; exact hlen
        exact ⟨k1, k2, _, k3.2.2, by rw [hs]; exact k4.2.2⟩
      · refine ⟨k1, k2, k3, k4, ?_, fun g hg => by cases hg⟩
        apply more_chunks _ _ _ k5
        show chunk t.server ni pos = chunk t.server oi pos
        rw [← hg, ← he]
  | link p f j h1 h2 h3 =>
    rw [h1] at hf
    obtain ⟨k1, k2, x, k3, k4⟩ := hf
    have hh := k2.held h h2
    have hx : t.server.content j = x := by
      have := hh.2.2
      rw [k4] at this
      exact (Option.some.inj this).symm
    have hj : ∀ i, some j = some i → i < t.server.next ∧ i ∉ t.server.writing := by
      intro i hi; cases hi; exact ⟨hh.1, hh.2.1⟩
    refine ⟨h.put (tmp ext p) (some j) _ ?_ hj ?_ rfl rfl rfl rfl ⟨k1, x, k3, ?_⟩,
      .temp p (some j) k1 (fun i hi => (hj i hi).2), rfl⟩
    · obtain ⟨_, d, e, r, e1, e2, _⟩ := k1
      obtain ⟨e', r', e3⟩ := tmp_below ext p d e r e1
      exact ⟨d, e', r', e3, e2⟩
    · intro hn
      obtain ⟨_, d, e, r, e1, e2, _⟩ := k1
      exact absurd (isTmp_tmp ext p (by rw [e1]; simp)) hn
    · intro i hi
      have hi : (t.server.put (tmp ext p) (some j)).at_ (tmp ext p) = some i := hi
      rw [put_self] at hi
      cases hi
      exact ⟨hx, hh.2.1⟩
  | rename p h1 h2 =>
    rw [h1] at hf
    obtain ⟨k1, x, k3, k4⟩ := hf
    obtain ⟨j, hj⟩ := Option.isSome_iff_exists.1 h2
    obtain ⟨k5, k6⟩ := k4 j hj
    have hpk : ∃ d e r, p.2 = d :: e :: r ∧ d ∈ t.server.used p.1 := by
      obtain ⟨_, d, e, r, e1, e2, _⟩ := k1
      exact ⟨d, e, r, e1, e2⟩
    have htk : ∃ d e r, (tmp ext p).2 = d :: e :: r ∧ d ∈ t.server.used (tmp ext p).1 := by
      obtain ⟨_, d, e, r, e1, e2, _⟩ := k1
      obtain ⟨e', r', e3⟩ := tmp_below ext p d e r e1
      exact ⟨d, e', r', e3, e2⟩
    by_cases hs : t.server.at_ p = some j
    · have e : t.server.renameOver (tmp ext p) p = t.server := by
        unfold Server.renameOver
        rw [hj]
        simp only []
        rw [if_pos hs]
      rw [e]
      exact ⟨h.prog _ (links_same _ hl rfl rfl rfl) h.mem trivial, .none, rfl⟩
    · have e : t.server.renameOver (tmp ext p) p = (t.server.put (tmp ext p) none).put p (some j) := by
        unfold Server.renameOver
        rw [hj]
        simp only []
        rw [if_neg hs]
      rw [e]
      have hb1 : Base ext { t with server := t.server.put (tmp ext p) none, prog := { t.prog with phase := .idle } } :=
        h.put (tmp ext p) none _ htk (fun i hi => by cases hi) (fun _ i hi => by cases hi)
          rfl rfl rfl rfl trivial
      have hfr := h.fresh _ _ hj
      refine ⟨?_, .over p j k1 k6 hj (by rw [k5]; exact k3), rfl⟩
      refine hb1.put p (some j) { t.prog with phase := .idle } hpk ?_ ?_ rfl rfl rfl rfl trivial
      · intro i hi; cases hi; exact ⟨hfr, k6⟩
      · intro _ i hi; cases hi
        show t.old p = some (t.server.content j)
        rw [k5]; exact k3
  | undo p h1 =>
    rw [h1] at hf
    obtain ⟨k1, x, k3, k4⟩ := hf
    have htk : ∃ d e r, (tmp ext p).2 = d :: e :: r ∧ d ∈ t.server.used (tmp ext p).1 := by
      obtain ⟨_, d, e, r, e1, e2, _⟩ := k1
      obtain ⟨e', r', e3⟩ := tmp_below ext p d e r e1
      exact ⟨d, e', r', e3, e2⟩
    exact ⟨h.put (tmp ext p) none _ htk (fun i hi => by cases hi) (fun _ i hi => by cases hi)
      rfl rfl rfl rfl trivial, .temp p none k1 (fun i hi => by cases hi), rfl⟩
  | stop =>
    exact ⟨h.prog _ (links_same _ hl rfl rfl rfl) h.mem trivial, .none, rfl⟩

end Verif.BedupConc
