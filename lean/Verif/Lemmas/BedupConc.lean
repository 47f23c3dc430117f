import Verif.Spec.BedupConc

/-! # Lemmas about `bedup` beside the server -/

namespace Verif.BedupConc
open Verif

theorem view_some {s : Server} {p : Path} {x : Str} : s.view p = some x ↔ ∃ i, s.at_ p = some i ∧ s.content i = x := by
  unfold Server.view
  cases h : s.at_ p with
  | none => simp
  | some i => simp

theorem put_at (s : Server) (p q : Path) (o : Option Nat) : (s.put p o).at_ q = if q = p then o else s.at_ q := rfl

theorem put_self (s : Server) (p : Path) (o : Option Nat) : (s.put p o).at_ p = o := by rw [put_at, if_pos rfl]

theorem put_ne (s : Server) {p q : Path} (o : Option Nat) (h : q ≠ p) : (s.put p o).at_ q = s.at_ q := by
  rw [put_at, if_neg h]

theorem below_iff {c d : Str} {p : Path} : below c d p ↔ ∃ e r, p = (c, d :: e :: r) := by
  obtain ⟨c', n⟩ := p
  unfold below
  constructor
  · rintro ⟨h1, h2, h3⟩
    cases n with
    | nil => simp at h2
    | cons d' n =>
      cases n with
      | nil => simp at h3
      | cons e r =>
        simp only [List.head?_cons, Option.some.injEq] at h2
        exact ⟨e, r, by rw [← h1, ← h2]⟩
  · rintro ⟨e, r, h⟩
    cases h
    exact ⟨rfl, rfl, by simp⟩

/-! ### What acts leave alone -/

theorem act_used (s : Server) (a : Act) (c d : Str) (h : d ∈ s.used c) : d ∈ (s.act a).used c := by
  cases a with
  | start c' d' =>
    show d ∈ (if c = c' then d' :: s.used c else s.used c)
    split
    · simp [h]
    · exact h
  | link p q => simp only [Server.act]; split <;> exact h
  | rename p q => simp only [Server.act]; split <;> exact h
  | _ => exact h

theorem act_next (s : Server) (a : Act) : s.next ≤ (s.act a).next := by
  cases a with
  | create p => exact Nat.le_succ _
  | link p q => simp only [Server.act]; split <;> exact Nat.le_refl _
  | rename p q => simp only [Server.act]; split <;> exact Nat.le_refl _
  | _ => exact Nat.le_refl _

theorem act_writing (s : Server) (a : Act) (i : Nat) (h : i ∈ (s.act a).writing) : i ∈ s.writing ∨ i = s.next := by
  cases a with
  | create p =>
    have h : i ∈ s.next :: s.writing := h
    simp only [List.mem_cons] at h
    exact h.symm
  | close j =>
    have h : i ∈ s.writing.filter (· ≠ j) := h
    exact Or.inl (List.mem_filter.1 h).1
  | link p q => simp only [Server.act] at h; split at h <;> exact Or.inl h
  | rename p q => simp only [Server.act] at h; split at h <;> exact Or.inl h
  | _ => exact Or.inl h

theorem act_content {ext : Str} {old : Path → Option Str} (s : Server) (a : Act) (hm : s.may ext old a) (i : Nat)
    (h1 : i ∉ s.writing) (h2 : i < s.next) : (s.act a).content i = s.content i := by
  cases a with
  | create p =>
    show (if i = s.next then [] else s.content i) = _
    rw [if_neg (Nat.ne_of_lt h2)]
  | write j b =>
    show (if i = j then s.content j ++ b else s.content i) = _
    rw [if_neg]
    rintro rfl
    exact h1 hm
  | link p q => simp only [Server.act]; split <;> rfl
  | rename p q => simp only [Server.act]; split <;> rfl
  | _ => rfl

/-- A backup that is being made was being made before, unless it begins now. -/
theorem act_busy (s : Server) (a : Act) (c d : Str) (h : (s.act a).busy c d) : s.busy c d ∨ a = .start c d := by
  unfold Server.busy at *
  cases a with
  | start c' d' =>
    rcases h with h | h
    · have h : (if c = c' then some d' else s.working c) = some d := h
      split at h
      · rename_i hc
        cases h
        exact Or.inr (by rw [hc])
      · exact Or.inl (Or.inl h)
    · exact Or.inl (Or.inr h)
  | finishing c' =>
    rcases h with h | h
    · have h : (if c = c' then none else s.working c) = some d := h
      split at h
      · cases h
      · exact Or.inl (Or.inl h)
    · have h : (if c = c' then s.working c' else s.finishing c) = some d := h
      split at h
      · rename_i hc
        exact Or.inl (Or.inl (by rw [hc]; exact h))
      · exact Or.inl (Or.inr h)
  | finish c' =>
    rcases h with h | h
    · exact Or.inl (Or.inl h)
    · have h : (if c = c' then none else s.finishing c) = some d := h
      split at h
      · cases h
      · exact Or.inl (Or.inr h)
  | abandon c' =>
    rcases h with h | h
    · have h : (if c = c' then none else s.working c) = some d := h
      split at h
      · cases h
      · exact Or.inl (Or.inl h)
    · exact Or.inl (Or.inr h)
  | link p q => simp only [Server.act] at h; split at h <;> exact Or.inl h
  | rename p q => simp only [Server.act] at h; split at h <;> exact Or.inl h
  | _ => exact Or.inl h

/-- A backup that is finished, having had a name, stays finished. -/
theorem act_not_busy {ext : Str} {old : Path → Option Str} (s : Server) (a : Act) (hm : s.may ext old a) (c d : Str)
    (hu : d ∈ s.used c) (h : ¬ s.busy c d) : ¬ (s.act a).busy c d := by
  intro h'
  rcases act_busy s a c d h' with h1 | rfl
  · exact h h1
  · exact hm.2.2.1 hu

/-- What is not below the directory of a backup that is being made stays where it is, unless it is taken away. -/
theorem act_at {ext : Str} {old : Path → Option Str} (s : Server) (a : Act) (hm : s.may ext old a) (p : Path)
    (hp : ¬ s.inBusy p) (i : Nat) (h : (s.act a).at_ p = some i) :
    s.at_ p = some i ∨ (∃ c d sub w e r, a = .replace c d sub ∧ p = (c, d :: e :: r) ∧ s.finishing c = some w ∧
      s.at_ (c, w :: sub :: e :: r) = some i) := by
  cases a with
  | create q =>
    have h : (s.put q (some s.next)).at_ p = some i := h
    rw [put_ne] at h
    · exact Or.inl h
    · rintro rfl; exact hp hm.1
  | link q q' =>
    simp only [Server.act] at h
    split at h
    · exact Or.inl h
    · rw [put_ne] at h
      · exact Or.inl h
      · rintro rfl; exact hp hm.1
  | rename q q' =>
    simp only [Server.act] at h
    split at h
    · exact Or.inl h
    · rw [put_ne, put_ne] at h
      · exact Or.inl h
      · rintro rfl; exact hp hm.1
      · rintro rfl; exact hp hm.2.1
  | unlink q =>
    have h : (s.put q none).at_ p = some i := h
    rw [put_ne] at h
    · exact Or.inl h
    · rintro rfl; exact hp hm
  | drop c d =>
    have h : (if below c d p then none else s.at_ p) = some i := h
    split at h
    · cases h
    · exact Or.inl h
  | replace c d sub =>
    have h : s.replaced c d sub p = some i := h
    unfold Server.replaced at h
    split at h
    · rename_i hb
      obtain ⟨e, r, rfl⟩ := below_iff.1 hb
      cases hf : s.finishing c with
      | none => rw [hf] at h; cases h
      | some w =>
        rw [hf] at h
        exact Or.inr ⟨c, d, sub, w, e, r, rfl, rfl, hf, h⟩
    · split at h
      · cases h
      · exact Or.inl h
  | _ => exact Or.inl h

/-! ### The data that there has been -/

theorem note_some (s : Server) (old : Path → Option Str) (p : Path) (x : Str) (h : old p = some x) :
    note s old p = some x := by
  unfold note; rw [h]

theorem note_none (s : Server) (old : Path → Option Str) (p : Path) (x : Str) (h : old p = none)
    (hn : note s old p = some x) : (∃ d e r, p.2 = d :: e :: r ∧ ¬ s.busy p.1 d) ∧ s.view p = some x := by
  unfold note at hn
  rw [h] at hn
  obtain ⟨c, n⟩ := p
  cases n with
  | nil => cases hn
  | cons d n =>
    cases n with
    | nil => cases hn
    | cons e r =>
      simp only [] at hn
      split at hn
      · cases hn
      · rename_i hb
        exact ⟨⟨d, e, r, rfl, hb⟩, hn⟩

theorem note_new (s : Server) (old : Path → Option Str) (p : Path) (x : Str) (h : old p = none)
    (hk : ∃ d e r, p.2 = d :: e :: r) (hb : ¬ s.inBusy p) (hv : s.view p = some x) : note s old p = some x := by
  unfold note
  rw [h]
  obtain ⟨c, n⟩ := p
  obtain ⟨d, e, r, rfl⟩ := hk
  simp only []
  rw [if_neg]
  · exact hv
  · intro hb'
    exact hb ⟨d, e, r, rfl, hb'⟩

/-! ### Temporary names -/

theorem getLast_addExt (ext : Str) (n : List Str) (h : n ≠ []) : ∃ m, (addExt ext n).getLast? = some (m ++ ext) := by
  induction n with
  | nil => exact absurd rfl h
  | cons a n ih =>
    cases n with
    | nil => exact ⟨a, rfl⟩
    | cons b n =>
      obtain ⟨m, hm⟩ := ih (by simp)
      refine ⟨m, ?_⟩
      show (a :: addExt ext (b :: n)).getLast? = _
      cases he : addExt ext (b :: n) with
      | nil => rw [he] at hm; cases hm
      | cons x y => rw [he] at hm; rw [List.getLast?_cons_cons]; exact hm

theorem isTmp_tmp (ext : Str) (p : Path) (h : p.2 ≠ []) : isTmp ext (tmp ext p) := by
  obtain ⟨m, hm⟩ := getLast_addExt ext p.2 h
  exact ⟨m ++ ext, hm, List.suffix_append m ext⟩

theorem isTmp_below (ext c d w sub e : Str) (r : List Str) (h : isTmp ext (c, w :: sub :: e :: r)) :
    isTmp ext (c, d :: e :: r) := by
  obtain ⟨n, h1, h2⟩ := h
  refine ⟨n, ?_, h2⟩
  simp only [List.getLast?_cons_cons] at h1 ⊢
  exact h1

theorem tmp_below (ext : Str) (p : Path) (d e : Str) (r : List Str) (h : p.2 = d :: e :: r) :
    ∃ e' r', (tmp ext p).2 = d :: e' :: r' := by
  unfold tmp
  rw [h]
  cases r with
  | nil => exact ⟨e ++ ext, [], rfl⟩
  | cons a r => exact ⟨e, addExt ext (a :: r), rfl⟩

/-! ### Comparing -/

theorem same_of_chunks (a b : Str) (pos : Nat) (h1 : a.take pos = b.take pos)
    (h2 : (a.drop pos).take 4096 = (b.drop pos).take 4096) (h3 : ((a.drop pos).take 4096).length < 4096) : a = b := by
  have ha : (a.drop pos).take 4096 = a.drop pos := by
    apply List.take_of_length_le
    rw [List.length_take] at h3
    omega
  have hb : (b.drop pos).take 4096 = b.drop pos := by
    apply List.take_of_length_le
    rw [h2, List.length_take] at h3
    omega
  rw [← List.take_append_drop pos a, ← List.take_append_drop pos b, h1, ← ha, ← hb, h2]

theorem more_chunks (a b : Str) (pos : Nat) (h1 : a.take pos = b.take pos)
    (h2 : (a.drop pos).take 4096 = (b.drop pos).take 4096) : a.take (pos + 4096) = b.take (pos + 4096) := by
  rw [List.take_add, List.take_add, h1, h2]

end Verif.BedupConc
