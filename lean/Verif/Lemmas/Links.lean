import Verif.Spec.Links

namespace Verif
open Verif.Links

/-- What always holds of the links and directories. -/
structure LInv (s : State) : Prop where
  i1 : ∀ n d, s.dirs n = some d → d.stage ≠ .complete → s.working = some n ∨ s.finishing = some n
  i2 : ∀ n, s.finishing = some n → s.working = none ∧
    ∃ d, s.dirs n = some d ∧ (d.stage = .ready ∨ d.stage = .complete)
  i3 : ∀ n d, s.working = some n → s.dirs n = some d → d.stage ≠ .complete
  i4 : ∀ n, s.working = some n ∨ s.finishing = some n →
    (∀ m d, s.dirs m = some d → m ≤ n) ∧ ∀ c, s.current = some c → c < n
  i5 : s.current = none → s.dup = none ∧
    ∀ m d, s.dirs m = some d → s.working = some m ∨ s.finishing = some m
  i6 : ∀ c, s.current = some c → ∀ m d, s.dirs m = some d → m ≤ c ∨ s.working = some m ∨ s.finishing = some m
  i7 : ∀ c, s.current = some c → s.dirs c = none →
    (∃ n d dn, s.finishing = some n ∧ s.dup = some d ∧ d.stage = .complete ∧ s.dirs n = some dn ∧
      dn.stage = .complete) ∨
    (s.finishing = none ∧ s.working = none ∧ ∃ t dt, s.currenttmp = some t ∧ t < c ∧ s.dirs t = some dt ∧
      dt.stage = .complete ∧ ∀ m d, s.dirs m = some d → m ≤ t)
  i8 : ∀ d, s.dup = some d → d.stage = .complete ∧ (∃ n, s.finishing = some n) ∧
    ∃ c, s.current = some c ∧ ∀ dc, s.dirs c = some dc → dc.hard = false

theorem LInv_start : LInv {} := by
  constructor <;> grind

theorem cut_cons {o os s s'} (h : Cut (o :: os) s s') :
    s' = s ∨ ∃ s1, exec o s = some s1 ∧ Cut os s1 s' := by
  cases h with
  | here => exact Or.inl rfl
  | step h hc => exact Or.inr ⟨_, h, hc⟩

theorem cut_nil {s s'} (h : Cut [] s s') : s' = s := by cases h; rfl

theorem inv_hard {s s' : State} {n : Nat} {h : Bool} (hi : LInv s) (hn : s.finishing = some n)
    (he : exec (.hard n h) s = some s') : LInv s' ∧ s'.finishing = some n ∧ s'.current = s.current ∧
      s'.dup = s.dup ∧ ∀ m, m ≠ n → s'.dirs m = s.dirs m := by
  obtain ⟨i1, i2, i3, i4, i5, i6, i7, i8⟩ := hi
  obtain ⟨h2, d, hd, hst⟩ := i2 n hn
  simp only [exec, hd, Option.some.injEq] at he
  subst he
  refine ⟨?_, hn, rfl, rfl, by simp +contextual [upd]⟩
  constructor <;> simp only [upd] <;> grind

theorem inv_complete {s s' : State} {n : Nat} (hi : LInv s) (hn : s.finishing = some n)
    (he : exec (.stage n .complete) s = some s') : LInv s' ∧ s'.finishing = some n ∧
      s'.current = s.current ∧ s'.dup = s.dup ∧ CompleteIn s' n ∧ ∀ m, m ≠ n → s'.dirs m = s.dirs m := by
  obtain ⟨i1, i2, i3, i4, i5, i6, i7, i8⟩ := hi
  obtain ⟨h2, d, hd, hst⟩ := i2 n hn
  simp only [exec, hd, Option.some.injEq] at he
  subst he
  refine ⟨?_, hn, rfl, rfl, ⟨{ d with stage := .complete }, by simp [upd], rfl⟩,
    by simp +contextual [upd]⟩
  constructor <;> simp only [upd] <;> grind

theorem inv_dup {s s' : State} {n c : Nat} (hi : LInv s) (hn : s.finishing = some n)
    (hc : s.current = some c) (hh : ∀ d, s.dirs c = some d → d.hard = false)
    (he : exec .dupCurrent s = some s') : LInv s' ∧ s'.finishing = some n ∧
      s'.current = s.current ∧ (∃ d, s'.dup = some d) ∧ s'.dirs = s.dirs := by
  obtain ⟨i1, i2, i3, i4, i5, i6, i7, i8⟩ := hi
  simp only [exec, hc] at he
  cases hd : s.dirs c with
  | none => simp [hd] at he
  | some d =>
    simp only [hd, Option.some.injEq] at he
    subst he
    refine ⟨?_, hn, hc.symm, ⟨d, rfl⟩, rfl⟩
    constructor <;> grind

theorem inv_aside {s s' : State} {n c : Nat} (hi : LInv s) (hn : s.finishing = some n)
    (hc : s.current = some c) (hd : ∃ d, s.dup = some d) (hcn : CompleteIn s n)
    (he : exec (.moveAside c) s = some s') : LInv s' ∧ s'.finishing = some n ∧
      s'.current = s.current ∧ s'.dup = s.dup ∧ CompleteIn s' n ∧ s'.dirs c = none := by
  obtain ⟨i1, i2, i3, i4, i5, i6, i7, i8⟩ := hi
  obtain ⟨d, hd⟩ := hd
  obtain ⟨dn, hdn, hdc⟩ := hcn
  have hlt := (i4 n (Or.inr hn)).2 c hc
  simp only [exec, Option.some.injEq] at he
  subst he
  refine ⟨?_, hn, rfl, rfl, ⟨dn, by simp [upd, hdn]; omega, hdc⟩, by simp [upd]⟩
  constructor <;> simp only [upd] <;> grind

theorem inv_back {s s' : State} {n c : Nat} (hi : LInv s) (hn : s.finishing = some n)
    (hc : s.current = some c) (hcn : CompleteIn s n)
    (he : exec (.dupBack c) s = some s') : LInv s' ∧ s'.finishing = some n ∧
      s'.current = s.current ∧ s'.dup = none ∧ CompleteIn s' n ∧ CompleteIn s' c := by
  obtain ⟨i1, i2, i3, i4, i5, i6, i7, i8⟩ := hi
  obtain ⟨dn, hdn, hdc⟩ := hcn
  have hlt := (i4 n (Or.inr hn)).2 c hc
  cases hd : s.dup with
  | none => simp [exec, hd] at he
  | some d =>
    cases hdd : s.dirs c with
    | some x => simp [exec, hd, hdd] at he
    | none =>
      simp only [exec, hd, hdd, Option.some.injEq] at he
      subst he
      refine ⟨?_, hn, rfl, rfl, ⟨dn, by simp [upd, hdn]; omega, hdc⟩,
        ⟨d, by simp [upd], (i8 d hd).1⟩⟩
      constructor <;> simp only [upd] <;> grind

theorem inv_current {s s' : State} {n : Nat} (hi : LInv s) (hn : s.finishing = some n)
    (hcn : CompleteIn s n) (hd : s.dup = none)
    (he : exec .finishingToCurrent s = some s') : LInv s' := by
  obtain ⟨i1, i2, i3, i4, i5, i6, i7, i8⟩ := hi
  obtain ⟨dn, hdn, hdc⟩ := hcn
  simp only [exec, hn, Option.some.injEq] at he
  subst he
  constructor <;> grind

theorem run_cut {ops : List Op} {s s' : State} (h : run ops s = some s') : Cut ops s s' := by
  induction ops generalizing s with
  | nil => simp only [run, Option.some.injEq] at h; subst h; exact .here
  | cons o os ih =>
    simp only [run] at h
    cases he : exec o s with
    | none => simp [he] at h
    | some s1 => simp only [he] at h; exact .step he (ih h)

/-- One operation loses no complete backup. -/
def Keeps (s s' : State) : Prop := ∀ m, Stored s m → Stored s' m

theorem keeps_refl (s : State) : Keeps s s := fun _ h => h
theorem keeps_trans {a b c : State} (h1 : Keeps a b) (h2 : Keeps b c) : Keeps a c :=
  fun m h => h2 m (h1 m h)

theorem keep_hard {s s' : State} {n : Nat} {h : Bool}
    (he : exec (.hard n h) s = some s') : Keeps s s' := by
  cases hd : s.dirs n with
  | none => simp [exec, hd] at he
  | some d =>
    simp only [exec, hd, Option.some.injEq] at he
    subst he
    intro m hm
    unfold Stored CompleteIn at *
    simp only [upd]
    grind

theorem keep_complete {s s' : State} {n : Nat}
    (he : exec (.stage n .complete) s = some s') : Keeps s s' := by
  cases hd : s.dirs n with
  | none => simp [exec, hd] at he
  | some d =>
    simp only [exec, hd, Option.some.injEq] at he
    subst he
    intro m hm
    unfold Stored CompleteIn at *
    simp only [upd]
    grind

theorem keep_dup {s s' : State} (he : exec .dupCurrent s = some s') : Keeps s s' := by
  simp only [exec] at he
  intro m hm
  unfold Stored CompleteIn at *
  grind

theorem keep_aside {s s' : State} {c : Nat} (hi : LInv s) (hc : s.current = some c)
    (hd : ∃ d, s.dup = some d)
    (he : exec (.moveAside c) s = some s') : Keeps s s' := by
  have := hi.i8
  simp only [exec, Option.some.injEq] at he
  subst he
  intro m hm
  unfold Stored CompleteIn at *
  simp only [upd]
  grind

theorem keep_back {s s' : State} {c : Nat} (hi : LInv s) (hc : s.current = some c)
    (he : exec (.dupBack c) s = some s') : Keeps s s' := by
  have := hi.i8
  simp only [exec] at he
  intro m hm
  unfold Stored CompleteIn at *
  unfold upd at he
  grind

theorem keep_current {s s' : State} (hd : s.dup = none)
    (he : exec .finishingToCurrent s = some s') : Keeps s s' := by
  simp only [exec] at he
  intro m hm
  unfold Stored CompleteIn at *
  grind
/-- The phases after the renaming to `finishing`. -/
theorem finish_inv {s s' : State} {n : Nat} {h : Bool} (hi : LInv s) (hn : s.finishing = some n)
    (hc : Cut (finish s n h) s s') : LInv s' ∧ Keeps s s' := by
  unfold finish phase4 at hc
  have tail1 : ∀ s1, LInv s1 → s1.finishing = some n → s1.dup = none →
      Cut [.hard n h, .stage n .complete, .finishingToCurrent] s1 s' → LInv s' ∧ Keeps s1 s' := by
    intro s1 h1 hn1 hd1 hc1
    rcases cut_cons hc1 with rfl | ⟨s2, e2, hc2⟩
    · exact ⟨h1, keeps_refl _⟩
    · obtain ⟨h2, hn2, hcu2, hd2, -⟩ := inv_hard h1 hn1 e2
      rcases cut_cons hc2 with rfl | ⟨s3, e3, hc3⟩
      · exact ⟨h2, keep_hard e2⟩
      · obtain ⟨h3, hn3, hcu3, hd3, hcm3, -⟩ := inv_complete h2 hn2 e3
        rcases cut_cons hc3 with rfl | ⟨s4, e4, hc4⟩
        · exact ⟨h3, keeps_trans (keep_hard e2) (keep_complete e3)⟩
        · rw [cut_nil hc4]
          exact ⟨inv_current h3 hn3 hcm3 (by rw [hd3, hd2, hd1]) e4, keeps_trans (keep_hard e2)
            (keeps_trans (keep_complete e3) (keep_current (by rw [hd3, hd2, hd1]) e4))⟩
  have tail2 : ∀ c s1, LInv s1 → s1.finishing = some n → s1.current = some c → (∃ d, s1.dup = some d) →
      Cut [.hard n h, .stage n .complete, .moveAside c, .dupBack c, .finishingToCurrent] s1 s' →
      LInv s' ∧ Keeps s1 s' := by
    intro c s1 h1 hn1 hcu1 hd1 hc1
    rcases cut_cons hc1 with rfl | ⟨s2, e2, hc2⟩
    · exact ⟨h1, keeps_refl _⟩
    · obtain ⟨h2, hn2, hcu2, hd2, -⟩ := inv_hard h1 hn1 e2
      rcases cut_cons hc2 with rfl | ⟨s3, e3, hc3⟩
      · exact ⟨h2, keep_hard e2⟩
      · obtain ⟨h3, hn3, hcu3, hd3, hcm3, -⟩ := inv_complete h2 hn2 e3
        rcases cut_cons hc3 with rfl | ⟨s4, e4, hc4⟩
        · exact ⟨h3, keeps_trans (keep_hard e2) (keep_complete e3)⟩
        · obtain ⟨h4, hn4, hcu4, hd4, hcm4, -⟩ :=
            inv_aside h3 hn3 (by rw [hcu3, hcu2, hcu1]) (by rw [hd3, hd2]; exact hd1) hcm3 e4
          have k4 : Keeps s3 s4 := keep_aside h3 (by rw [hcu3, hcu2, hcu1]) (by rw [hd3, hd2]; exact hd1) e4
          have k := keeps_trans (keep_hard e2) (keeps_trans (keep_complete e3) k4)
          rcases cut_cons hc4 with rfl | ⟨s5, e5, hc5⟩
          · exact ⟨h4, k⟩
          · obtain ⟨h5, hn5, hcu5, hd5, hcm5, -⟩ :=
              inv_back h4 hn4 (by rw [hcu4, hcu3, hcu2, hcu1]) hcm4 e5
            have k5 := keeps_trans k (keep_back h4 (by rw [hcu4, hcu3, hcu2, hcu1]) e5)
            rcases cut_cons hc5 with rfl | ⟨s6, e6, hc6⟩
            · exact ⟨h5, k5⟩
            · rw [cut_nil hc6]
              exact ⟨inv_current h5 hn5 hcm5 hd5 e6, keeps_trans k5 (keep_current hd5 e6)⟩
  cases hcur : s.current with
  | none =>
    simp only [hcur, List.cons_append, List.nil_append] at hc
    exact tail1 s hi hn (hi.i5 hcur).1 hc
  | some c =>
    simp only [hcur] at hc
    by_cases hh : hasHard (s.dirs c) = true
    · rw [if_pos hh] at hc
      refine tail1 s hi hn ?_ hc
      cases hd : s.dup with
      | none => rfl
      | some d =>
        obtain ⟨-, -, c', hc', hf⟩ := hi.i8 d hd
        rw [hcur] at hc'
        cases hc'
        cases hdc : s.dirs c with
        | none => simp [hasHard, hdc] at hh
        | some dc => simp [hasHard, hdc, hf dc hdc] at hh
    · rw [if_neg hh] at hc
      cases hd : s.dup with
      | some d =>
        simp only [hd, Option.isNone_some, Bool.false_eq_true, if_false, List.nil_append,
          List.cons_append] at hc
        exact tail2 c s hi hn hcur ⟨d, hd⟩ hc
      | none =>
        simp only [hd, Option.isNone_none, if_true, List.nil_append, List.cons_append] at hc
        rcases cut_cons hc with rfl | ⟨s2, e2, hc2⟩
        · exact ⟨hi, keeps_refl _⟩
        · obtain ⟨h2, hn2, hcu2, hd2, -⟩ := inv_dup hi hn hcur
            (by intro d hd; simp [hasHard, hd] at hh; exact hh) e2
          have k := tail2 c s2 h2 hn2 (by rw [hcu2, hcur]) hd2 hc2
          exact ⟨k.1, keeps_trans (keep_dup e2) k.2⟩

theorem finish_congr {s t : State} {n : Nat} {h : Bool} (h1 : s.current = t.current) (h2 : s.dup = t.dup)
    (h3 : ∀ c, s.current = some c → s.dirs c = t.dirs c) : finish s n h = finish t n h := by
  unfold finish phase4
  rw [← h1]
  cases hc : s.current with
  | none => rfl
  | some c => simp only [h2, h3 c hc]

theorem keeps_of {s s' : State} {n : Nat} (h1 : s'.current = s.current) (h2 : s'.dup = s.dup)
    (h3 : ∀ m, m ≠ n → s'.dirs m = s.dirs m) (h4 : ¬ Stored s n) : Keeps s s' := by
  intro m hm
  have hmn : m ≠ n := by intro e; rw [e] at hm; exact h4 hm
  rcases hm with ⟨d, hd, hc⟩ | ⟨hc, hd, x⟩
  · exact Or.inl ⟨d, by rw [h3 m hmn]; exact hd, hc⟩
  · exact Or.inr ⟨by rw [h1]; exact hc, by rw [h3 m hmn]; exact hd, by rw [h2]; exact x⟩

theorem not_stored_working {s : State} {n : Nat} (hi : LInv s) (hw : s.working = some n) :
    ¬ Stored s n := by
  rintro (⟨d, hd, hc⟩ | ⟨hc, -⟩)
  · exact hi.i3 n d hw hd hc
  · have := (hi.i4 n (Or.inl hw)).2 n hc
    omega

theorem resume_inv {s s' : State} {n : Nat} {h : Bool} (hi : LInv s)
    (h2 : s.working = some n) (hc : Cut (resumeBackup s n h) s s') : LInv s' ∧ Keeps s s' := by
  have hi' := hi
  obtain ⟨i1, i2, i3, i4, i5, i6, i7, i8⟩ := hi'
  unfold resumeBackup at hc
  rcases cut_cons hc with rfl | ⟨s1, e1, hc⟩
  · exact ⟨hi, keeps_refl _⟩
  cases hd : s.dirs n with
  | none => simp [exec, hd] at e1
  | some d =>
  simp only [exec, hd, Option.some.injEq] at e1
  have hi1 : LInv s1 := by
    subst e1
    constructor <;> simp only [upd] <;> grind
  have k1 : Keeps s s1 := by
    refine keeps_of (n := n) ?_ ?_ ?_ (not_stored_working hi h2)
    · subst e1; rfl
    · subst e1; rfl
    · intro m hm; subst e1; simp [upd, hm]
  rcases cut_cons hc with rfl | ⟨s2, e2, hc⟩
  · exact ⟨hi1, k1⟩
  have hw1 : s1.working = some n := by subst e1; exact h2
  simp only [exec, hw1, Option.some.injEq] at e2
  have hi2 : LInv s2 := by
    obtain ⟨i1, i2, i3, i4, i5, i6, i7, i8⟩ := hi1
    have hr : s1.dirs n = some { d with stage := .ready } := by subst e1; simp [upd]
    subst e2
    constructor <;> grind
  have k2 : Keeps s1 s2 := by subst e2; exact fun _ h => h
  suffices h : LInv s' ∧ Keeps s2 s' from ⟨h.1, keeps_trans k1 (keeps_trans k2 h.2)⟩
  refine finish_inv hi2 (n := n) (h := h) (by subst e2; rfl) ?_
  rw [finish_congr (t := s)]
  · exact hc
  · subst e2; subst e1; rfl
  · subst e2; subst e1; rfl
  · intro c hcc
    have : s.current = some c := by subst e2; subst e1; exact hcc
    have := (i4 n (Or.inl h2)).2 c this
    subst e2; subst e1
    simp only [upd]
    rw [if_neg (by omega)]

theorem new_inv {s s' : State} {n : Nat} {h : Bool} (hi : LInv s) (h1 : s.finishing = none)
    (h2 : s.working = none) (h3 : s.currenttmp = none) (hn : ∀ m d, s.dirs m = some d → m < n)
    (hc : Cut (newBackup s n h) s s') : LInv s' ∧ Keeps s s' := by
  have hi' := hi
  obtain ⟨i1, i2, i3, i4, i5, i6, i7, i8⟩ := hi'
  unfold newBackup at hc
  have hdn : s.dirs n = none := by
    cases hd : s.dirs n with
    | none => rfl
    | some d => exact absurd (hn n d hd) (by omega)
  have hcur : ∀ c, s.current = some c → c < n := by
    intro c hcc
    cases hd : s.dirs c with
    | some d => exact hn c d hd
    | none => grind
  rcases cut_cons hc with rfl | ⟨s1, e1, hc⟩
  · exact ⟨hi, keeps_refl _⟩
  simp only [exec, h2, Option.some.injEq] at e1
  have hi1 : LInv s1 := by subst e1; constructor <;> grind
  have hns : ¬ Stored s n := by
    rintro (⟨d, hd, -⟩ | ⟨hcc, -⟩)
    · simp [hdn] at hd
    · have := hcur n hcc; omega
  have k1 : Keeps s s1 := by subst e1; exact fun _ h => h
  rcases cut_cons hc with rfl | ⟨s2, e2, hc⟩
  · exact ⟨hi1, k1⟩
  have hd1 : s1.dirs n = none := by subst e1; exact hdn
  simp only [exec, hd1, Option.some.injEq] at e2
  have hi2 : LInv s2 := by
    subst e2; subst e1
    constructor <;> simp only [upd] <;> grind
  have k2 : Keeps s s2 := by
    refine keeps_of (n := n) ?_ ?_ ?_ hns
    · subst e2; subst e1; rfl
    · subst e2; subst e1; rfl
    · intro m hm; subst e2; subst e1; simp [upd, hm]
  rcases cut_cons hc with rfl | ⟨s3, e3, hc⟩
  · exact ⟨hi2, k2⟩
  have hd2 : s2.dirs n = some ⟨.created, false⟩ := by subst e2; simp [upd]
  simp only [exec, hd2, Option.some.injEq] at e3
  have hw3 : s3.working = some n := by subst e3; subst e2; subst e1; rfl
  have hi3 : LInv s3 := by
    obtain ⟨i1, i2, i3, i4, i5, i6, i7, i8⟩ := hi2
    have hw2 : s2.working = some n := by subst e2; subst e1; rfl
    subst e3
    constructor <;> simp only [upd] <;> grind
  have k3 : Keeps s s3 := by
    refine keeps_of (n := n) ?_ ?_ ?_ hns
    · subst e3; subst e2; subst e1; rfl
    · subst e3; subst e2; subst e1; rfl
    · intro m hm; subst e3; subst e2; subst e1; simp [upd, hm]
  suffices h : LInv s' ∧ Keeps s3 s' from ⟨h.1, keeps_trans k3 h.2⟩
  refine resume_inv hi3 hw3 (h := h) ?_
  unfold resumeBackup
  rw [finish_congr (t := s)]
  · exact hc
  · subst e3; subst e2; subst e1; rfl
  · subst e3; subst e2; subst e1; rfl
  · intro c hcc
    have : s.current = some c := by subst e3; subst e2; subst e1; exact hcc
    have := hcur c this
    subst e3; subst e2; subst e1
    simp only [upd]
    rw [if_neg (by omega), if_neg (by omega)]

theorem delete_inv {s s' : State} {b : Nat} {p q : Option Nat} (hi : LInv s) (h1 : s.finishing = none)
    (h2 : s.working = none → s.currenttmp = none) (hb : InList s b) (hp : IsPrev s b p) (hq : IsNext s b q)
    (hc : Cut (deleteBackup b p q) s s') (hx : ¬ BadCut s s' (deleteBackup b p q)) : LInv s' := by
  have hi' := hi
  obtain ⟨i1, i2, i3, i4, i5, i6, i7, i8⟩ := hi'
  obtain ⟨⟨db, hdb⟩, hbw, hbf⟩ := hb
  obtain ⟨c, hcur⟩ : ∃ c, s.current = some c := by
    cases hcur : s.current with
    | some c => exact ⟨c, rfl⟩
    | none => grind
  have hcd : ∃ d, s.dirs c = some d := by
    cases hd : s.dirs c with
    | some d => exact ⟨d, rfl⟩
    | none => grind
  obtain ⟨dc, hdc⟩ := hcd
  have hcl : InList s c := by
    refine ⟨⟨dc, hdc⟩, ?_, ?_⟩
    · intro hw; have := (i4 c (Or.inl hw)).2 c hcur; omega
    · rw [h1]; simp
  have hbc : b ≤ c := by
    rcases i6 c hcur b db hdb with h | h | h
    · exact h
    · exact absurd h hbw
    · exact absurd h hbf
  cases q with
  | some q =>
    obtain ⟨hq1, hq2, hq3⟩ := hq
    have hqc : q ≤ c := by
      obtain ⟨⟨dq, hdq⟩, hqw, hqf⟩ := hq1
      rcases i6 c hcur q dq hdq with h | h | h
      · exact h
      · exact absurd h hqw
      · exact absurd h hqf
    simp only [deleteBackup] at hc
    rcases cut_cons hc with rfl | ⟨s1, e1, hc⟩
    · exact hi
    simp only [exec, hdb, Option.some.injEq] at e1
    rw [cut_nil hc]
    subst e1
    have hne : ¬ c = b := by omega
    have hdup : s.dup = none := by
      cases hd : s.dup with
      | none => rfl
      | some d => obtain ⟨-, ⟨n, hn⟩, -⟩ := i8 d hd; simp [h1] at hn
    constructor <;> simp only [upd]
    case i4 =>
      intro n h
      refine ⟨fun m d hm => (i4 n h).1 m d ?_, (i4 n h).2⟩
      split at hm
      · simp at hm
      · exact hm
    all_goals grind
  | none =>
    have : b = c := by
      have := hq c hcl
      omega
    subst this
    cases p with
    | none =>
      simp only [deleteBackup] at hc
      rcases cut_cons hc with rfl | ⟨s1, e1, hc⟩
      · exact hi
      simp only [exec, hdb, Option.some.injEq] at e1
      rcases cut_cons hc with rfl | ⟨s2, e2, hc⟩
      · exact absurd ⟨b, none, rfl, Or.inl rfl, by subst e1; exact hcur, by subst e1; simp [upd]⟩ hx
      have hc1 : s1.current = some b := by subst e1; exact hcur
      simp only [exec, hc1, Option.some.injEq] at e2
      rw [cut_nil hc]
      subst e2; subst e1
      have hall : ∀ m d, s.dirs m = some d → m = b ∨ s.working = some m := by
        intro m d hd
        by_cases hw : s.working = some m
        · exact Or.inr hw
        · have hm : InList s m := ⟨⟨d, hd⟩, hw, by rw [h1]; simp⟩
          have := hp m hm
          have := hq m hm
          exact Or.inl (by omega)
      have hdup : s.dup = none := by
        cases hd : s.dup with
        | none => rfl
        | some d => obtain ⟨-, ⟨n, hn⟩, -⟩ := i8 d hd; simp [h1] at hn
      constructor <;> simp only [upd]
      all_goals grind
    | some p =>
      obtain ⟨⟨⟨dp, hdp⟩, hpw, hpf⟩, hpb, hpm⟩ := hp
      simp only [deleteBackup] at hc
      rcases cut_cons hc with rfl | ⟨s1, e1, hc⟩
      · exact hi
      simp only [exec, Option.some.injEq] at e1
      have hi1 : LInv s1 := by
        subst e1
        constructor <;> grind
      rcases cut_cons hc with rfl | ⟨s2, e2, hc⟩
      · exact hi1
      have hd1 : s1.dirs b = some db := by subst e1; exact hdb
      simp only [exec, hd1, Option.some.injEq] at e2
      have hpc : dp.stage = .complete := by
        rcases Decidable.em (dp.stage = .complete) with h | h
        · exact h
        · rcases i1 p dp hdp h with h | h
          · exact absurd h hpw
          · exact absurd h hpf
      have hall : ∀ m d, s.dirs m = some d → m ≤ p ∨ m = b ∨ s.working = some m := by
        intro m d hd
        by_cases hw : s.working = some m
        · exact Or.inr (Or.inr hw)
        · have hm : InList s m := ⟨⟨d, hd⟩, hw, by rw [h1]; simp⟩
          have := hq m hm
          rcases Nat.lt_or_ge m b with h | h
          · exact Or.inl (hpm m hm h)
          · exact Or.inr (Or.inl (by omega))
      rcases cut_cons hc with rfl | ⟨s3, e3, hc⟩
      · by_cases hw : s.working = none
        · subst e2; subst e1
          constructor <;> simp only [upd] <;> grind
        · exact absurd ⟨b, some p, rfl, Or.inr hw, by subst e2; subst e1; exact hcur,
            by subst e2; simp [upd]⟩ hx
      · have ht2 : s2.currenttmp = some p := by subst e2; subst e1; rfl
        simp only [exec, ht2, Option.some.injEq] at e3
        rw [cut_nil hc]
        subst e3; subst e2; subst e1
        constructor <;> simp only [upd] <;> grind

theorem recover_inv {s s' : State} {h del : Bool} (hi : LInv s)
    (hc : Cut (recover s h del) s s') : LInv s' ∧ Keeps s s' := by
  unfold recover at hc
  cases hf : s.finishing with
  | some n =>
    simp only [hf] at hc
    exact finish_inv hi hf hc
  | none =>
    have hi' := hi
    obtain ⟨i1, i2, i3, i4, i5, i6, i7, i8⟩ := hi'
    cases hw : s.working with
    | some n =>
      simp only [hf, hw] at hc
      cases hd : s.dirs n with
      | none =>
        simp only [hd] at hc
        rcases cut_cons hc with rfl | ⟨s1, e1, hc⟩
        · exact ⟨hi, keeps_refl _⟩
        simp only [exec, hw, Option.some.injEq] at e1
        rw [cut_nil hc]
        subst e1
        refine ⟨?_, fun _ h => h⟩
        constructor <;> grind
      | some d =>
        simp only [hd] at hc
        split at hc
        · unfold workingDelete at hc
          rcases cut_cons hc with rfl | ⟨s1, e1, hc⟩
          · exact ⟨hi, keeps_refl _⟩
          simp only [exec, hd, Option.some.injEq] at e1
          have hi1 : LInv s1 := by
            subst e1
            constructor <;> simp only [upd] <;> grind
          have k1 : Keeps s s1 := by
            refine keeps_of (n := n) ?_ ?_ ?_ (not_stored_working hi hw)
            · subst e1; rfl
            · subst e1; rfl
            · intro m hm; subst e1; simp [upd, hm]
          rcases cut_cons hc with rfl | ⟨s2, e2, hc⟩
          · exact ⟨hi1, k1⟩
          have hd1 : s1.dirs n = some { d with stage := .created } := by subst e1; simp [upd]
          simp only [exec, hd1, Option.some.injEq] at e2
          have hi2 : LInv s2 := by
            subst e2; subst e1
            constructor <;> simp only [upd] <;> grind
          have k2 : Keeps s s2 := by
            refine keeps_of (n := n) ?_ ?_ ?_ (not_stored_working hi hw)
            · subst e2; subst e1; rfl
            · subst e2; subst e1; rfl
            · intro m hm; subst e2; subst e1; simp [upd, hm]
          rcases cut_cons hc with rfl | ⟨s3, e3, hc⟩
          · exact ⟨hi2, k2⟩
          have hw2 : s2.working = some n := by subst e2; subst e1; exact hw
          have hd2 : s2.dirs n = none := by subst e2; simp [upd]
          have hf2 : s2.finishing = none := by subst e2; subst e1; exact hf
          simp only [exec, hw2, Option.some.injEq] at e3
          rw [cut_nil hc]
          have k3 : Keeps s2 s3 := by subst e3; exact fun _ h => h
          refine ⟨?_, keeps_trans k2 k3⟩
          obtain ⟨i1, i2, i3, i4, i5, i6, i7, i8⟩ := hi2
          subst e3
          constructor <;> grind
        · rw [cut_nil hc]; exact ⟨hi, keeps_refl _⟩
    | none =>
      cases ht : s.currenttmp with
      | none =>
        simp only [hf, hw, ht] at hc
        rw [cut_nil hc]; exact ⟨hi, keeps_refl _⟩
      | some t =>
        simp only [hf, hw, ht] at hc
        unfold recoverCurrenttmp at hc
        cases hd : s.dirs t with
        | none =>
          simp only [hd] at hc
          rcases cut_cons hc with rfl | ⟨s1, e1, hc⟩
          · exact ⟨hi, keeps_refl _⟩
          simp only [exec, ht, Option.some.injEq] at e1
          rw [cut_nil hc]
          subst e1
          refine ⟨?_, fun _ h => h⟩
          constructor <;> grind
        | some dt =>
          simp only [hd] at hc
          cases hcu : s.current with
          | none => grind
          | some c =>
            simp only [hcu] at hc
            cases hdc : s.dirs c with
            | none =>
              simp only [hdc] at hc
              rcases cut_cons hc with rfl | ⟨s1, e1, hc⟩
              · exact ⟨hi, keeps_refl _⟩
              simp only [exec, ht, Option.some.injEq] at e1
              rw [cut_nil hc]
              subst e1
              refine ⟨?_, ?_⟩
              · constructor <;> grind
              · intro m hm
                unfold Stored CompleteIn at *
                grind
            | some dc =>
              simp only [hdc] at hc
              rcases cut_cons hc with rfl | ⟨s1, e1, hc⟩
              · exact ⟨hi, keeps_refl _⟩
              simp only [exec, ht, Option.some.injEq] at e1
              rw [cut_nil hc]
              subst e1
              refine ⟨?_, fun _ h => h⟩
              constructor <;> grind

theorem reach_inv {s : State} (h : Reach s) : LInv s := by
  induction h with
  | start => exact LInv_start
  | job h hj hc hx ih =>
    cases hj with
    | new n h h1 h2 h3 hn => exact (new_inv ih h1 h2 h3 hn hc).1
    | resume n h h1 h2 h3 => exact (resume_inv ih h2 hc).1
    | delete b p q h1 h2 h3 hb hp hq => exact delete_inv ih h1 h2 hb hp hq hc hx
    | recover h del => exact (recover_inv ih hc).1

theorem delete_keeps {s s' : State} {b m : Nat} {p q : Option Nat} (hi : LInv s)
    (h1 : s.finishing = none) (hm : Stored s m) (hmb : m ≠ b) (hc : Cut (deleteBackup b p q) s s') :
    Stored s' m := by
  have hdup : s.dup = none := by
    cases hd : s.dup with
    | none => rfl
    | some d => obtain ⟨-, ⟨n, hn⟩, -⟩ := hi.i8 d hd; simp [h1] at hn
  have hm : CompleteIn s m := by
    rcases hm with h | ⟨-, -, d, hd, -⟩
    · exact h
    · simp [hdup] at hd
  refine Or.inl ?_
  have key : ∀ (ops : List Op) (s1 : State), (∀ o ∈ ops, o = .remove b ∨ o = .unlinkCurrent ∨
      (∃ x, o = .linkTmp x) ∨ o = .tmpToCurrent) → CompleteIn s1 m → Cut ops s1 s' → CompleteIn s' m := by
    intro ops
    induction ops with
    | nil => intro s1 _ h hc; rw [cut_nil hc]; exact h
    | cons o os ih =>
      intro s1 ho h hc
      rcases cut_cons hc with rfl | ⟨s2, e2, hc⟩
      · exact h
      · refine ih s2 (fun o h => ho o (List.mem_cons_of_mem _ h)) ?_ hc
        obtain ⟨d, hd, hc⟩ := h
        refine ⟨d, ?_, hc⟩
        rcases ho o (List.mem_cons_self ..) with rfl | rfl | ⟨x, rfl⟩ | rfl
        · simp only [exec] at e2
          unfold upd at e2
          grind
        · simp only [exec] at e2
          grind
        · simp only [exec, Option.some.injEq] at e2
          subst e2
          exact hd
        · simp only [exec] at e2
          grind
  refine key _ s ?_ hm hc
  unfold deleteBackup
  intro o ho
  split at ho <;> simp at ho <;> grind

/-- Finishing goes through. -/
theorem finish_run {s : State} {n : Nat} {h : Bool} (hi : LInv s) (hn : s.finishing = some n) :
    ∃ s', run (finish s n h) s = some s' ∧ s'.current = some n ∧ CompleteIn s' n ∧ s'.dup = none := by
  have hi' := hi
  obtain ⟨i1, i2, i3, i4, i5, i6, i7, i8⟩ := hi'
  obtain ⟨-, d, hd, -⟩ := i2 n hn
  unfold finish phase4
  have tail1 : ∀ s1 : State, s1.finishing = some n → s1.dup = none → (∃ d, s1.dirs n = some d) →
      ∃ s', run [.hard n h, .stage n .complete, .finishingToCurrent] s1 = some s' ∧
        s'.current = some n ∧ CompleteIn s' n ∧ s'.dup = none := by
    intro s1 hn1 hd1 ⟨d, hd⟩
    refine ⟨{ s1 with
      finishing := none, current := some n,
      dirs := upd (upd s1.dirs n (some { d with hard := h })) n (some ⟨.complete, h⟩) },
      by simp [run, exec, hd, upd, hn1], rfl, ⟨⟨.complete, h⟩, by simp [upd], rfl⟩, hd1⟩
  have tail2 : ∀ (c : Nat) (s1 : State), s1.finishing = some n → c < n →
      (∃ d, s1.dup = some d) → (∃ d, s1.dirs n = some d) →
      ∃ s', run [.hard n h, .stage n .complete, .moveAside c, .dupBack c, .finishingToCurrent] s1 = some s' ∧
        s'.current = some n ∧ CompleteIn s' n ∧ s'.dup = none := by
    intro c s1 hn1 hcn ⟨d1, hd1⟩ ⟨d, hd⟩
    have : ¬ n = c := by omega
    refine ⟨{ s1 with
      finishing := none, current := some n, dup := none,
      dirs := upd (upd (upd (upd s1.dirs n (some { d with hard := h })) n (some ⟨.complete, h⟩)) c none) c
        (some d1) },
      by simp [run, exec, hd, upd, hn1, hd1], rfl, ⟨⟨.complete, h⟩, by simp [upd, this], rfl⟩, rfl⟩
  cases hcur : s.current with
  | none => exact tail1 s hn (i5 hcur).1 ⟨d, hd⟩
  | some c =>
    have hlt := (i4 n (Or.inr hn)).2 c hcur
    simp only
    by_cases hh : hasHard (s.dirs c) = true
    · rw [if_pos hh]
      refine tail1 s hn ?_ ⟨d, hd⟩
      cases hdd : s.dup with
      | none => rfl
      | some d =>
        obtain ⟨-, -, c', hc', hf⟩ := i8 d hdd
        rw [hcur] at hc'
        cases hc'
        cases hdc : s.dirs c with
        | none => simp [hasHard, hdc] at hh
        | some dc => simp [hasHard, hdc, hf dc hdc] at hh
    · rw [if_neg hh]
      cases hdd : s.dup with
      | some x =>
        simp only [Option.isNone_some, Bool.false_eq_true, if_false, List.nil_append,
          List.cons_append]
        exact tail2 c s hn hlt ⟨x, hdd⟩ ⟨d, hd⟩
      | none =>
        simp only [Option.isNone_none, if_true, List.nil_append, List.cons_append]
        have hdc : ∃ dc, s.dirs c = some dc := by
          cases hdc : s.dirs c with
          | some dc => exact ⟨dc, rfl⟩
          | none => grind
        obtain ⟨dc, hdc⟩ := hdc
        obtain ⟨s', h1, h2⟩ := tail2 c { s with dup := some dc } hn hlt ⟨dc, rfl⟩ ⟨d, hd⟩
        refine ⟨s', ?_, h2⟩
        rw [run]
        simp only [exec, hcur, hdc]
        rw [← h1, hcur]

/-- Every operation of the recovery goes through. -/
theorem recover_run {s : State} {h del : Bool} (hi : LInv s) :
    ∃ s', run (recover s h del) s = some s' ∧ (∀ c, s'.current = some c → ∃ d, s'.dirs c = some d) ∧
      (∀ n, s'.finishing = some n → False) := by
  have hi' := hi
  obtain ⟨i1, i2, i3, i4, i5, i6, i7, i8⟩ := hi'
  unfold recover
  cases hf : s.finishing with
  | some n =>
    obtain ⟨s', h1, h2, h3, h4⟩ := finish_run (h := h) hi hf
    have hk := finish_inv hi hf (run_cut h1)
    refine ⟨s', h1, ?_, ?_⟩
    · intro c hc
      rw [h2] at hc
      cases hc
      obtain ⟨d, hd, -⟩ := h3
      exact ⟨d, hd⟩
    · intro m hm
      have a := (hk.1.i4 m (Or.inr hm)).2 n h2
      obtain ⟨d, hd, -⟩ := h3
      obtain ⟨-, dm, hdm, -⟩ := hk.1.i2 m hm
      -- the last operation removes the link
      unfold finish at h1
      have : ∀ (ops : List Op) (s1 : State), run (ops ++ [.finishingToCurrent]) s1 = some s' →
          s'.finishing = none := by
        intro ops
        induction ops with
        | nil =>
          intro s1 h
          simp only [List.nil_append, run, exec] at h
          grind
        | cons o os ih =>
          intro s1 h
          simp only [List.cons_append, run] at h
          cases he : exec o s1 with
          | none => simp [he] at h
          | some s2 => simp only [he] at h; exact ih s2 h
      have := this _ _ h1
      rw [this] at hm
      simp at hm
  | none =>
    have hdup : s.dup = none := by
      cases hd : s.dup with
      | none => rfl
      | some d => obtain ⟨-, ⟨n, hn⟩, -⟩ := i8 d hd; simp [hf] at hn
    cases hw : s.working with
    | some n =>
      have hcv : ∀ c, s.current = some c → c ≠ n ∧ ∃ d, s.dirs c = some d := by
        intro c hc
        refine ⟨?_, ?_⟩
        · have := (i4 n (Or.inl hw)).2 c hc; omega
        · cases hd : s.dirs c with
          | some d => exact ⟨d, rfl⟩
          | none => grind
      cases hd : s.dirs n with
      | none =>
        refine ⟨{ s with working := none }, by simp [run, exec, hw, hd], fun c hc => (hcv c hc).2, ?_⟩
        simp [hf]
      | some d =>
        simp only [hd]
        split
        · refine ⟨{ s with
            working := none,
            dirs := upd (upd s.dirs n (some { d with stage := .created })) n none },
            by simp [workingDelete, run, exec, hd, upd, hw], ?_, by simp [hf]⟩
          intro c hc
          obtain ⟨h1, d, h2⟩ := hcv c hc
          exact ⟨d, by simp [upd, h1, h2]⟩
        · exact ⟨s, rfl, fun c hc => (hcv c hc).2, by simp [hf]⟩
    | none =>
      cases ht : s.currenttmp with
      | none =>
        refine ⟨s, rfl, ?_, by simp [hf]⟩
        intro c hc
        cases hd : s.dirs c with
        | some d => exact ⟨d, rfl⟩
        | none => grind
      | some t =>
        simp only
        unfold recoverCurrenttmp
        cases hd : s.dirs t with
        | none =>
          refine ⟨{ s with currenttmp := none }, by simp [run, exec, ht, hd], ?_, by simp [hf]⟩
          intro c hc
          cases hd : s.dirs c with
          | some d => exact ⟨d, rfl⟩
          | none => grind
        | some dt =>
          cases hcu : s.current with
          | none => grind
          | some c =>
            cases hdc : s.dirs c with
            | none =>
              refine ⟨{ s with currenttmp := none, current := some t }, by simp [run, exec, ht, hd, hdc], ?_,
                by simp [hf]⟩
              intro x hx
              simp only [Option.some.injEq] at hx
              subst hx
              exact ⟨dt, hd⟩
            | some dc =>
              refine ⟨{ s with currenttmp := none }, by simp [run, exec, ht, hcu, hd, hdc], ?_, by simp [hf]⟩
              intro x hx
              simp only [hcu, Option.some.injEq] at hx
              subst hx
              exact ⟨dc, hdc⟩

/-- Without `finishing`, and with `current` pointing to something, it points to the newest. -/
theorem sound_of {s : State} (hi : LInv s) (hc : ∀ c, s.current = some c → ∃ d, s.dirs c = some d)
    (hf : ∀ n, s.finishing = some n → False) : CurrentSound s := by
  obtain ⟨i1, i2, i3, i4, i5, i6, i7, i8⟩ := hi
  rintro ⟨n, d, hd, hdc⟩
  cases hcu : s.current with
  | none =>
    rcases (i5 hcu).2 n d hd with h | h
    · exact absurd hdc (i3 n d h hd)
    · exact absurd h (hf n)
  | some c =>
    obtain ⟨dc, hdc'⟩ := hc c hcu
    refine ⟨c, rfl, ⟨dc, hdc', ?_⟩, ?_⟩
    · rcases Decidable.em (dc.stage = .complete) with h | h
      · exact h
      · rcases i1 c dc hdc' h with h | h
        · have := (i4 c (Or.inl h)).2 c hcu; omega
        · exact absurd h (hf c)
    · rintro m ⟨dm, hm, hmc⟩
      rcases i6 c hcu m dm hm with h | h | h
      · exact h
      · exact absurd hmc (i3 m dm h hm)
      · exact absurd h (hf m)

end Verif
