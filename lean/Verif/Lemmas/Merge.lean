import Verif.Model.Manifest
import Verif.Spec.Merge
import Verif.Props.Manifest
import Verif.Spec.Jiggle

namespace Verif
open Verif.PathCmp Verif.Iobuf Verif.Manifest

theorem EntryLt.trans {a b c : Cmd × Option Str} (h1 : EntryLt a b) (h2 : EntryLt b c) :
    EntryLt a c := by
  obtain ⟨hz, hanti, htr, _, _⟩ := C03_pathcmp_total_order
  unfold EntryLt at *
  rcases h1 with h1 | ⟨e1, g1⟩
  · rcases h2 with h2 | ⟨e2, g2⟩
    · left
      have h := htr a.2 b.2 c.2 (by omega) (by omega)
      by_cases h0 : pathcmpP a.2 c.2 = 0
      · rw [(hz _ _).1 h0, hanti] at h1; omega
      · omega
    · left; rw [← e2]; exact h1
  · rcases h2 with h2 | ⟨e2, g2⟩
    · left; rw [e1]; exact h2
    · right; exact ⟨e1.trans e2, by omega⟩

theorem EntryLt.irrefl {a : Cmd × Option Str} : ¬ EntryLt a a := by
  obtain ⟨hz, _⟩ := C03_pathcmp_total_order
  rintro (h | ⟨_, h⟩)
  · rw [(hz _ _).2 rfl] at h; omega
  · omega

theorem SameKey.symm {a b : Cmd × Option Str} (h : SameKey a b) : SameKey b a :=
  ⟨h.1.symm, h.2.symm⟩

theorem SameKey.trans {a b c : Cmd × Option Str} (h : SameKey a b) (h2 : SameKey b c) :
    SameKey a c := ⟨h.1.trans h2.1, h.2.trans h2.2⟩

theorem EntryLt.same_left {a b c : Cmd × Option Str} (h : SameKey a b) (h2 : EntryLt a c) :
    EntryLt b c := by
  unfold EntryLt at *
  rw [← h.1, ← h.2]; exact h2

theorem EntryLt.same_right {a b c : Cmd × Option Str} (h : SameKey b c) (h2 : EntryLt a b) :
    EntryLt a c := by
  unfold EntryLt at *
  rw [← h.1, ← h.2]; exact h2

theorem EntryLt.not_same {a b : Cmd × Option Str} (h : EntryLt a b) : ¬ SameKey a b :=
  fun hs => EntryLt.irrefl (h.same_left hs)

theorem iobufPathcmp_lt {a b : Cmd × Option Str} (h : ¬ Clash a b) :
    iobufPathcmp a b < 0 ↔ EntryLt a b := by
  obtain ⟨_, _, _, h4, h5⟩ := C05_entry_order_partial
  obtain ⟨hz, _⟩ := C03_pathcmp_total_order
  by_cases he : a.2 = b.2
  · rw [h5 a b he h]
    unfold EntryLt
    rw [(hz a.2 b.2).2 he]
    simp [he]
  · rw [h4 a b he]
    unfold EntryLt
    simp [he]

theorem iobufPathcmp_zero {a b : Cmd × Option Str} : iobufPathcmp a b = 0 ↔ SameKey a b :=
  C05_entry_order_partial.1 a b

theorem Clash.symm {a b : Cmd × Option Str} (h : Clash a b) : Clash b a :=
  ⟨h.1.symm, by rcases h.2 with h | h; exact Or.inr ⟨h.2, h.1⟩; exact Or.inl ⟨h.2, h.1⟩⟩

/-- The three outcomes of a comparison. -/
theorem pcmp_cases {E : Type} (key : E → Cmd × Option Str) {a b : E} (h : ¬ Clash (key a) (key b)) :
    (pcmp key a b = 0 ∧ SameKey (key a) (key b)) ∨
    (pcmp key a b < 0 ∧ EntryLt (key a) (key b)) ∨
    (0 < pcmp key a b ∧ EntryLt (key b) (key a)) := by
  have hanti := C05_entry_order_partial.2.1 (key a) (key b) h
  have h' : ¬ Clash (key b) (key a) := fun hc => h hc.symm
  unfold pcmp
  rcases Int.lt_trichotomy (iobufPathcmp (key a) (key b)) 0 with hlt | heq | hgt
  · exact Or.inr (Or.inl ⟨hlt, (iobufPathcmp_lt h).1 hlt⟩)
  · exact Or.inl ⟨heq, iobufPathcmp_zero.1 heq⟩
  · exact Or.inr (Or.inr ⟨hgt, (iobufPathcmp_lt h').1 (by omega)⟩)

variable {E : Type}

/-! ### Phase 3 -/

theorem phase3_perm (key : E → Cmd × Option Str) (us cs : List E) :
    (phase3 key us cs).Perm (us ++ cs) := by
  induction us, cs using phase3.induct (key := key) with
  | case1 cs => simp [phase3]
  | case2 us h => cases us <;> simp [phase3]
  | case3 u us c cs h ih =>
    rw [phase3, if_pos h]
    exact (List.Perm.cons c ih).trans (by
      simpa using (List.perm_middle (l₁ := u :: us) (a := c) (l₂ := cs)).symm)
  | case4 u us c cs h h2 ih =>
    rw [phase3, if_neg h, if_pos h2]
    exact List.Perm.cons u ih
  | case5 u us c cs h h2 ih =>
    rw [phase3, if_neg h, if_neg h2]
    exact (List.Perm.cons c ih).trans (by
      simpa using (List.perm_middle (l₁ := u :: us) (a := c) (l₂ := cs)).symm)

theorem phase3_mem {key : E → Cmd × Option Str} {us cs : List E} {x : E} :
    x ∈ phase3 key us cs ↔ x ∈ us ∨ x ∈ cs := by
  rw [(phase3_perm key us cs).mem_iff, List.mem_append]

theorem NoClash.sub {key : E → Cmd × Option Str} {l l' : List E} (h : NoClash key l)
    (hs : ∀ x ∈ l', x ∈ l) : NoClash key l' :=
  fun a ha b hb => h a (hs a ha) b (hs b hb)

/-- A relation that holds along both lists and between them as far as the merge decides. -/
theorem phase3_pairwise (key : E → Cmd × Option Str) (R : E → E → Prop) (us cs : List E)
    (hu : us.Pairwise R) (hc : cs.Pairwise R) (hn : NoClash key (us ++ cs))
    (h1 : ∀ u ∈ us, ∀ c ∈ cs, EntryLt (key u) (key c) → R u c)
    (h2 : ∀ u ∈ us, ∀ c ∈ cs, (EntryLt (key c) (key u) ∨ SameKey (key u) (key c)) → R c u)
    (su : WeaklySortedBy key us) (sc : WeaklySortedBy key cs) :
    (phase3 key us cs).Pairwise R := by
  induction us, cs using phase3.induct (key := key) with
  | case1 cs => simpa [phase3] using hc
  | case2 us h =>
    cases us with
    | nil => simp [phase3]
    | cons u us => simpa [phase3] using hu
  | case3 u us c cs h ih =>
    have hcl := hn u (by simp) c (by simp)
    have hsame : SameKey (key u) (key c) := iobufPathcmp_zero.1 h
    rw [phase3, if_pos h, List.pairwise_cons]
    rw [List.pairwise_cons] at hc
    unfold WeaklySortedBy at sc su
    rw [List.pairwise_cons] at sc
    refine ⟨?_, ih hu hc.2 (hn.sub (by simp; grind)) (fun u hu c hc => h1 u hu c (by simp [hc]))
      (fun u hu c hc => h2 u hu c (by simp [hc])) su sc.2⟩
    intro x hx
    rcases phase3_mem.1 hx with hx | hx
    · refine h2 x hx c (by simp) ?_
      rw [List.pairwise_cons] at su
      rcases List.mem_cons.1 hx with rfl | hx
      · exact Or.inr hsame
      · rcases su.1 x hx with hl | hs
        · exact Or.inl (hl.same_left hsame)
        · exact Or.inr (hs.symm.trans hsame)
    · exact hc.1 x hx
  | case4 u us c cs h h' ih =>
    have hcl := hn u (by simp) c (by simp)
    have hlt : EntryLt (key u) (key c) := (iobufPathcmp_lt hcl).1 h'
    rw [phase3, if_neg h, if_pos h', List.pairwise_cons]
    rw [List.pairwise_cons] at hu
    unfold WeaklySortedBy at sc su
    rw [List.pairwise_cons] at su
    refine ⟨?_, ih hu.2 hc (hn.sub (by simp; grind)) (fun u hu c hc => h1 u (by simp [hu]) c hc)
      (fun u hu c hc => h2 u (by simp [hu]) c hc) su.2 sc⟩
    intro x hx
    rcases phase3_mem.1 hx with hx | hx
    · exact hu.1 x hx
    · refine h1 u (by simp) x hx ?_
      rw [List.pairwise_cons] at sc
      rcases List.mem_cons.1 hx with rfl | hx
      · exact hlt
      · rcases sc.1 x hx with hl | hs
        · exact hlt.trans hl
        · exact hlt.same_right hs
  | case5 u us c cs h h' ih =>
    have hcl := hn u (by simp) c (by simp)
    have hlt : EntryLt (key c) (key u) := by
      rcases pcmp_cases key hcl with ⟨h3, _⟩ | ⟨h3, _⟩ | ⟨_, h3⟩
      · exact absurd h3 h
      · exact absurd h3 h'
      · exact h3
    rw [phase3, if_neg h, if_neg h', List.pairwise_cons]
    rw [List.pairwise_cons] at hc
    unfold WeaklySortedBy at sc su
    rw [List.pairwise_cons] at sc
    refine ⟨?_, ih hu hc.2 (hn.sub (by simp; grind)) (fun u hu c hc => h1 u hu c (by simp [hc]))
      (fun u hu c hc => h2 u hu c (by simp [hc])) su sc.2⟩
    intro x hx
    rcases phase3_mem.1 hx with hx | hx
    · refine h2 x hx c (by simp) (Or.inl ?_)
      rw [List.pairwise_cons] at su
      rcases List.mem_cons.1 hx with rfl | hx
      · exact hlt
      · rcases su.1 x hx with hl | hs
        · exact hlt.trans hl
        · exact hlt.same_right hs
    · exact hc.1 x hx

/-! ### Deletions -/

open Classical in
theorem performDeletions_eq (key : E → Cmd × Option Str) (all : List E) (hcl : Closed key all) :
    ∀ (ms ds done : List E), SortedBy key ms → NoClash key (ms ++ all) → all = done ++ ds →
      (∀ d ∈ done, ∀ m ∈ ms, EntryLt (key d) (key m)) →
      performDeletions key ms ds =
        ms.filter (fun m => decide (¬ ∃ d ∈ all, SameKey (key m) (key d))) := by
  intro ms ds
  induction ms, ds using performDeletions.induct (key := key) with
  | case1 ds => intro done _ _ _ _; simp [performDeletions]
  | case2 ms h =>
    intro done hs hn ha hd
    have e : performDeletions key ms [] = ms := by cases ms <;> simp [performDeletions]
    rw [e, List.filter_eq_self.2]
    intro m hm
    simp only [List.append_nil] at ha
    simp only [decide_eq_true_eq, ha]
    rintro ⟨d, hdm, hsame⟩
    exact (hd d hdm m hm).not_same hsame.symm
  | case3 m ms d ds h ih =>
    intro done hs hn ha hd
    have hsame : SameKey (key m) (key d) := iobufPathcmp_zero.1 h
    unfold SortedBy at hs
    rw [List.pairwise_cons] at hs
    rw [performDeletions, if_pos h]
    have hin : d ∈ all := by rw [ha]; simp
    rw [List.filter_cons_of_neg (by simp only [decide_eq_true_eq, not_not]; exact ⟨d, hin, hsame⟩)]
    refine ih (done ++ [d]) hs.2 (hn.sub ?_) (by rw [ha]; simp) ?_
    · intro x hx
      simp only [List.mem_append, List.mem_cons] at hx ⊢
      grind
    · intro x hx y hy
      rcases List.mem_append.1 hx with hx | hx
      · exact hd x hx y (List.mem_cons_of_mem _ hy)
      · rw [List.mem_singleton.1 hx]
        exact (hs.1 y hy).same_left hsame
  | case4 m ms d ds h h' ih =>
    intro done hs hn ha hd
    have hin : d ∈ all := by rw [ha]; simp
    have hlt : EntryLt (key m) (key d) :=
      (iobufPathcmp_lt (hn m (by simp) d (by simp [hin]))).1 h'
    unfold SortedBy at hs
    rw [List.pairwise_cons] at hs
    rw [performDeletions, if_neg h, if_pos h']
    have hnot : ¬ ∃ d ∈ all, SameKey (key m) (key d) := by
      rintro ⟨x, hx, hsx⟩
      obtain ⟨y, hy, hsy⟩ := hcl done d ds ha x hx (hlt.same_left hsx)
      exact (hd y hy m (by simp)).not_same (hsy.trans hsx.symm)
    rw [List.filter_cons_of_pos (by simp only [decide_eq_true_eq]; exact hnot)]
    rw [ih done hs.2 (hn.sub ?_) ha (fun d hd' m hm => hd d hd' m (List.mem_cons_of_mem _ hm))]
    intro x hx
    simp only [List.mem_append, List.mem_cons] at hx ⊢
    grind
  | case5 m ms d ds h h' ih =>
    intro done hs hn ha hd
    have hin : d ∈ all := by rw [ha]; simp
    have hlt : EntryLt (key d) (key m) := by
      rcases pcmp_cases key (hn m (by simp) d (by simp [hin])) with ⟨h3, _⟩ | ⟨h3, _⟩ | ⟨_, h3⟩
      · exact absurd h3 h
      · exact absurd h3 h'
      · exact h3
    rw [performDeletions, if_neg h, if_neg h']
    refine ih (done ++ [d]) hs hn (by rw [ha]; simp) ?_
    intro x hx y hy
    rcases List.mem_append.1 hx with hx | hx
    · exact hd x hx y hy
    · rw [List.mem_singleton.1 hx]
      unfold SortedBy at hs
      rw [List.pairwise_cons] at hs
      rcases List.mem_cons.1 hy with rfl | hy
      · exact hlt
      · exact hlt.trans (hs.1 y hy)

/-- What interrupted runs leave in the deletions file is such that all smaller failures come first. -/
theorem closed_logged {key : E → Cmd × Option Str} {F : List E} (hF : SortedBy key F) {l : List E}
    (h : Logged F l) : Closed key l ∧ (∀ x ∈ l, x ∈ F) := by
  suffices hs : (∀ p d q, l = p ++ d :: q → ∀ x ∈ F, EntryLt (key x) (key d) → x ∈ p) ∧
      (∀ x ∈ l, x ∈ F) from
    ⟨fun p d q e x hx hlt => ⟨x, hs.1 p d q e x (hs.2 x hx) hlt, rfl, rfl⟩, hs.2⟩
  induction h with
  | nil => exact ⟨by intro p d q e; simp at e, by simp⟩
  | @more l p' h hp ih =>
    refine ⟨?_, ?_⟩
    · intro p d q e x hx hlt
      rcases List.append_eq_append_iff.1 e with ⟨a, e1, e2⟩ | ⟨c, e1, e2⟩
      · -- d is in the new part
        rw [e1]
        obtain ⟨r, hr⟩ := hp
        rw [e2] at hr
        unfold SortedBy at hF
        rw [← hr] at hx hF
        simp only [List.append_assoc, List.cons_append] at hx hF
        rcases List.mem_append.1 hx with hx | hx
        · exact List.mem_append_right _ hx
        · exfalso
          rw [List.pairwise_append] at hF
          have h2 := hF.2.1
          rw [List.pairwise_cons] at h2
          rcases List.mem_cons.1 hx with rfl | hx
          · exact EntryLt.irrefl hlt
          · exact EntryLt.irrefl (hlt.trans (h2.1 x hx))
      · cases c with
        | nil =>
          simp only [List.append_nil] at e1
          simp only [List.nil_append] at e2
          obtain ⟨r, hr⟩ := hp
          rw [← e2] at hr
          unfold SortedBy at hF
          rw [← hr] at hx hF
          simp only [List.cons_append] at hx hF
          rw [List.pairwise_cons] at hF
          exfalso
          rcases List.mem_cons.1 hx with rfl | hx
          · exact EntryLt.irrefl hlt
          · exact EntryLt.irrefl (hlt.trans (hF.1 x hx))
        | cons y c =>
          simp only [List.cons_append, List.cons.injEq] at e2
          obtain ⟨rfl, rfl⟩ := e2
          exact ih.1 p d c e1 x hx hlt
    · intro x hx
      rcases List.mem_append.1 hx with hx | hx
      · exact ih.2 x hx
      · exact hp.subset hx

end Verif
