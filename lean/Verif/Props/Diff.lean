import Verif.Model.Diff
import Verif.Lemmas.Merge

/-!
# C43: the diff of two backups
-/

namespace Verif
open Verif.Manifest Verif.Diff

variable {E : Type}

/-- `l` has an entry of the same path and kind and with the same modification time. -/
def HasTwin (key : E → Cmd × Option Str) (mtime : E → Int) (l : List E) (a : E) : Prop :=
  ∃ b ∈ l, SameKey (key a) (key b) ∧ mtime a = mtime b

instance (key : E → Cmd × Option Str) (mtime : E → Int) (l : List E) (a : E) :
    Decidable (HasTwin key mtime l a) := by unfold HasTwin; infer_instance

/-- The entries reported with a sign, in order. -/
def reported (s : Sign) (out : List (Sign × E)) : List E :=
  out.filterMap (fun p => if p.1 = s then some p.2 else none)

theorem reported_append (s : Sign) (a b : List (Sign × E)) :
    reported s (a ++ b) = reported s a ++ reported s b := by simp [reported]

theorem reported_minus_cons (a : E) (l : List (Sign × E)) :
    reported .minus ((.minus, a) :: l) = a :: reported .minus l ∧
    reported .plus ((.minus, a) :: l) = reported .plus l := by simp [reported]

theorem reported_plus_cons (a : E) (l : List (Sign × E)) :
    reported .plus ((.plus, a) :: l) = a :: reported .plus l ∧
    reported .minus ((.plus, a) :: l) = reported .minus l := by simp [reported]

private theorem filter_congr_twin (key : E → Cmd × Option Str) (mtime : E → Int) {l m m' : List E}
    (h : ∀ x ∈ l, HasTwin key mtime m x ↔ HasTwin key mtime m' x) :
    l.filter (fun x => ¬ HasTwin key mtime m x) = l.filter (fun x => ¬ HasTwin key mtime m' x) := by
  apply List.filter_congr
  intro x hx
  simp only [h x hx]

private theorem twin_cons_of_lt {key : E → Cmd × Option Str} {mtime : E → Int} {b : E} {bs : List E} {x : E}
    (h : EntryLt (key b) (key x) ∨ EntryLt (key x) (key b)) :
    HasTwin key mtime (b :: bs) x ↔ HasTwin key mtime bs x := by
  constructor
  · rintro ⟨y, hy, hk, hm⟩
    rcases List.mem_cons.1 hy with e | hy
    · subst e
      rcases h with h | h
      · exact absurd hk.symm h.not_same
      · exact absurd hk h.not_same
    · exact ⟨y, hy, hk, hm⟩
  · rintro ⟨y, hy, hk, hm⟩
    exact ⟨y, List.mem_cons_of_mem _ hy, hk, hm⟩

/-- C43. For two sorted manifests, the entries reported as deleted are, each once and in order, those of the
first that the second does not have with the same modification time; the entries reported as added are,
each once and in order, those of the second that the first does not have with the same modification time.
(See `C05_entry_order_violated` for the condition `NoClash`.) -/
theorem C43_exact (key : E → Cmd × Option Str) (mtime : E → Int) (l1 l2 : List E)
    (h1 : SortedBy key l1) (h2 : SortedBy key l2) (hn : NoClash key (l1 ++ l2)) :
    reported .minus (diffManifests key mtime l1 l2) = l1.filter (fun a => ¬ HasTwin key mtime l2 a) ∧
    reported .plus (diffManifests key mtime l1 l2) = l2.filter (fun b => ¬ HasTwin key mtime l1 b) := by
  induction l1, l2 using diffManifests.induct (key := key) with
  | case1 => simp [diffManifests, reported]
  | case2 a as ih =>
    have := ih (List.Pairwise.of_cons h1) h2 (hn.sub (by simp; intro x hx; exact Or.inr hx))
    rw [diffManifests, (reported_minus_cons _ _).1, (reported_minus_cons _ _).2, this.1, this.2]
    simp [HasTwin]
  | case3 b bs ih =>
    have := ih h1 (List.Pairwise.of_cons h2) (hn.sub (by simp; intro x hx; exact Or.inr hx))
    rw [diffManifests, (reported_plus_cons _ _).1, (reported_plus_cons _ _).2, this.1, this.2]
    simp [HasTwin]
  | case4 a as b bs h ih =>
    have hk : SameKey (key a) (key b) := iobufPathcmp_zero.1 h
    have ha := List.pairwise_cons.1 h1
    have hb := List.pairwise_cons.1 h2
    have := ih ha.2 hb.2 (hn.sub (by
      simp only [List.mem_append, List.mem_cons]; rintro x (hx | hx) <;> simp [hx]))
    rw [diffManifests, if_pos h, reported_append, reported_append, this.1, this.2]
    have e1 : ∀ x ∈ as, HasTwin key mtime (b :: bs) x ↔ HasTwin key mtime bs x := fun x hx =>
      twin_cons_of_lt (Or.inl ((ha.1 x hx).same_left hk))
    have e2 : ∀ x ∈ bs, HasTwin key mtime (a :: as) x ↔ HasTwin key mtime as x := fun x hx =>
      twin_cons_of_lt (Or.inl ((hb.1 x hx).same_left hk.symm))
    rw [List.filter_cons, List.filter_cons, filter_congr_twin key mtime e1, filter_congr_twin key mtime e2]
    by_cases hm : mtime a = mtime b
    · have t1 : HasTwin key mtime (b :: bs) a := ⟨b, by simp, hk, hm⟩
      have t2 : HasTwin key mtime (a :: as) b := ⟨a, by simp, hk.symm, hm.symm⟩
      simp [hm, t1, t2, reported]
    · have t1 : ¬ HasTwin key mtime (b :: bs) a := by
        rintro ⟨y, hy, hs, hm'⟩
        rcases List.mem_cons.1 hy with e | hy
        · exact hm (e ▸ hm')
        · exact (hb.1 y hy).not_same (hk.symm.trans hs)
      have t2 : ¬ HasTwin key mtime (a :: as) b := by
        rintro ⟨y, hy, hs, hm'⟩
        rcases List.mem_cons.1 hy with e | hy
        · exact hm (e ▸ hm'.symm)
        · exact (ha.1 y hy).not_same (hk.trans hs)
      simp [hm, t1, t2, reported]
  | case5 a as b bs h hlt ih =>
    have hc := hn a (by simp) b (by simp)
    have hl : EntryLt (key a) (key b) := (iobufPathcmp_lt hc).1 hlt
    have ha := List.pairwise_cons.1 h1
    have hb := List.pairwise_cons.1 h2
    have := ih ha.2 h2 (hn.sub (by
      simp only [List.mem_append, List.mem_cons]; rintro x (hx | hx | hx) <;> simp [hx]))
    rw [diffManifests, if_neg h, if_pos hlt, (reported_minus_cons _ _).1, (reported_minus_cons _ _).2,
      this.1, this.2]
    have e2 : ∀ x ∈ b :: bs, HasTwin key mtime (a :: as) x ↔ HasTwin key mtime as x := by
      intro x hx
      refine twin_cons_of_lt (Or.inl ?_)
      rcases List.mem_cons.1 hx with e | hx
      · exact e ▸ hl
      · exact hl.trans (hb.1 x hx)
    have t1 : ¬ HasTwin key mtime (b :: bs) a := by
      rintro ⟨y, hy, hs, _⟩
      rcases List.mem_cons.1 hy with e | hy
      · exact hl.not_same (e ▸ hs)
      · exact (hl.trans (hb.1 y hy)).not_same hs
    refine ⟨?_, (filter_congr_twin key mtime e2).symm⟩
    rw [List.filter_cons]; simp [t1]
  | case6 a as b bs h hlt ih =>
    have hc := hn a (by simp) b (by simp)
    have hl : EntryLt (key b) (key a) := by
      rcases pcmp_cases key hc with g | g | g
      · exact absurd g.1 h
      · exact absurd g.1 hlt
      · exact g.2
    have ha := List.pairwise_cons.1 h1
    have hb := List.pairwise_cons.1 h2
    have := ih h1 hb.2 (hn.sub (by
      simp only [List.mem_append, List.mem_cons]; rintro x ((hx | hx) | hx) <;> simp [hx]))
    rw [diffManifests, if_neg h, if_neg hlt, (reported_plus_cons _ _).1, (reported_plus_cons _ _).2,
      this.1, this.2]
    have e1 : ∀ x ∈ a :: as, HasTwin key mtime (b :: bs) x ↔ HasTwin key mtime bs x := by
      intro x hx
      refine twin_cons_of_lt (Or.inl ?_)
      rcases List.mem_cons.1 hx with e | hx
      · exact e ▸ hl
      · exact hl.trans (ha.1 x hx)
    have t2 : ¬ HasTwin key mtime (a :: as) b := by
      rintro ⟨y, hy, hs, _⟩
      rcases List.mem_cons.1 hy with e | hy
      · exact hl.not_same (e ▸ hs)
      · exact (hl.trans (ha.1 y hy)).not_same hs
    refine ⟨(filter_congr_twin key mtime e1).symm, ?_⟩
    rw [List.filter_cons]; simp [t2]

/-- C43. Nothing is reported for two backups with the same entries, however they came about. -/
theorem C43_same (key : E → Cmd × Option Str) (mtime : E → Int) (l : List E) :
    diffManifests key mtime l l = [] := by
  induction l with
  | nil => simp [diffManifests]
  | cons a as ih =>
    have h : pcmp key a a = 0 := iobufPathcmp_zero.2 ⟨rfl, rfl⟩
    rw [diffManifests, if_pos h, ih]; simp

/-- C43. The deletion of a changed entry is reported directly before its addition, and otherwise the report is
in the order of the manifests: what comes later in the report is not before what comes earlier. -/
theorem C43_ordered (key : E → Cmd × Option Str) (mtime : E → Int) (l1 l2 : List E)
    (h1 : SortedBy key l1) (h2 : SortedBy key l2) (hn : NoClash key (l1 ++ l2)) :
    (diffManifests key mtime l1 l2).Pairwise (fun p q => EntryLt (key p.2) (key q.2) ∨
      (p.1 = .minus ∧ q.1 = .plus ∧ SameKey (key p.2) (key q.2) ∧ mtime p.2 ≠ mtime q.2)) ∧
    ∀ p ∈ diffManifests key mtime l1 l2, p.2 ∈ (match p.1 with | .minus => l1 | .plus => l2) := by
  induction l1, l2 using diffManifests.induct (key := key) with
  | case1 => simp [diffManifests]
  | case2 a as ih =>
    have ha := List.pairwise_cons.1 h1
    have := ih ha.2 h2 (hn.sub (by simp; intro x hx; exact Or.inr hx))
    rw [diffManifests]
    refine ⟨List.pairwise_cons.2 ⟨fun q hq => ?_, this.1⟩, fun q hq => ?_⟩
    · have := this.2 q hq
      revert this
      rcases q with ⟨s, q⟩
      cases s
      · exact fun h => Or.inl (ha.1 q h)
      · simp
    · rcases List.mem_cons.1 hq with e | hq
      · subst e; simp
      · have := this.2 q hq
        revert this
        rcases q with ⟨s, q⟩
        cases s
        · exact fun h => List.mem_cons_of_mem _ h
        · simp
  | case3 b bs ih =>
    have hb := List.pairwise_cons.1 h2
    have := ih h1 hb.2 (hn.sub (by simp; intro x hx; exact Or.inr hx))
    rw [diffManifests]
    refine ⟨List.pairwise_cons.2 ⟨fun q hq => ?_, this.1⟩, fun q hq => ?_⟩
    · have := this.2 q hq
      revert this
      rcases q with ⟨s, q⟩
      cases s
      · simp
      · exact fun h => Or.inl (hb.1 q h)
    · rcases List.mem_cons.1 hq with e | hq
      · subst e; simp
      · have := this.2 q hq
        revert this
        rcases q with ⟨s, q⟩
        cases s
        · simp
        · exact fun h => List.mem_cons_of_mem _ h
  | case4 a as b bs h ih =>
    have hk : SameKey (key a) (key b) := iobufPathcmp_zero.1 h
    have ha := List.pairwise_cons.1 h1
    have hb := List.pairwise_cons.1 h2
    have := ih ha.2 hb.2 (hn.sub (by
      simp only [List.mem_append, List.mem_cons]; rintro x (hx | hx) <;> simp [hx]))
    have hlt : ∀ q ∈ diffManifests key mtime as bs, EntryLt (key a) (key q.2) := by
      intro q hq
      have := this.2 q hq
      revert this
      rcases q with ⟨s, q⟩
      cases s
      · exact fun h => ha.1 q h
      · exact fun h => (hb.1 q h).same_left hk.symm
    rw [diffManifests, if_pos h]
    refine ⟨List.pairwise_append.2 ⟨?_, this.1, ?_⟩, fun q hq => ?_⟩
    · by_cases hm : mtime a = mtime b
      · simp [hm]
      · simp [hm, hk]
    · intro p hp q hq
      refine Or.inl ?_
      by_cases hm : mtime a = mtime b
      · simp [hm] at hp
      · simp only [hm, ne_eq, not_false_eq_true, if_true, List.mem_cons, List.not_mem_nil, or_false] at hp
        rcases hp with e | e
        · subst e; exact hlt q hq
        · subst e; exact (hlt q hq).same_left hk
    · rcases List.mem_append.1 hq with hq | hq
      · by_cases hm : mtime a = mtime b
        · simp [hm] at hq
        · simp only [hm, ne_eq, not_false_eq_true, if_true, List.mem_cons, List.not_mem_nil, or_false] at hq
          rcases hq with e | e <;> (subst e; simp)
      · have := this.2 q hq
        revert this
        rcases q with ⟨s, q⟩
        cases s <;> exact fun h => List.mem_cons_of_mem _ h
  | case5 a as b bs h hlt ih =>
    have hc := hn a (by simp) b (by simp)
    have hl : EntryLt (key a) (key b) := (iobufPathcmp_lt hc).1 hlt
    have ha := List.pairwise_cons.1 h1
    have hb := List.pairwise_cons.1 h2
    have := ih ha.2 h2 (hn.sub (by
      simp only [List.mem_append, List.mem_cons]; rintro x (hx | hx | hx) <;> simp [hx]))
    rw [diffManifests, if_neg h, if_pos hlt]
    refine ⟨List.pairwise_cons.2 ⟨fun q hq => ?_, this.1⟩, fun q hq => ?_⟩
    · have := this.2 q hq
      revert this
      rcases q with ⟨s, q⟩
      cases s
      · exact fun h => Or.inl (ha.1 q h)
      · intro h
        rcases List.mem_cons.1 h with e | h
        · exact Or.inl (by rw [show q = b from e]; exact hl)
        · exact Or.inl (hl.trans (hb.1 q h))
    · rcases List.mem_cons.1 hq with e | hq
      · subst e; simp
      · have := this.2 q hq
        revert this
        rcases q with ⟨s, q⟩
        cases s
        · exact fun h => List.mem_cons_of_mem _ h
        · exact fun h => h
  | case6 a as b bs h hlt ih =>
    have hc := hn a (by simp) b (by simp)
    have hl : EntryLt (key b) (key a) := by
      rcases pcmp_cases key hc with g | g | g
      · exact absurd g.1 h
      · exact absurd g.1 hlt
      · exact g.2
    have ha := List.pairwise_cons.1 h1
    have hb := List.pairwise_cons.1 h2
    have := ih h1 hb.2 (hn.sub (by
      simp only [List.mem_append, List.mem_cons]; rintro x ((hx | hx) | hx) <;> simp [hx]))
    rw [diffManifests, if_neg h, if_neg hlt]
    refine ⟨List.pairwise_cons.2 ⟨fun q hq => ?_, this.1⟩, fun q hq => ?_⟩
    · have := this.2 q hq
      revert this
      rcases q with ⟨s, q⟩
      cases s
      · intro h
        rcases List.mem_cons.1 h with e | h
        · exact Or.inl (by rw [show q = a from e]; exact hl)
        · exact Or.inl (hl.trans (ha.1 q h))
      · exact fun h => Or.inl (hb.1 q h)
    · rcases List.mem_cons.1 hq with e | hq
      · subst e; simp
      · have := this.2 q hq
        revert this
        rcases q with ⟨s, q⟩
        cases s
        · exact fun h => h
        · exact fun h => List.mem_cons_of_mem _ h

/-- C43. The comparison runs only if two different backups were named, and then on the backups with these
numbers, in the order they were named. -/
theorem C43_backups {B : Type} (bno : B → Nat) (bus : List B) (s1 s2 : Option Str) (b1 b2 : B)
    (h : chooseBackups bno bus s1 s2 = .go b1 b2) :
    b1 ∈ bus ∧ b2 ∈ bus ∧ bno b1 = BackupNumber.strtoul (s1.getD []) ∧
    bno b2 = BackupNumber.strtoul (s2.getD []) ∧ bno b1 ≠ bno b2 ∧ 0 < bno b1 ∧ 0 < bno b2 := by
  unfold chooseBackups at h
  simp only at h
  split at h
  · cases h
  · rename_i hz
    split at h
    · rename_i x y hx hy
      cases h
      have e1 := List.find?_some hx
      have e2 := List.find?_some hy
      simp only [beq_iff_eq] at e1 e2
      refine ⟨List.mem_of_find?_eq_some hx, List.mem_of_find?_eq_some hy, e1, e2, ?_, ?_, ?_⟩ <;> omega
    · cases h

/-- C43. If both numbers are those of backups, and they differ, the comparison runs. -/
theorem C43_backups_found {B : Type} (bno : B → Nat) (bus : List B) (s1 s2 : Option Str) (b1 b2 : B)
    (m1 : b1 ∈ bus) (m2 : b2 ∈ bus) (n1 : bno b1 = BackupNumber.strtoul (s1.getD []))
    (n2 : bno b2 = BackupNumber.strtoul (s2.getD [])) (hd : bno b1 ≠ bno b2) (p1 : 0 < bno b1)
    (p2 : 0 < bno b2) (hu : ∀ x ∈ bus, ∀ y ∈ bus, bno x = bno y → x = y) :
    chooseBackups bno bus s1 s2 = .go b1 b2 := by
  have find : ∀ b ∈ bus, bus.find? (fun x => bno x == bno b) = some b := by
    intro b hb
    cases hf : bus.find? (fun x => bno x == bno b) with
    | none => exact absurd (List.find?_eq_none.1 hf b hb) (by simp)
    | some x =>
      have e := List.find?_some hf
      simp only [beq_iff_eq] at e
      rw [hu x (List.mem_of_find?_eq_some hf) b hb e]
  unfold chooseBackups
  simp only
  rw [← n1, ← n2, if_neg (by omega), find b1 m1, find b2 m2]

/-- C43. The path of an entry is shown behind the sign, for paths that start with a slash. -/
theorem C43_text_partial (s : Sign) (p : Str) (hp : p ≠ []) :
    diffText s (slash :: p) = (match s with | .minus => bytes "- /" | .plus => bytes "+ /") ++ p := by
  cases p with
  | nil => exact absurd rfl hp
  | cons c cs => cases s <;> rfl

/-- C43. For other paths, such as those from Windows, a slash is shown that is not there; and the two
different paths below are shown alike. -/
theorem C43_text_violated :
    diffText .minus (bytes "C:/a") = bytes "- /C:/a" ∧
    diffText .minus (bytes "/C:/a") = bytes "- /C:/a" := by decide

/-- C43. A file whose modification time is the same is not reported, whatever else has changed: here, a file
that has become a symbolic link. -/
theorem C43_other_changes :
    diffManifests (fun e : Cmd × Str × Int => (e.1, some e.2.1)) (fun e => e.2.2)
      [(.file, bytes "/a", 5)] [(.softLink, bytes "/a", 5)] = [] := by decide +kernel

def exDiff1 : List (Cmd × Str × Int) :=
  [(.directory, bytes "/a", 1), (.file, bytes "/a/b", 2), (.file, bytes "/a/c", 3), (.file, bytes "/b", 4)]
def exDiff2 : List (Cmd × Str × Int) :=
  [(.directory, bytes "/a", 1), (.file, bytes "/a/c", 7), (.file, bytes "/a0", 3), (.file, bytes "/b", 4)]

/-- The conditions of `C43_exact` hold for two backups between which a file vanished, one changed and one
appeared. -/
example : SortedBy (fun e : Cmd × Str × Int => (e.1, some e.2.1)) exDiff1 ∧
    SortedBy (fun e : Cmd × Str × Int => (e.1, some e.2.1)) exDiff2 ∧
    NoClash (fun e : Cmd × Str × Int => (e.1, some e.2.1)) (exDiff1 ++ exDiff2) ∧
    diffManifests (fun e : Cmd × Str × Int => (e.1, some e.2.1)) (fun e => e.2.2) exDiff1 exDiff2 =
      [(.minus, (.file, bytes "/a/b", 2)), (.minus, (.file, bytes "/a/c", 3)),
       (.plus, (.file, bytes "/a/c", 7)), (.plus, (.file, bytes "/a0", 3))] := by decide +kernel

example : chooseBackups id [1, 2, 7] (some (bytes "2")) (some (bytes "7")) = .go 2 7 := by decide
example : chooseBackups id [1, 2, 7] (some (bytes "2")) none = .needTwo := by decide
example : chooseBackups id [1, 2, 7] (some (bytes "2")) (some (bytes "3")) = .notFound := by decide

end Verif
