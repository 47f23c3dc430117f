import Verif.Spec.Retention
import Verif.Lemmas.ListExtra

/-! # Lemmas about the retention policy -/

namespace Verif
open Verif.Retention

namespace Retention

theorem mark_map_bu (tr : Nat) (d : Bool) (l : List Bu) : (mark tr d l).map Ent.bu = l := by
  induction l generalizing d with
  | nil => rfl
  | cons b bs ih => simp [mark, ih]

theorem setup_map_bu (l : List Bu) : (setupIndices l).map Ent.bu = l := mark_map_bu _ _ _

theorem mark_trbno {tr : Nat} {d : Bool} {l : List Bu} {e : Ent} (h : e ∈ mark tr d l)
    (ht : tr ≠ 0) : e.trbno = tr - e.bu.bno + 1 := by
  induction l generalizing d with
  | nil => simp [mark] at h
  | cons b bs ih =>
    simp only [mark, List.mem_cons] at h
    rcases h with h | h
    · subst h; simp [ht]
    · exact ih h

theorem mark_deletable {tr : Nat} {d : Bool} {l : List Bu} {e : Ent} (h : e ∈ mark tr d l)
    (hd : e.deletable = true) :
    ∃ older newer, l = older ++ e.bu :: newer ∧
      ((older = [] ∧ d = true) ∨ ∃ h, older.getLast? = some h ∧ h.hard = true) := by
  induction l generalizing d with
  | nil => simp [mark] at h
  | cons b bs ih =>
    simp only [mark, List.mem_cons] at h
    rcases h with h | h
    · subst h
      exact ⟨[], bs, rfl, .inl ⟨rfl, hd⟩⟩
    · obtain ⟨older, newer, h1, h2⟩ := ih h
      refine ⟨b :: older, newer, by simp [h1], .inr ?_⟩
      rcases h2 with ⟨h2, h3⟩ | ⟨x, h2, h3⟩
      · subst h2; exact ⟨b, by simp, h3⟩
      · exact ⟨x, by
          cases older with
          | nil => simp at h2
          | cons y ys => simpa [List.getLast?_cons_cons] using h2, h3⟩

theorem setup_deletable {l : List Bu} {e : Ent} (h : e ∈ setupIndices l)
    (hd : e.deletable = true) : Deletable l e.bu := by
  obtain ⟨o, n, h1, h2⟩ := mark_deletable h hd
  exact ⟨o, n, h1, h2.imp And.left id⟩

theorem lastBno_of {l : List Bu} {n : Bu} (h : l.getLast? = some n) : lastBno l = n.bno := by
  simp [lastBno, h]

theorem listed_le_last {l : List Bu} (h : Listed l) {n b : Bu} (hn : l.getLast? = some n)
    (hb : b ∈ l) : b.bno ≤ n.bno := by
  obtain ⟨pre, rfl⟩ : ∃ pre, l = pre ++ [n] := by
    have := List.getLast?_eq_some_iff.1 hn
    exact this
  have hp := h.1
  rw [List.pairwise_append] at hp
  rcases List.mem_append.1 hb with hb | hb
  · exact Nat.le_of_lt (hp.2.2 b hb n (by simp))
  · simp at hb; subst hb; exact Nat.le_refl _

theorem setup_trbno {l : List Bu} (h : Listed l) {n : Bu} (hn : l.getLast? = some n) {e : Ent}
    (he : e ∈ setupIndices l) : e.trbno = age n e.bu := by
  have hpos : 0 < n.bno := h.2 n (List.mem_of_getLast? hn)
  have := mark_trbno (tr := lastBno l) he (by rw [lastBno_of hn]; omega)
  rw [this, lastBno_of hn]; rfl

theorem mem_setup_bu {l : List Bu} {e : Ent} (he : e ∈ setupIndices l) : e.bu ∈ l := by
  have : e.bu ∈ (setupIndices l).map Ent.bu := List.mem_map_of_mem he
  rwa [setup_map_bu] at this

theorem exists_setup {l : List Bu} {b : Bu} (hb : b ∈ l) : ∃ e ∈ setupIndices l, e.bu = b := by
  rw [← setup_map_bu l] at hb
  simpa using hb

/-! ### Listed lists -/

theorem listed_nodup {l : List Bu} (h : Listed l) : l.Nodup := by
  have := h.1
  apply List.Pairwise.imp _ this
  intro a b hab hc; subst hc; omega

theorem listed_inj {l : List Bu} (h : Listed l) {a b : Bu} (ha : a ∈ l) (hb : b ∈ l)
    (he : a.bno = b.bno) : a = b := by
  have hp := h.1
  induction l with
  | nil => simp at ha
  | cons x xs ih =>
    rw [List.pairwise_cons] at hp
    simp only [List.mem_cons] at ha hb
    rcases ha with rfl | ha <;> rcases hb with rfl | hb
    · rfl
    · have := hp.1 b hb; omega
    · have := hp.1 a ha; omega
    · exact ih ⟨hp.2, fun b hb => h.2 b (by simp [hb])⟩ ha hb hp.2

theorem listed_sublist {l l' : List Bu} (h : Listed l) (hs : l'.Sublist l) : Listed l' :=
  ⟨h.1.sublist hs, fun b hb => h.2 b (hs.subset hb)⟩

theorem listed_without {l : List Bu} (h : Listed l) (g : List Nat) : Listed (without l g) :=
  listed_sublist h List.filter_sublist

theorem mem_without {l : List Bu} {g : List Nat} {b : Bu} :
    b ∈ without l g ↔ b ∈ l ∧ b.bno ∉ g := by
  simp [without, List.mem_filter]

theorem without_without (l : List Bu) (g g' : List Nat) :
    without (without l g) g' = without l (g ++ g') := by
  unfold without
  rw [List.filter_filter]
  congr 1
  funext b
  simp [Bool.and_comm]

theorem without_nil (l : List Bu) : without l [] = l := by
  unfold without; simp

theorem getLast_without {l : List Bu} {n : Bu} {g : List Nat} (hn : l.getLast? = some n)
    (hg : n.bno ∉ g) : (without l g).getLast? = some n := by
  obtain ⟨pre, rfl⟩ := List.getLast?_eq_some_iff.1 hn
  unfold without
  rw [List.filter_append]
  simp [hg]

/-! ### Ranges -/

theorem rangesFuel_eq {rmin : Nat} (hpos : 0 < rmin) (r : Nat) : ∀ f f', r ≤ f → r ≤ f' →
    rangesFuel rmin f r = rangesFuel rmin f' r := by
  induction r using Nat.strongRecOn with
  | ind r ih =>
    intro f f' h1 h2
    cases f with
    | zero =>
      cases f' with
      | zero => rfl
      | succ f' => simp only [rangesFuel]; rw [if_neg (by omega)]
    | succ f =>
      cases f' with
      | zero => simp only [rangesFuel]; rw [if_neg (by omega)]
      | succ f' =>
        simp only [rangesFuel]
        split
        · rw [ih (r - rmin) (by omega) f f' (by omega) (by omega)]
        · rfl

theorem ranges_unfold {rmin : Nat} (hpos : 0 < rmin) (r : Nat) :
    ranges rmin r = if rmin < r then r :: ranges rmin (r - rmin) else [] := by
  unfold ranges
  cases r with
  | zero => simp [rangesFuel]
  | succ r =>
    rw [rangesFuel]
    split
    · rw [rangesFuel_eq hpos (r + 1 - rmin) r (r + 1 - rmin) (by omega) (by omega)]
    · rfl

theorem mem_ranges {rmin j r : Nat} (hpos : 0 < rmin) :
    r ∈ ranges rmin (rmin * j) ↔ ∃ i, 1 ≤ i ∧ i < j ∧ r = (i + 1) * rmin := by
  induction j with
  | zero => rw [ranges_unfold hpos]; simp
  | succ j ih =>
    rw [ranges_unfold hpos]
    by_cases hj : j = 0
    · subst hj
      rw [if_neg (by omega)]
      constructor
      · intro h; simp at h
      · rintro ⟨i, h1, h2, _⟩; omega
    · have hlt : rmin < rmin * (j + 1) := by
        have : rmin * 2 ≤ rmin * (j + 1) := Nat.mul_le_mul_left _ (by omega)
        omega
      rw [if_pos hlt]
      have e : rmin * (j + 1) - rmin = rmin * j := by rw [Nat.mul_succ]; omega
      rw [e, List.mem_cons, ih]
      constructor
      · rintro (h | ⟨i, h1, h2, h3⟩)
        · exact ⟨j, by omega, by omega, by rw [h, Nat.mul_comm]⟩
        · exact ⟨i, h1, by omega, h3⟩
      · rintro ⟨i, h1, h2, h3⟩
        by_cases hij : i = j
        · left; rw [h3, hij, Nat.mul_comm]
        · right; exact ⟨i, h1, by omega, h3⟩

theorem ranges_pairwise {rmin : Nat} (hpos : 0 < rmin) (j : Nat) :
    (ranges rmin (rmin * j)).Pairwise (fun a b => b ≤ a - rmin) := by
  induction j with
  | zero => rw [ranges_unfold hpos]; simp
  | succ j ih =>
    rw [ranges_unfold hpos]
    split
    · have e : rmin * (j + 1) - rmin = rmin * j := by rw [Nat.mul_succ]; omega
      rw [e, List.pairwise_cons]
      refine ⟨?_, ih⟩
      intro a ha
      obtain ⟨i, h1, h2, h3⟩ := (mem_ranges hpos).1 ha
      rw [e, h3, Nat.mul_comm]
      exact Nat.mul_le_mul_left _ (by omega)
    · simp

/-! ### Thinning one range -/

theorem thin_sublist (s r : Nat) (es : List Ent) (c : Nat) : (thin s r es c).Sublist es := by
  induction es generalizing c with
  | nil => simp [thin]
  | cons e es ih =>
    unfold thin
    split
    · split
      · exact List.Sublist.cons_cons _ (List.nil_sublist _)
      · exact (ih _).cons_cons _
    · exact (ih _).cons _

theorem mem_thin {s r : Nat} {es : List Ent} {c : Nat} {e : Ent} (h : e ∈ thin s r es c) :
    e ∈ es ∧ s < e.trbno ∧ e.trbno < r ∧ e.deletable = true := by
  refine ⟨(thin_sublist s r es c).subset h, ?_⟩
  induction es generalizing c with
  | nil => simp [thin] at h
  | cons x es ih =>
    unfold thin at h
    split at h
    · rename_i hx
      split at h
      · simp at h; subst h; exact hx
      · simp only [List.mem_cons] at h
        rcases h with h | h
        · subst h; exact hx
        · exact ih h
    · exact ih h

theorem thin_length {s r : Nat} {es : List Ent} {c : Nat} (hc : 2 ≤ c) :
    (thin s r es c).length ≤ c - 1 := by
  induction es generalizing c with
  | nil => simp [thin]
  | cons x es ih =>
    unfold thin
    split
    · split
      · simp; omega
      · rename_i h
        simp only [List.length_cons]
        have := ih (c := c - 1) (by omega)
        omega
    · exact ih hc

theorem thin_nil {s r : Nat} {es : List Ent} {c : Nat} (h : thin s r es c = []) :
    ∀ e ∈ es, s < e.trbno → e.trbno < r → e.deletable = false := by
  induction es generalizing c with
  | nil => simp
  | cons x es ih =>
    unfold thin at h
    split at h
    · split at h <;> simp at h
    · rename_i hx
      intro e he h1 h2
      simp only [List.mem_cons] at he
      rcases he with rfl | he
      · cases hd : e.deletable
        · rfl
        · exact absurd ⟨h1, h2, hd⟩ hx
      · exact ih h e he h1 h2

theorem mem_thinRange {rmin r : Nat} {es : List Ent} {e : Ent} (h : e ∈ thinRange rmin r es) :
    e ∈ es ∧ r - rmin < e.trbno ∧ e.trbno < r ∧ e.deletable = true := by
  unfold thinRange at h
  dsimp only at h
  split at h
  · simp at h
  · have := mem_thin h
    exact ⟨by simpa using this.1, this.2⟩

theorem thinRange_nodup {rmin r : Nat} {es : List Ent} (h : es.Nodup) :
    (thinRange rmin r es).Nodup := by
  unfold thinRange
  dsimp only
  split
  · simp
  · exact (thin_sublist _ _ _ _).nodup (nodup_reverse' h)

theorem thinRange_length (rmin r : Nat) (es : List Ent) :
    (thinRange rmin r es).length ≤
      (es.filter (fun e => decide (r - rmin < e.trbno) && decide (e.trbno ≤ r))).length - 1 := by
  unfold thinRange
  dsimp only
  split
  · simp
  · exact thin_length (by omega)

/-! ### The keep values -/

theorem mem_rangeLoop {rmin k : Nat} (hpos : 0 < rmin) {es : List Ent} {e : Ent} :
    e ∈ rangeLoop rmin k es ↔
      ∃ j, 1 ≤ j ∧ j < k ∧ e ∈ thinRange rmin ((j + 1) * rmin) es := by
  unfold rangeLoop
  rw [List.mem_flatMap]
  constructor
  · rintro ⟨r, hr, he⟩
    obtain ⟨j, h1, h2, rfl⟩ := (mem_ranges hpos).1 hr
    exact ⟨j, h1, h2, he⟩
  · rintro ⟨j, h1, h2, he⟩
    exact ⟨_, (mem_ranges hpos).2 ⟨j, h1, h2, rfl⟩, he⟩

theorem sub_one_range (j rmin : Nat) : (j + 1) * rmin - rmin = j * rmin := by
  rw [Nat.succ_mul]; omega

theorem rangeLoop_bounds {rmin k : Nat} (hpos : 0 < rmin) {es : List Ent} {e : Ent}
    (h : e ∈ rangeLoop rmin k es) :
    e ∈ es ∧ rmin < e.trbno ∧ e.trbno < rmin * k ∧ e.deletable = true := by
  obtain ⟨j, h1, h2, he⟩ := (mem_rangeLoop hpos).1 h
  obtain ⟨a, b, c, d⟩ := mem_thinRange he
  rw [sub_one_range] at b
  refine ⟨a, ?_, ?_, d⟩
  · have : 1 * rmin ≤ j * rmin := Nat.mul_le_mul_right _ h1
    omega
  · have : (j + 1) * rmin ≤ k * rmin := Nat.mul_le_mul_right _ h2
    rw [Nat.mul_comm rmin k]; omega

theorem keepLoop_snd (es : List Ent) (m : Nat) (ks : List Nat) :
    (keepLoop es m ks).2 = m * ks.prod := by
  induction ks generalizing m with
  | nil => simp [keepLoop]
  | cons k ks ih =>
    cases ks with
    | nil => simp [keepLoop]
    | cons k2 ks =>
      simp only [keepLoop, ih]
      simp [List.prod_cons, Nat.mul_assoc]

theorem prod_pos' {ks : List Nat} (h : KeepOk ks) : 0 < ks.prod := by
  induction ks with
  | nil => simp
  | cons k ks ih =>
    rw [List.prod_cons]
    exact Nat.mul_pos (h k (by simp)) (ih (fun x hx => h x (by simp [hx])))

theorem keepLoop_bounds {es : List Ent} {m : Nat} (hm : 0 < m) {ks : List Nat} (hk : KeepOk ks)
    {e : Ent} (h : e ∈ (keepLoop es m ks).1) :
    ∃ k, ks.head? = some k ∧
    e ∈ es ∧ m * k < e.trbno ∧ e.trbno < m * ks.prod ∧ e.deletable = true := by
  induction ks generalizing m with
  | nil => simp [keepLoop] at h
  | cons k ks ih =>
    refine ⟨k, rfl, ?_⟩
    cases ks with
    | nil => simp [keepLoop] at h
    | cons k2 ks =>
      simp only [keepLoop, List.mem_append] at h
      have hkp : 0 < k := hk k (by simp)
      have hmk : 0 < m * k := Nat.mul_pos hm hkp
      have hk2 : 0 < k2 := hk k2 (by simp)
      have hks : KeepOk ks := fun x hx => hk x (by simp [hx])
      rcases h with h | h
      · obtain ⟨a, b, c, d⟩ := rangeLoop_bounds hmk h
        refine ⟨a, b, ?_, d⟩
        have hp := prod_pos' hks
        calc e.trbno < m * k * k2 := c
          _ ≤ m * k * k2 * ks.prod := Nat.le_mul_of_pos_right _ hp
          _ = m * (k :: k2 :: ks).prod := by simp [List.prod_cons, Nat.mul_assoc]
      · obtain ⟨k', hk', a, b, c, d⟩ := ih hmk (fun x hx => hk x (by simp [hx])) h
        simp at hk'
        subst hk'
        refine ⟨a, ?_, ?_, d⟩
        · have : m * k * 1 ≤ m * k * k2 := Nat.mul_le_mul_left _ hk2
          omega
        · simpa [List.prod_cons, Nat.mul_assoc] using c

theorem mem_keepLoop {es : List Ent} {m : Nat} (hm : 0 < m) {ks : List Nat} (hk : KeepOk ks)
    {e : Ent} :
    e ∈ (keepLoop es m ks).1 ↔
      ∃ pre k post j, ks = pre ++ k :: post ∧ pre ≠ [] ∧ 1 ≤ j ∧ j < k ∧
        e ∈ thinRange (m * pre.prod) ((j + 1) * (m * pre.prod)) es := by
  induction ks generalizing m with
  | nil =>
    simp [keepLoop]
  | cons k ks ih =>
    cases ks with
    | nil =>
      simp only [keepLoop, List.not_mem_nil, false_iff]
      rintro ⟨pre, k', post, j, h1, h2, _⟩
      cases pre with
      | nil => exact h2 rfl
      | cons x xs => simp at h1
    | cons k2 ks =>
      have hmk : 0 < m * k := Nat.mul_pos hm (hk k (by simp))
      have hks : KeepOk (k2 :: ks) := fun x hx => hk x (List.mem_cons_of_mem _ hx)
      simp only [keepLoop, List.mem_append]
      rw [mem_rangeLoop hmk, ih hmk hks]
      constructor
      · rintro (⟨j, h1, h2, h3⟩ | ⟨pre, k', post, j, h1, h2, h3, h4, h5⟩)
        · exact ⟨[k], k2, ks, j, rfl, by simp, h1, h2, by simpa using h3⟩
        · refine ⟨k :: pre, k', post, j, by simp [h1], by simp, h3, h4, ?_⟩
          simpa [List.prod_cons, Nat.mul_assoc] using h5
      · rintro ⟨pre, k', post, j, h1, h2, h3, h4, h5⟩
        cases pre with
        | nil => exact absurd rfl h2
        | cons x xs =>
          simp only [List.cons_append, List.cons.injEq] at h1
          obtain ⟨rfl, h1⟩ := h1
          cases xs with
          | nil =>
            simp only [List.nil_append, List.cons.injEq] at h1
            obtain ⟨rfl, rfl⟩ := h1
            left
            exact ⟨j, h3, h4, by simpa using h5⟩
          | cons y ys =>
            right
            refine ⟨y :: ys, k', post, j, h1, by simp, h3, h4, ?_⟩
            simpa [List.prod_cons, Nat.mul_assoc] using h5

theorem rangeLoop_nodup {rmin k : Nat} (hpos : 0 < rmin) {es : List Ent} (h : es.Nodup) :
    (rangeLoop rmin k es).Nodup := by
  unfold rangeLoop
  have hp := ranges_pairwise hpos k
  rw [List.nodup_iff_pairwise_ne] at *
  rw [List.pairwise_flatMap]
  refine ⟨fun r _ => thinRange_nodup h, ?_⟩
  apply hp.imp
  intro a b hab x hx y hy
  have h1 := mem_thinRange hx
  have h2 := mem_thinRange hy
  intro hxy; subst hxy
  omega

theorem keepLoop_nodup {es : List Ent} (h : es.Nodup) {m : Nat} (hm : 0 < m) {ks : List Nat}
    (hk : KeepOk ks) : (keepLoop es m ks).1.Nodup := by
  induction ks generalizing m with
  | nil => simp [keepLoop]
  | cons k ks ih =>
    cases ks with
    | nil => simp [keepLoop]
    | cons k2 ks =>
      have hmk : 0 < m * k := Nat.mul_pos hm (hk k (by simp))
      have hks : KeepOk (k2 :: ks) := fun x hx => hk x (List.mem_cons_of_mem _ hx)
      simp only [keepLoop]
      rw [List.nodup_append]
      refine ⟨rangeLoop_nodup hmk h, ih hmk hks, ?_⟩
      intro a ha b hb hab
      subst hab
      have h1 := rangeLoop_bounds hmk ha
      obtain ⟨k', hk', h2⟩ := keepLoop_bounds hmk hks hb
      simp at hk'
      subst hk'
      omega

/-! ### The oldest -/

theorem oldest_nil {m : Nat} {es : List Ent} (h : oldest m es = []) : ∀ e ∈ es, e.trbno ≤ m := by
  unfold oldest at h
  dsimp only at h
  split at h
  · rename_i hd
    have hl : es.length ≤ (es.takeWhile (fun e => decide (e.trbno ≤ m))).length :=
      List.drop_eq_nil_iff.1 hd
    have heq : es.takeWhile (fun e => decide (e.trbno ≤ m)) = es :=
      (List.takeWhile_prefix _).eq_of_length_le hl
    intro e he
    rw [← heq] at he
    simpa using (mem_takeWhile he).1
  · simp at h

/-- With ages decreasing along the list, only the very first entry can be deleted as too old. -/
theorem mem_oldest {m : Nat} {es : List Ent}
    (hp : es.Pairwise (fun a b => b.trbno < a.trbno)) {e : Ent} (h : e ∈ oldest m es) :
    (∃ rest, es = e :: rest) ∧ m < e.trbno ∧ oldest m es = [e] := by
  cases es with
  | nil => simp [oldest] at h
  | cons x xs =>
    by_cases hx : x.trbno ≤ m
    · -- then nothing is older
      have hall : ∀ y ∈ x :: xs, y.trbno ≤ m := by
        intro y hy
        simp only [List.mem_cons] at hy
        rcases hy with rfl | hy
        · exact hx
        · have := (List.pairwise_cons.1 hp).1 y hy; omega
      have : (x :: xs).takeWhile (fun e => decide (e.trbno ≤ m)) = x :: xs := by
        apply takeWhile_all
        intro y hy; simpa using hall y hy
      unfold oldest at h
      simp [this] at h
    · have : (x :: xs).takeWhile (fun e => decide (e.trbno ≤ m)) = [] := by
        simp [hx]
      have ho : oldest m (x :: xs) = [x] := by unfold oldest; simp [this]
      rw [ho] at h
      simp at h
      subst h
      exact ⟨⟨xs, rfl⟩, by omega, ho⟩

theorem setup_pairwise {l : List Bu} (h : Listed l) :
    (setupIndices l).Pairwise (fun a b => b.trbno < a.trbno) := by
  cases hn : l.getLast? with
  | none =>
    rw [List.getLast?_eq_none_iff] at hn
    subst hn; simp [setupIndices, mark]
  | some n =>
    have hp : ((setupIndices l).map Ent.bu).Pairwise (fun a b => a.bno < b.bno) := by
      rw [setup_map_bu]; exact h.1
    rw [List.pairwise_map] at hp
    refine List.Pairwise.imp_of_mem ?_ hp
    intro a b ha hb hab
    rw [setup_trbno h hn ha, setup_trbno h hn hb]
    have := listed_le_last h hn (mem_setup_bu ha)
    have := listed_le_last h hn (mem_setup_bu hb)
    unfold age
    omega

theorem setup_nodup {l : List Bu} (h : Listed l) : (setupIndices l).Nodup := by
  apply (setup_pairwise h).imp
  intro a b hab hc; subst hc; omega

theorem setup_inj {l : List Bu} (h : Listed l) {a b : Ent} (ha : a ∈ setupIndices l)
    (hb : b ∈ setupIndices l) (he : a.bu.bno = b.bu.bno) : a = b := by
  have hp : (setupIndices l).Pairwise (fun a b => a.bu.bno < b.bu.bno) := by
    have : ((setupIndices l).map Ent.bu).Pairwise (fun a b => a.bno < b.bno) := by
      rw [setup_map_bu]; exact h.1
    rwa [List.pairwise_map] at this
  generalize setupIndices l = es at *
  induction es with
  | nil => simp at ha
  | cons x xs ih =>
    rw [List.pairwise_cons] at hp
    simp only [List.mem_cons] at ha hb
    rcases ha with rfl | ha <;> rcases hb with rfl | hb
    · rfl
    · have := hp.1 b hb; omega
    · have := hp.1 a ha; omega
    · exact ih ha hb hp.2

/-! ### One pass -/

theorem first_deletable {l : List Bu} {e : Ent} {rest : List Ent}
    (h : setupIndices l = e :: rest) : e.deletable = true := by
  cases l with
  | nil => simp [setupIndices, mark] at h
  | cons b bs =>
    simp only [setupIndices, mark, List.cons.injEq] at h
    rw [← h.1]

theorem mem_plan {keep : List Nat} (hk : KeepOk keep) {l : List Bu} (h : Listed l) {e : Ent}
    (he : e ∈ plan keep l) :
    e ∈ setupIndices l ∧ e.deletable = true ∧ 1 < e.trbno ∧
      (∀ k, keep.head? = some k → k < e.trbno) := by
  unfold plan at he
  dsimp only at he
  rw [List.mem_append] at he
  rcases he with he | he
  · obtain ⟨k, h1, h2, h3, h4, h5⟩ := keepLoop_bounds (m := 1) (by omega) hk he
    have hkp : 0 < k := hk k (List.mem_of_head? h1)
    refine ⟨h2, h5, by omega, ?_⟩
    intro k' hk'
    rw [h1] at hk'; cases hk'; omega
  · obtain ⟨⟨rest, h1⟩, h2, _⟩ := mem_oldest (setup_pairwise h) he
    rw [keepLoop_snd] at h2
    have hpos := prod_pos' hk
    refine ⟨by rw [h1]; simp, first_deletable h1, by omega, ?_⟩
    intro k hk'
    cases keep with
    | nil => simp at hk'
    | cons x xs =>
      simp at hk'; subst hk'
      have hp2 := prod_pos' (ks := xs) (fun y hy => hk y (by simp [hy]))
      rw [List.prod_cons] at h2
      have : x * 1 ≤ x * xs.prod := Nat.mul_le_mul_left _ hp2
      omega

theorem plan_nodup {keep : List Nat} (hk : KeepOk keep) {l : List Bu} (h : Listed l) :
    (plan keep l).Nodup := by
  unfold plan
  dsimp only
  rw [List.nodup_append]
  refine ⟨keepLoop_nodup (setup_nodup h) (by omega) hk, ?_, ?_⟩
  · cases ho : oldest (keepLoop (setupIndices l) 1 keep).2 (setupIndices l) with
    | nil => simp
    | cons x xs =>
      have := (mem_oldest (m := (keepLoop (setupIndices l) 1 keep).2) (setup_pairwise h)
        (e := x) (by rw [ho]; simp)).2.2
      rw [ho] at this
      rw [this]; simp
  · intro a ha b hb hab
    subst hab
    obtain ⟨_, _, _, _, h3, _⟩ := keepLoop_bounds (m := 1) (by omega) hk ha
    have h4 := (mem_oldest (setup_pairwise h) hb).2.1
    rw [keepLoop_snd] at h4
    omega

theorem plan_nodup_bno {keep : List Nat} (hk : KeepOk keep) {l : List Bu} (h : Listed l) :
    ((plan keep l).map (fun e => e.bu.bno)).Nodup := by
  rw [List.nodup_iff_pairwise_ne, List.pairwise_map]
  have := plan_nodup hk h
  rw [List.nodup_iff_pairwise_ne] at this
  refine List.Pairwise.imp_of_mem ?_ this
  intro a b ha hb hab hc
  exact hab (setup_inj h (mem_plan hk h ha).1 (mem_plan hk h hb).1 hc)

/-! ### Execution -/

theorem execute_prefix (o : Nat → Outcome) (p : List Ent) :
    (execute o p).1 <+: p.map (fun e => e.bu.bno) := by
  induction p with
  | nil => exact List.prefix_refl _
  | cons e es ih =>
    unfold execute
    cases o e.bu.bno with
    | removed => simpa using ih
    | failedBefore => exact List.nil_prefix
    | failedAfter => simp [List.map_cons]

theorem execute_ok {o : Nat → Outcome} {p : List Ent} (h : (execute o p).2 = false) :
    (execute o p).1 = p.map (fun e => e.bu.bno) := by
  induction p with
  | nil => rfl
  | cons e es ih =>
    unfold execute at h ⊢
    cases ho : o e.bu.bno with
    | removed => rw [ho] at h; simp only [List.map_cons]; rw [ih h]
    | failedBefore => rw [ho] at h; simp at h
    | failedAfter => rw [ho] at h; simp at h

theorem execute_all_removed {o : Nat → Outcome} {p : List Ent}
    (h : ∀ e ∈ p, o e.bu.bno = .removed) : (execute o p).2 = false := by
  induction p with
  | nil => rfl
  | cons e es ih =>
    unfold execute
    rw [h e (by simp)]
    exact ih (fun x hx => h x (by simp [hx]))

/-! ### Deletability survives other permitted deletions -/

theorem deletable_without {l : List Bu} (h : Listed l) {g : List Nat} {b : Bu}
    (hg : ∀ x ∈ l, x.bno ∈ g → Deletable l x) (hb : Deletable l b) (hbg : b.bno ∉ g) :
    Deletable (without l g) b := by
  obtain ⟨older, newer, hl, hh⟩ := hb
  refine ⟨without older g, without newer g, ?_, ?_⟩
  · rw [hl]; unfold without; simp [List.filter_append, hbg]
  · by_cases he : without older g = []
    · exact .inl he
    · right
      refine ⟨(without older g).getLast he, List.getLast?_eq_some_getLast he, ?_⟩
      generalize hz : (without older g).getLast he = z
      have hzmem : z ∈ without older g := by rw [← hz]; exact List.getLast_mem he
      obtain ⟨hzo, hzg⟩ := mem_without.1 hzmem
      -- split older at z
      obtain ⟨p, q, hpq⟩ := List.append_of_mem hzo
      have hnd := listed_nodup h
      -- everything after z in older is gone
      have hq : ∀ y ∈ q, y.bno ∈ g := by
        intro y hy
        by_cases hyg : y.bno ∈ g
        · exact hyg
        · exfalso
          have hsplit : without older g = without p g ++ (z :: without q g) := by
            rw [hpq]; unfold without; simp [List.filter_append, hzg]
          have hyw : y ∈ without q g := mem_without.2 ⟨hy, hyg⟩
          have hne : without q g ≠ [] := List.ne_nil_of_mem hyw
          have hlast : (without older g).getLast? = (without q g).getLast? := by
            rw [hsplit, List.getLast?_append]
            rw [List.getLast?_cons]
            cases hw : (without q g).getLast? with
            | none => rw [List.getLast?_eq_none_iff] at hw; exact absurd hw hne
            | some w => simp
          have : z ∈ without q g := by
            apply List.mem_of_getLast?
            rw [← hlast, List.getLast?_eq_some_getLast he, hz]
          have hzq : z ∈ q := (mem_without.1 this).1
          rw [hl, hpq] at hnd
          rw [List.append_assoc, List.nodup_append] at hnd
          have := (List.nodup_cons.1 hnd.2.1).1
          exact this (by simp [hzq])
      cases q with
      | nil =>
        -- z is right before b
        have hlast : older.getLast? = some z := by rw [hpq]; simp
        rcases hh with hh | ⟨w, h1, h2⟩
        · rw [hh] at hpq; simp at hpq
        · rw [hlast] at h1; cases h1; exact h2
      | cons y ys =>
        have hyl : y ∈ l := by rw [hl, hpq]; simp
        obtain ⟨o2, n2, h1, h2⟩ := hg y hyl (hq y (by simp))
        -- the split of l at y is unique
        have heq : o2 = p ++ [z] := by
          have e1 : l = (p ++ [z]) ++ y :: (ys ++ b :: newer) := by rw [hl, hpq]; simp
          have hn1 : y ∉ p ++ [z] := by
            intro hy
            have := hnd
            rw [e1, List.nodup_append] at this
            exact this.2.2 y hy y (by simp) rfl
          have hn2 : y ∉ o2 := by
            intro hy
            have := hnd
            rw [h1, List.nodup_append] at this
            exact this.2.2 y hy y (by simp) rfl
          rw [e1] at h1
          have t1 : ((p ++ [z]) ++ y :: (ys ++ b :: newer)).takeWhile (fun x => decide (x ≠ y)) =
              p ++ [z] := by
            rw [List.takeWhile_append_of_pos]
            · simp
            · intro x hx; simp only [decide_eq_true_eq]; rintro rfl; exact hn1 hx
          have t2 : (o2 ++ y :: n2).takeWhile (fun x => decide (x ≠ y)) = o2 := by
            rw [List.takeWhile_append_of_pos]
            · simp
            · intro x hx; simp only [decide_eq_true_eq]; rintro rfl; exact hn2 hx
          rw [h1, t2] at t1
          exact t1
        rcases h2 with h2 | ⟨w, h2, h3⟩
        · rw [heq] at h2; simp at h2
        · rw [heq] at h2; simp at h2; subst h2; exact h3


/-! ### Sequences of deletions -/

theorem filter_ne_eq_without (l : List Bu) (x : Nat) :
    l.filter (fun b => decide (b.bno ≠ x)) = without l [x] := by
  unfold without
  congr 1
  funext b
  by_cases h : b.bno = x <;> simp [h]

theorem legal_append {l : List Bu} {a b : List Nat} (ha : LegalSequence l a)
    (hb : LegalSequence (without l a) b) : LegalSequence l (a ++ b) := by
  induction a generalizing l with
  | nil => simpa [without_nil] using hb
  | cons x xs ih =>
    simp only [LegalSequence, List.cons_append] at *
    refine ⟨ha.1, ih ha.2 ?_⟩
    rw [filter_ne_eq_without, without_without]
    simpa using hb

theorem legal_of_plan {l : List Bu} (h : Listed l) {g : List Nat} (hn : g.Nodup)
    (hg : ∀ x ∈ g, ∃ b ∈ l, b.bno = x ∧ Deletable l b) : LegalSequence l g := by
  induction g generalizing l with
  | nil => trivial
  | cons x xs ih =>
    simp only [LegalSequence]
    refine ⟨hg x (by simp), ?_⟩
    rw [filter_ne_eq_without]
    have hn' := List.nodup_cons.1 hn
    apply ih (listed_without h _) hn'.2
    intro y hy
    obtain ⟨b, h1, h2, h3⟩ := hg y (by simp [hy])
    have hne : b.bno ∉ [x] := by
      simp only [List.mem_singleton]
      rintro rfl; rw [h2] at hn'; exact hn'.1 hy
    refine ⟨b, mem_without.2 ⟨h1, hne⟩, h2, ?_⟩
    apply deletable_without h _ h3 hne
    intro z hz hzx
    simp only [List.mem_singleton] at hzx
    obtain ⟨b', h1', h2', h3'⟩ := hg x (by simp)
    have : z = b' := listed_inj h hz h1' (by rw [h2', hzx])
    rw [this]; exact h3'

/-! ### One pass, summed up -/

structure PassFacts (keep : List Nat) (l : List Bu) (g : List Nat) : Prop where
  legal : LegalSequence l g
  newest : ∀ n, l.getLast? = some n → n.bno ∉ g
  recent : ∀ n k, l.getLast? = some n → keep.head? = some k →
    ∀ b ∈ l, age n b ≤ k → b.bno ∉ g
  gen : ∀ n lo hi, l.getLast? = some n → Generation keep lo hi →
    (∃ b ∈ l, lo < age n b ∧ age n b ≤ hi) →
    ∃ b ∈ without l g, lo < age n b ∧ age n b ≤ hi

theorem plan_in_generation {keep : List Nat} (hk : KeepOk keep) {l : List Bu} (h : Listed l)
    {pre post : List Nat} {k j : Nat} (h1 : keep = pre ++ k :: post) (h3 : 1 ≤ j)
    (h4 : j < k) {e : Ent} (he : e ∈ plan keep l) (hlo : j * pre.prod < e.trbno)
    (hhi : e.trbno ≤ (j + 1) * pre.prod) :
    e ∈ thinRange pre.prod ((j + 1) * pre.prod) (setupIndices l) := by
  have hkpost : KeepOk post := fun x hx => hk x (by rw [h1]; simp [hx])
  have hkpre : KeepOk pre := fun x hx => hk x (by rw [h1]; simp [hx])
  have hpp := prod_pos' hkpost
  have hpre := prod_pos' hkpre
  unfold plan at he
  dsimp only at he
  rw [List.mem_append] at he
  rcases he with he | he
  · obtain ⟨pre', k', post', j', g1, g2, g3, g4, g5⟩ :=
      (mem_keepLoop (m := 1) (by omega) hk).1 he
    rw [Nat.one_mul] at g5
    have hkpre' : KeepOk pre' := fun x hx => hk x (by rw [g1]; simp [hx])
    have hpre' := prod_pos' hkpre'
    obtain ⟨_, b1, b2, _⟩ := mem_thinRange g5
    rw [sub_one_range] at b1
    rw [h1, List.append_eq_append_iff] at g1
    rcases g1 with ⟨a, e1, e2⟩ | ⟨a, e1, e2⟩
    · -- pre' = pre ++ a
      cases a with
      | nil =>
        simp at e1 e2
        subst e1
        -- same level: the same j
        have : j = j' := by
          by_cases hlt : j < j'
          · have := Nat.mul_le_mul_right pre'.prod (show j + 1 ≤ j' by omega); omega
          · by_cases hgt : j' < j
            · have := Nat.mul_le_mul_right pre'.prod (show j' + 1 ≤ j by omega); omega
            · omega
        subst this
        exact g5
      | cons x xs =>
        simp only [List.cons_append, List.cons.injEq] at e2
        obtain ⟨rfl, e2⟩ := e2
        exfalso
        have hxs : 0 < xs.prod := prod_pos' (fun y hy => hkpre' y (by rw [e1]; simp [hy]))
        rw [e1] at b1
        rw [List.prod_append, List.prod_cons] at b1
        have q1 : (j + 1) * pre.prod ≤ k * pre.prod := Nat.mul_le_mul_right _ h4
        have q2 : k * pre.prod ≤ pre.prod * (k * xs.prod) := by
          rw [Nat.mul_comm k, ← Nat.mul_assoc]; exact Nat.le_mul_of_pos_right _ hxs
        have q3 : pre.prod * (k * xs.prod) ≤ j' * (pre.prod * (k * xs.prod)) :=
          Nat.le_mul_of_pos_left _ g3
        omega
    · cases a with
      | nil =>
        simp at e1 e2
        obtain ⟨rfl, rfl⟩ := e2
        subst e1
        have : j = j' := by
          by_cases hlt : j < j'
          · have := Nat.mul_le_mul_right pre.prod (show j + 1 ≤ j' by omega); omega
          · by_cases hgt : j' < j
            · have := Nat.mul_le_mul_right pre.prod (show j' + 1 ≤ j by omega); omega
            · omega
        subst this
        exact g5
      | cons x xs =>
        simp only [List.cons_append, List.cons.injEq] at e2
        obtain ⟨rfl, e2⟩ := e2
        exfalso
        have hxs : 0 < xs.prod := prod_pos' (fun y hy => hkpre y (by rw [e1]; simp [hy]))
        rw [e1] at hlo
        rw [List.prod_append, List.prod_cons] at hlo
        have q1 : (j' + 1) * pre'.prod ≤ k' * pre'.prod := Nat.mul_le_mul_right _ g4
        have q2 : k' * pre'.prod ≤ pre'.prod * (k' * xs.prod) := by
          rw [Nat.mul_comm k', ← Nat.mul_assoc]; exact Nat.le_mul_of_pos_right _ hxs
        have q3 : pre'.prod * (k' * xs.prod) ≤ j * (pre'.prod * (k' * xs.prod)) :=
          Nat.le_mul_of_pos_left _ h3
        omega
  · exfalso
    have h6 := (mem_oldest (setup_pairwise h) he).2.1
    rw [keepLoop_snd, Nat.one_mul, h1, List.prod_append, List.prod_cons] at h6
    have q1 : (j + 1) * pre.prod ≤ k * pre.prod := Nat.mul_le_mul_right _ h4
    have q2 : k * pre.prod ≤ pre.prod * (k * post.prod) := by
      rw [Nat.mul_comm k, ← Nat.mul_assoc]; exact Nat.le_mul_of_pos_right _ hpp
    omega

theorem pass_facts {keep : List Nat} (hk : KeepOk keep) {l : List Bu} (h : Listed l)
    (o : Nat → Outcome) : PassFacts keep l (execute o (plan keep l)).1 := by
  have hpre := execute_prefix o (plan keep l)
  have hsub : ∀ x ∈ (execute o (plan keep l)).1, ∃ e ∈ plan keep l, e.bu.bno = x := by
    intro x hx
    have := hpre.subset hx
    simpa using this
  constructor
  · apply legal_of_plan h (hpre.sublist.nodup (plan_nodup_bno hk h))
    intro x hx
    obtain ⟨e, he, rfl⟩ := hsub x hx
    obtain ⟨h1, h2, _⟩ := mem_plan hk h he
    exact ⟨e.bu, mem_setup_bu h1, rfl, setup_deletable h1 h2⟩
  · intro n hn hx
    obtain ⟨e, he, hbn⟩ := hsub _ hx
    obtain ⟨h1, _, h3, _⟩ := mem_plan hk h he
    rw [setup_trbno h hn h1] at h3
    unfold age at h3
    omega
  · intro n k hn hk1 b hb hage hx
    obtain ⟨e, he, hbn⟩ := hsub _ hx
    obtain ⟨h1, _, _, h4⟩ := mem_plan hk h he
    have h5 := h4 k hk1
    rw [setup_trbno h hn h1] at h5
    unfold age at *
    omega
  · rintro n lo hi hn ⟨pre, k, post, j, h1, h2, h3, h4, rfl, rfl⟩ ⟨b, hb, hb1, hb2⟩
    apply Classical.byContradiction
    intro hno
    -- then every backup of the interval is in the plan
    let inI := fun e : Ent => decide ((j + 1) * pre.prod - pre.prod < e.trbno) &&
      decide (e.trbno ≤ (j + 1) * pre.prod)
    have hall : ∀ e ∈ (setupIndices l).filter inI,
        e ∈ thinRange pre.prod ((j + 1) * pre.prod) (setupIndices l) := by
      intro e he
      rw [List.mem_filter] at he
      obtain ⟨he, hI⟩ := he
      simp only [inI, Bool.and_eq_true, decide_eq_true_eq, sub_one_range] at hI
      have hgone : e.bu.bno ∈ (execute o (plan keep l)).1 := by
        apply Classical.byContradiction
        intro hng
        apply hno
        refine ⟨e.bu, mem_without.2 ⟨mem_setup_bu he, hng⟩, ?_⟩
        rw [← setup_trbno h hn he]
        exact hI
      obtain ⟨e', he', hb'⟩ := hsub _ hgone
      have : e' = e := setup_inj h (mem_plan hk h he').1 he hb'
      subst this
      exact plan_in_generation hk h h1 h3 h4 he' hI.1 hI.2
    have hlen := nodup_subset_length ((List.filter_sublist).nodup (setup_nodup h)) hall
    have hlen2 := thinRange_length pre.prod ((j + 1) * pre.prod) (setupIndices l)
    obtain ⟨e, he, hbe⟩ := exists_setup hb
    have hmem : e ∈ (setupIndices l).filter inI := by
      rw [List.mem_filter]
      refine ⟨he, ?_⟩
      simp only [inI, Bool.and_eq_true, decide_eq_true_eq, sub_one_range]
      rw [setup_trbno h hn he, hbe]
      exact ⟨hb1, hb2⟩
    have hpos := List.length_pos_of_mem hmem
    have hlen3 : (thinRange pre.prod ((j + 1) * pre.prod) (setupIndices l)).length ≤
      ((setupIndices l).filter inI).length - 1 := hlen2
    omega

/-! ### Whole runs -/

structure RunFacts (keep : List Nat) (l : List Bu) (r : Result) : Prop where
  left : r.left = without l r.removed
  facts : PassFacts keep l r.removed
  done : r.failed = false → plan keep r.left = []

theorem passFacts_append {keep : List Nat} {l : List Bu} {a b : List Nat}
    (h1 : PassFacts keep l a) (h2 : PassFacts keep (without l a) b) :
    PassFacts keep l (a ++ b) := by
  have hlast : ∀ n, l.getLast? = some n → (without l a).getLast? = some n :=
    fun n hn => getLast_without hn (h1.newest n hn)
  constructor
  · exact legal_append h1.legal h2.legal
  · intro n hn hm
    rw [List.mem_append] at hm
    exact hm.elim (h1.newest n hn) (h2.newest n (hlast n hn))
  · intro n k hn hk b hb hage hm
    rw [List.mem_append] at hm
    have hna := h1.recent n k hn hk b hb hage
    exact hm.elim hna (h2.recent n k (hlast n hn) hk b (mem_without.2 ⟨hb, hna⟩) hage)
  · intro n lo hi hn hg hex
    rw [← without_without]
    exact h2.gen n lo hi (hlast n hn) hg (h1.gen n lo hi hn hg hex)

theorem run_facts {keep : List Nat} (hk : KeepOk keep) (o : Nat → Outcome) {fuel : Nat}
    {l : List Bu} (h : Listed l) {r : Result} (hr : deleteBackups keep o fuel l = some r) :
    RunFacts keep l r := by
  induction fuel generalizing l r with
  | zero => simp [deleteBackups] at hr
  | succ fuel ih =>
    have hp := pass_facts hk h o
    unfold deleteBackups at hr
    dsimp only at hr
    split at hr
    · cases hr
      exact ⟨rfl, hp, by simp⟩
    · rename_i hf
      split at hr
      · rename_i hnil
        cases hr
        rw [hnil] at hp
        refine ⟨(without_nil l).symm, hp, fun _ => ?_⟩
        have := execute_ok (o := o) (p := plan keep l) (by simpa using hf)
        rw [hnil] at this
        simpa using this.symm
      · rw [Option.map_eq_some_iff] at hr
        obtain ⟨r', h1, rfl⟩ := hr
        have := ih (listed_without h _) h1
        refine ⟨?_, ?_, this.done⟩
        · rw [← without_without]; exact this.left
        · exact passFacts_append hp this.facts

theorem without_length_lt {l : List Bu} {g : List Nat} (h : ∃ b ∈ l, b.bno ∈ g) :
    (without l g).length < l.length := by
  obtain ⟨b, hb, hg⟩ := h
  unfold without
  have := List.length_filter_lt_length_iff_exists (p := fun b : Bu => !g.contains b.bno) (l := l)
  rw [this]
  exact ⟨b, hb, by simpa using hg⟩

theorem run_terminates {keep : List Nat} (hk : KeepOk keep) (o : Nat → Outcome) {fuel : Nat}
    {l : List Bu} (h : Listed l) (hf : l.length < fuel) :
    ∃ r, deleteBackups keep o fuel l = some r := by
  induction fuel generalizing l with
  | zero => omega
  | succ fuel ih =>
    unfold deleteBackups
    dsimp only
    split
    · exact ⟨_, rfl⟩
    · split
      · exact ⟨_, rfl⟩
      · rename_i hne
        have hp := pass_facts hk h o
        have hlt : (without l (execute o (plan keep l)).1).length < l.length := by
          apply without_length_lt
          cases hg : (execute o (plan keep l)).1 with
          | nil => exact absurd hg hne
          | cons x xs =>
            have := hp.legal
            rw [hg] at this
            obtain ⟨⟨b, hb, hbx, _⟩, _⟩ := this
            exact ⟨b, hb, by simp [hbx]⟩
        obtain ⟨r, hr⟩ := ih (listed_without h (execute o (plan keep l)).1) (by omega)
        exact ⟨_, by rw [hr]; rfl⟩

theorem run_no_failure {keep : List Nat} {o : Nat → Outcome} (ho : ∀ n, o n = .removed)
    {fuel : Nat} {l : List Bu} {r : Result} (hr : deleteBackups keep o fuel l = some r) :
    r.failed = false := by
  induction fuel generalizing l r with
  | zero => simp [deleteBackups] at hr
  | succ fuel ih =>
    unfold deleteBackups at hr
    dsimp only at hr
    rw [execute_all_removed (fun e _ => ho _)] at hr
    simp only [Bool.false_eq_true, if_false] at hr
    split at hr
    · cases hr; rfl
    · rw [Option.map_eq_some_iff] at hr
      obtain ⟨r', h1, rfl⟩ := hr
      have := ih h1
      exact this

end Retention
end Verif
