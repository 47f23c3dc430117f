import Verif.Spec.BackupNumber
import Verif.Lemmas.Retention

namespace Verif
open Verif.BackupNumber Verif.Retention

/-- The last `k` decimal digits. -/
def digs : Nat → Nat → Str
  | 0, _ => []
  | k + 1, n => digs k (n / 10) ++ [UInt8.ofNat (48 + n % 10)]

theorem digs_len (k n : Nat) : (digs k n).length = k := by
  induction k generalizing n with
  | zero => rfl
  | succ k ih => simp [digs, ih]

theorem digs_zero (k : Nat) : digs k 0 = List.replicate k 48 := by
  induction k with
  | zero => rfl
  | succ k ih => simp only [digs, Nat.zero_div, ih, List.replicate_succ', Nat.zero_mod]; rfl

theorem pad_decimal (k n : Nat) (h : n < 10 ^ (k + 1)) :
    List.replicate (k + 1 - (decimal n).length) 48 ++ decimal n = digs (k + 1) n := by
  induction k generalizing n with
  | zero =>
    have hn : n < 10 := by simpa using h
    rw [decimal, if_pos hn]
    simp [digs, Nat.mod_eq_of_lt hn]
  | succ k ih =>
    rw [decimal]
    by_cases hn : n < 10
    · rw [if_pos hn, digs, Nat.div_eq_of_lt hn, digs_zero, Nat.mod_eq_of_lt hn]
      simp
    · rw [if_neg hn, digs, ← ih (n / 10) (by rw [Nat.pow_succ] at h; omega)]
      simp [← List.append_assoc]

theorem decimal7_eq {n : Nat} (h : n < 10 ^ 7) : decimal7 n = digs 7 n := pad_decimal 6 n h

theorem char_toNat {d : Nat} (h : d < 10) : (UInt8.ofNat (48 + d)).toNat = 48 + d := by
  rw [UInt8.toNat_ofNat']; omega

theorem strLe_app (p x y : Str) : strLe (p ++ x) (p ++ y) = strLe x y := by
  induction p with
  | nil => rfl
  | cons c p ih => simp [strLe, ih]

theorem digs_lt (k n m : Nat) (h : n < m) (hm : m < 10 ^ k) (r s : Str) :
    strLe (digs k n ++ r) (digs k m ++ s) = true ∧ strLe (digs k m ++ s) (digs k n ++ r) = false := by
  induction k generalizing n m r s with
  | zero => simp at hm; omega
  | succ k ih =>
    simp only [digs, List.append_assoc, List.cons_append, List.nil_append]
    rw [Nat.pow_succ] at hm
    by_cases hd : n / 10 < m / 10
    · exact ih (n / 10) (m / 10) hd (by omega) _ _
    · have he : n / 10 = m / 10 := by omega
      have hl : n % 10 < m % 10 := by omega
      rw [he, strLe_app, strLe_app]
      have hn : (UInt8.ofNat (48 + n % 10)).toNat = 48 + n % 10 := char_toNat (by omega)
      have hm' : (UInt8.ofNat (48 + m % 10)).toNat = 48 + m % 10 := char_toNat (by omega)
      have hne : UInt8.ofNat (48 + n % 10) ≠ UInt8.ofNat (48 + m % 10) := by
        intro h; rw [← UInt8.toNat_inj, hn, hm'] at h; omega
      simp only [strLe, hne, hne.symm, if_false, hn, hm']
      constructor
      · simp; omega
      · simp; omega

theorem decValue_digs (k acc n : Nat) (h : n < 10 ^ k) (r : Str) :
    decValue acc (digs k n ++ r) = decValue (acc * 10 ^ k + n) r := by
  induction k generalizing n r with
  | zero => simp at h; simp [digs, h]
  | succ k ih =>
    rw [Nat.pow_succ] at h
    simp only [digs, List.append_assoc, List.cons_append, List.nil_append]
    rw [ih (n / 10) (by omega), decValue]
    have hc : (UInt8.ofNat (48 + n % 10)).toNat = 48 + n % 10 := char_toNat (by omega)
    have hdig : isDigit (UInt8.ofNat (48 + n % 10)) = true := by
      unfold isDigit; rw [hc]; simp; omega
    rw [if_pos hdig, hc, Nat.pow_succ, ← Nat.mul_assoc]
    congr 1
    omega

theorem strtoul_stamp {n : Nat} (h : n < 10 ^ 7) (t : Str) : strtoul (stamp n t) = n := by
  unfold strtoul stamp
  rw [decimal7_eq h, List.append_assoc, decValue_digs 7 0 n h]
  have : decValue (0 * 10 ^ 7 + n) ([space] ++ t) = n := by
    show decValue (0 * 10 ^ 7 + n) (space :: t) = n
    rw [decValue, if_neg (by decide)]; omega
  rw [this]
  omega

theorem stamp_lt {n m : Nat} (h : n < m) (hm : m < 10 ^ 7) (f g : Str) :
    strLe (stamp n f) (stamp m g) = true ∧ strLe (stamp m g) (stamp n f) = false := by
  unfold stamp
  rw [decimal7_eq hm, decimal7_eq (by omega), List.append_assoc, List.append_assoc]
  exact digs_lt 7 n m h hm _ _

theorem stamp_take {n : Nat} (h : n < 10 ^ 7) (f : Str) : (stamp n f).take 8 = digs 7 n ++ [space] := by
  unfold stamp
  rw [decimal7_eq h]
  have : (digs 7 n ++ [space]).length = 8 := by simp [digs_len]
  rw [← this, List.take_left']
  rfl

theorem stamp_digit {n : Nat} (h : n < 10 ^ 7) (f : Str) :
    startsDigit (stamp n f) = true := by
  unfold stamp
  rw [decimal7_eq h]
  simp only [digs, List.nil_append, List.cons_append]
  simp only [startsDigit]
  unfold isDigit
  rw [char_toNat (Nat.mod_lt _ (by decide))]
  simp; omega

theorem strLe_total (a b : Str) : (strLe a b || strLe b a) = true := by
  induction a generalizing b with
  | nil => simp [strLe]
  | cons x a ih =>
    cases b with
    | nil => simp [strLe]
    | cons y b =>
      by_cases h : x = y
      · subst h; simpa [strLe] using ih b
      · have hne : x.toNat ≠ y.toNat := fun e => h (UInt8.toNat_inj.1 e)
        have h' : ¬ y = x := fun e => h e.symm
        simp only [strLe, if_neg h, if_neg h', Bool.or_eq_true, decide_eq_true_eq]
        omega

theorem strLe_trans (a b c : Str) (h1 : strLe a b = true) (h2 : strLe b c = true) :
    strLe a c = true := by
  induction a generalizing b c with
  | nil => simp [strLe]
  | cons x a ih =>
    cases b with
    | nil => simp [strLe] at h1
    | cons y b =>
      cases c with
      | nil => simp [strLe] at h2
      | cons z c =>
        simp only [strLe] at h1 h2 ⊢
        by_cases hxy : x = y
        · subst hxy
          rw [if_pos rfl] at h1
          by_cases hxz : x = z
          · subst hxz; rw [if_pos rfl] at h2 ⊢; exact ih b c h1 h2
          · rw [if_neg hxz] at h2 ⊢; exact h2
        · rw [if_neg hxy] at h1
          by_cases hyz : y = z
          · subst hyz; rw [if_neg hxy]; exact h1
          · rw [if_neg hyz] at h2
            simp only [decide_eq_true_eq] at h1 h2
            have : x ≠ z := by intro e; subst e; omega
            rw [if_neg this, decide_eq_true_eq]; omega

/-- What is known about the finished backups: increasing numbers below `10^7`, and each has its
number in its name. -/
def GoodNumbers (bs : List (Nat × DirEnt)) : Prop :=
  bs.Pairwise (fun a b => a.1 < b.1) ∧ ∀ b ∈ bs, 0 < b.1 ∧ b.1 < 10 ^ 7 ∧ IsBackup b.1 b.2

theorem buGetList_eq {k : Links} {bs : List (Nat × DirEnt)} {dir : List DirEnt} (hg : GoodNumbers bs)
    (hd : OnDisc k bs dir) :
    buGetList k dir = bs.map (fun b => (b.2, (⟨b.1, b.2.hard⟩ : Bu))) := by
  obtain ⟨others, hp, ho, hb⟩ := hd
  obtain ⟨hs, ha⟩ := hg
  -- the finished backups are listed, the others are not
  have hl1 : ∀ b ∈ bs, listed k b.2 = true := by
    intro b hb'
    obtain ⟨_, hlt, f, t, e1, e2⟩ := ha b hb'
    unfold listed
    have n1 := (hb b hb').1
    have n2 := (hb b hb').2
    have hdg := stamp_digit hlt f
    rw [← e1] at hdg
    rw [hdg, e2, stamp_take hlt]
    have ht := stamp_take hlt f
    rw [← e1] at ht
    rw [ht]
    simp [n1, n2]
  have hl2 : ∀ o ∈ others, listed k o = false := by
    intro o ho'
    unfold listed
    rcases ho o ho' with h | h | h
    · have : (o.ts.take 8 == o.name.take 8) = false := by
        rw [beq_eq_false_iff_ne]; exact h
      rw [this, Bool.and_false]
    · simp [h]
    · simp [h]
  have hperm : ((dir.mergeSort (fun a b => strLe a.name b.name)).filter (listed k)).Perm
      (bs.map Prod.snd) := by
    have h1 := ((List.mergeSort_perm dir (fun a b => strLe a.name b.name)).trans hp).filter (listed k)
    rw [List.filter_append] at h1
    have e1 : (bs.map Prod.snd).filter (listed k) = bs.map Prod.snd := by
      rw [List.filter_eq_self]
      intro e he
      obtain ⟨b, hb', rfl⟩ := List.mem_map.1 he
      exact hl1 b hb'
    have e2 : others.filter (listed k) = [] := by
      rw [List.filter_eq_nil_iff]
      intro o ho' h
      rw [hl2 o ho'] at h; cases h
    rw [e1, e2, List.append_nil] at h1
    exact h1
  have hord : ∀ a ∈ bs, ∀ b ∈ bs, a.1 < b.1 →
      strLe a.2.name b.2.name = true ∧ strLe b.2.name a.2.name = false := by
    intro a ha' b hb' h
    obtain ⟨_, _, f, _, e1, _⟩ := ha a ha'
    obtain ⟨_, hlt, g, _, e2, _⟩ := ha b hb'
    rw [e1, e2]
    exact stamp_lt h hlt f g
  have hsort1 : ((dir.mergeSort (fun a b => strLe a.name b.name)).filter (listed k)).Pairwise
      (fun a b => strLe a.name b.name = true) :=
    (List.pairwise_mergeSort (le := fun a b : DirEnt => strLe a.name b.name)
      (fun a b c h1 h2 => strLe_trans _ _ _ h1 h2) (fun a b => strLe_total _ _) dir).filter _
  have hsort2 : (bs.map Prod.snd).Pairwise (fun a b => strLe a.name b.name = true) := by
    rw [List.pairwise_map]
    exact hs.imp_of_mem (fun {a b} ha' hb' h => (hord a ha' b hb' h).1)
  have huniq : ∀ a ∈ bs, ∀ b ∈ bs, a.2.name = b.2.name → a.1 = b.1 := by
    intro a ha' b hb' h
    rcases Nat.lt_trichotomy a.1 b.1 with h1 | h1 | h1
    · have := hord a ha' b hb' h1
      rw [h, this.1] at this; simp at this
    · exact h1
    · have := hord b hb' a ha' h1
      rw [h, this.1] at this; simp at this
  have hinj : ∀ a ∈ bs, ∀ b ∈ bs, a.1 = b.1 → a = b := by
    clear hsort1 hsort2 hord huniq hperm hl1 hl2 hb ha hp
    intro a ha b hb h
    induction bs with
    | nil => cases ha
    | cons x bs ih =>
      rw [List.pairwise_cons] at hs
      rcases List.mem_cons.1 ha with ea | ha
      · rcases List.mem_cons.1 hb with eb | hb
        · rw [ea, eb]
        · have := hs.1 b hb; rw [← ea] at this; omega
      · rcases List.mem_cons.1 hb with eb | hb
        · have := hs.1 a ha; rw [← eb] at this; omega
        · exact ih hs.2 ha hb
  have heq : (dir.mergeSort (fun a b => strLe a.name b.name)).filter (listed k) = bs.map Prod.snd := by
    refine hperm.eq_of_pairwise ?_ hsort1 hsort2
    intro a b ha' hb' h1 h2
    have ha'' := hperm.mem_iff.1 ha'
    obtain ⟨x, hx, rfl⟩ := List.mem_map.1 ha''
    obtain ⟨y, hy, rfl⟩ := List.mem_map.1 hb'
    rcases Nat.lt_trichotomy x.1 y.1 with h | h | h
    · have := (hord x hx y hy h).2; rw [h2] at this; cases this
    · rw [hinj x hx y hy h]
    · have := (hord y hy x hx h).2; rw [h1] at this; cases this
  unfold buGetList
  rw [heq, List.map_map]
  refine List.map_congr_left ?_
  intro b hb'
  obtain ⟨_, hlt, _, t, _, e2⟩ := ha b hb'
  simp [e2, strtoul_stamp hlt]

theorem getNewBno_eq {k : Links} {bs : List (Nat × DirEnt)} {dir : List DirEnt} (hg : GoodNumbers bs)
    (hd : OnDisc k bs dir) : getNewBno k dir = ((bs.getLast?).map Prod.fst).getD 0 + 1 := by
  unfold getNewBno lastBno
  rw [buGetList_eq hg hd, List.map_map, List.getLast?_map]
  cases bs.getLast? <;> rfl

theorem le_last {bs : List (Nat × DirEnt)} (h : bs.Pairwise (fun a b => a.1 < b.1)) :
    ∀ b ∈ bs, b.1 ≤ ((bs.getLast?).map Prod.fst).getD 0 := by
  intro b hb
  cases hl : bs.getLast? with
  | none => rw [List.getLast?_eq_none_iff] at hl; rw [hl] at hb; cases hb
  | some x =>
    obtain ⟨ys, rfl⟩ := List.getLast?_eq_some_iff.1 hl
    rw [List.pairwise_append] at h
    rcases List.mem_append.1 hb with hb | hb
    · exact Nat.le_of_lt (h.2.2 b hb x (by simp))
    · rw [List.mem_singleton.1 hb]; simp

theorem hist_good {made : Nat} {bs : List (Nat × DirEnt)} (h : Hist made bs) (hm : made < 10 ^ 7) :
    GoodNumbers bs ∧ ∀ b ∈ bs, b.1 ≤ made := by
  induction h with
  | start => exact ⟨⟨List.Pairwise.nil, by simp⟩, by simp⟩
  | @backup made bs h k dir hd e he ih =>
    obtain ⟨hg, hle⟩ := ih (by omega)
    have hn := getNewBno_eq hg hd
    have hlast : ((bs.getLast?).map Prod.fst).getD 0 ≤ made := by
      cases hl : bs.getLast? with
      | none => simp
      | some x => exact hle x (List.mem_of_getLast? hl)
    refine ⟨⟨?_, ?_⟩, ?_⟩
    · rw [List.pairwise_append]
      refine ⟨hg.1, by simp, ?_⟩
      intro a ha b hb
      rw [List.mem_singleton.1 hb, hn]
      have := le_last hg.1 a ha
      simp only; omega
    · intro b hb
      rcases List.mem_append.1 hb with hb | hb
      · exact hg.2 b hb
      · rw [List.mem_singleton.1 hb]
        exact ⟨by simp only [hn]; omega, by simp only [hn]; omega, he⟩
    · intro b hb
      rcases List.mem_append.1 hb with hb | hb
      · have := hle b hb; omega
      · rw [List.mem_singleton.1 hb]; simp only [hn]; omega
  | @delete made bs h keep ih =>
    obtain ⟨hg, hle⟩ := ih hm
    exact ⟨⟨hg.1.filter _, fun b hb => hg.2 b (List.mem_filter.1 hb).1⟩,
      fun b hb => hle b (List.mem_filter.1 hb).1⟩

end Verif
