import Verif.Spec.DataPath
import Verif.Lemmas.Dpth
import Verif.Lemmas.PathCmp
import Verif.Spec.Path
import Verif.Spec.Dpth

/-!
# Lemmas about the places of data
-/

namespace Verif.DataPath
open Verif.Iobuf Verif.Confine Verif.Dpth

/-! ## Paths and their parts -/

theorem parts_plain {n : Name} (h : slash ∉ n) : parts n = [n] := by
  induction n with
  | nil => rfl
  | cons c cs ih =>
    simp only [List.mem_cons, not_or] at h
    rw [parts, if_neg (fun e => h.1 e.symm), ih h.2]

theorem parts_cons {n : Name} (h : slash ∉ n) (t : Str) : parts (n ++ slash :: t) = n :: parts t := by
  induction n with
  | nil => simp [parts]
  | cons c cs ih =>
    simp only [List.mem_cons, not_or] at h
    rw [List.cons_append, parts, if_neg (fun e => h.1 e.symm), ih h.2]

theorem parts_flat (n : Name) (names : List Name) (h : ∀ m ∈ n :: names, slash ∉ m) :
    parts (n ++ names.flatMap (fun m => slash :: m)) = n :: names := by
  induction names generalizing n with
  | nil => simp [parts_plain (h n (by simp))]
  | cons m ms ih =>
    rw [List.flatMap_cons, List.cons_append, parts_cons (h n (by simp)), ih m (fun x hx => h x (by simp_all))]

theorem good_slash {names : List Name} (h : ∀ n ∈ names, GoodName n) : ∀ n ∈ names, slash ∉ n :=
  fun n hn => (h n hn).2.1

theorem tree_slash : slash ∉ Seed.treeDir := by decide

theorem treeDatapth_client {p : Str} {names : List Name} (h : ClientPath p names) :
    Seed.treeDatapth p = Seed.treeDir ++ names.flatMap (fun n => slash :: n) := by
  have hd : Seed.treeDir = [116] := by decide
  cases h with
  | unix hne hg =>
    cases names with
    | nil => exact absurd rfl hne
    | cons n ns =>
      rw [hd]
      cases hc : n with
      | nil => exact absurd hc (hg n (by simp)).1
      | cons c cs => simp [Seed.treeDatapth, Prepend.prependS, Prepend.prependSlash, Prepend.prependN, hd,
          Prepend.prependLen]
  | @windows drive ns hl hne hg =>
    have hs := (hg drive (by simp)).2.1
    cases hc : drive with
    | nil => rw [hc] at hl; simp at hl
    | cons c cs =>
      rw [hc] at hs
      simp only [List.mem_cons, not_or] at hs
      have hs1 : c ≠ slash := fun e => hs.1 e.symm
      simp [Seed.treeDatapth, Prepend.prependS, Prepend.prependSlash, Prepend.prependN, hd,
          Prepend.prependLen, hs1]

theorem parts_tree {p : Str} {names : List Name} (h : ClientPath p names) :
    parts (Seed.treeDatapth p) = Seed.treeDir :: names := by
  rw [treeDatapth_client h]
  apply parts_flat
  intro m hm
  rcases List.mem_cons.1 hm with rfl | hm
  · exact tree_slash
  · cases h with
    | unix hne hg => exact (hg m hm).2.1
    | windows hl hne hg => exact (hg m hm).2.1

theorem hexDigit_slash (n : Nat) : hexDigit n ≠ slash := by
  have : ∀ k : Fin 16, hexDigit k.1 ≠ slash := by decide
  rw [hexDigit_mod]
  exact this ⟨n % 16, Nat.mod_lt _ (by decide)⟩

theorem hex04_slash {n : Nat} (h : n < 65536) : slash ∉ hex04 n ∧ hex04 n ≠ Seed.treeDir := by
  rw [hex04_small h]
  constructor
  · intro hm
    simp only [List.mem_cons, List.not_mem_nil, or_false] at hm
    rcases hm with e | e | e | e
    all_goals exact absurd e.symm (hexDigit_slash _)
  · intro e
    have := congrArg List.length e
    simp [Seed.treeDir, bytes] at this

theorem parts_mk {d : Dpth} (hd : d.Ok) (gz : Bool) :
    parts (dpthMk d gz) = [hex04 d.a, hex04 d.b, hex04 d.c ++ (if gz then bytes ".gz" else [])] := by
  unfold dpthMk
  simp only [List.append_assoc, List.cons_append, List.nil_append]
  rw [parts_cons (hex04_slash hd.1).1, parts_cons (hex04_slash hd.2.1).1, parts_plain]
  intro hm
  rcases List.mem_append.1 hm with hm | hm
  · exact (hex04_slash hd.2.2).1 hm
  · cases gz
    · simp at hm
    · revert hm; decide

/-! ## The checks of lengths -/

theorem takeWhile_name {n : Name} (h : slash ∉ n) (t : Str) (ht : t.head? = some slash ∨ t = []) :
    (n ++ t).takeWhile (· ≠ slash) = n ∧ (n ++ t).dropWhile (· ≠ slash) = t := by
  induction n with
  | nil =>
    cases t with
    | nil => simp
    | cons c cs =>
      simp only [List.head?_cons, Option.some.injEq, reduceCtorEq, or_false] at ht
      simp [ht]
  | cons c cs ih =>
    simp only [List.mem_cons, not_or] at h
    have hc : c ≠ slash := fun e => h.1 e.symm
    obtain ⟨h1, h2⟩ := ih h.2
    simp only [List.cons_append]
    constructor
    · rw [List.takeWhile_cons_of_pos (by simpa using hc), h1]
    · rw [List.dropWhile_cons_of_pos (by simpa using hc), h2]

theorem flat_head (names : List Name) :
    (names.flatMap (fun n => slash :: n)).head? = some slash ∨ names.flatMap (fun n => slash :: n) = [] := by
  cases names with
  | nil => right; rfl
  | cons n ns => left; rfl

theorem partsTooLong_flat (m : Nat) (n : Name) (names : List Name) (h : ∀ x ∈ n :: names, slash ∉ x) :
    partsTooLong m (n ++ names.flatMap (fun x => slash :: x)) = false ↔ ∀ x ∈ n :: names, x.length ≤ m := by
  induction names generalizing n with
  | nil =>
    obtain ⟨h1, h2⟩ := takeWhile_name (h n (by simp)) [] (Or.inr rfl)
    rw [List.flatMap_nil, partsTooLong, h1]
    by_cases hl : n.length > m
    · rw [if_pos hl]
      simp only [Bool.true_eq_false, List.mem_singleton, forall_eq, false_iff]
      omega
    · rw [if_neg hl]
      split
      · simp only [List.mem_singleton, forall_eq, true_iff]; omega
      · next hx => rw [h2] at hx; cases hx
  | cons k ks ih =>
    obtain ⟨h1, h2⟩ := takeWhile_name (h n (by simp)) ((k :: ks).flatMap (fun x => slash :: x)) (flat_head _)
    rw [partsTooLong, h1]
    by_cases hl : n.length > m
    · rw [if_pos hl]
      simp only [Bool.true_eq_false, false_iff]
      intro hx
      have := hx n (by simp)
      omega
    · rw [if_neg hl]
      split
      · next hx => rw [h2] at hx; simp at hx
      · next x cp hx =>
        rw [h2, List.flatMap_cons, List.cons_append] at hx
        cases hx
        rw [ih k (fun x hx => h x (by simp_all))]
        constructor
        · intro hk x hx
          rcases List.mem_cons.1 hx with rfl | hx
          · omega
          · exact hk x hx
        · intro hk x hx
          exact hk x (by simp_all)

theorem pathTooLong_client {lim : Limits} {treeLen : Nat} {p : Str} {names : List Name} (h : ClientPath p names)
    (h2 : 2 ≤ lim.name) :
    pathTooLong lim treeLen p = false ↔
      treeLen + p.length + 1 ≤ lim.full ∧ ∀ n ∈ names, n.length ≤ lim.name := by
  unfold pathTooLong
  by_cases hl : treeLen + p.length + 1 > lim.full
  · rw [if_pos hl]
    simp only [Bool.true_eq_false, false_iff]
    omega
  · rw [if_neg hl]
    have hl' : treeLen + p.length + 1 ≤ lim.full := by omega
    simp only [hl', true_and]
    clear hl hl'
    cases h with
    | unix hne hg =>
      cases names with
      | nil => exact absurd rfl hne
      | cons n ns =>
        simp only [List.flatMap_cons, List.cons_append]
        rw [List.dropWhile_cons_of_neg (by simp)]
        exact partsTooLong_flat _ _ _ (good_slash hg)
    | @windows drive ns hd hne hg =>
      obtain ⟨_, h3⟩ := takeWhile_name (hg drive (by simp)).2.1 (ns.flatMap (fun x => slash :: x)) (flat_head _)
      rw [h3]
      cases ns with
      | nil => exact absurd rfl hne
      | cons n ns =>
        simp only [List.flatMap_cons, List.cons_append]
        rw [partsTooLong_flat _ _ _ (good_slash (fun x hx => hg x (by simp_all)))]
        constructor
        · intro hk x hx
          rcases List.mem_cons.1 hx with rfl | hx
          · omega
          · exact hk x hx
        · intro hk x hx
          exact hk x (by simp_all)

/-! ## The directory -/

/-- What is there is in directories. -/
def Closed (d : Disk) : Prop := d [] = some .dir ∧ ∀ p n, d (p ++ [n]) ≠ none → d p = some .dir

theorem closed_prefix {d : Disk} (h : Closed d) {p q : List Name} (hp : p <+: q) (hq : d q = some .dir) :
    d p = some .dir := by
  obtain ⟨r, rfl⟩ := hp
  obtain ⟨s, rfl⟩ : ∃ s : List Name, r = s.reverse := ⟨r.reverse, by simp⟩
  induction s with
  | nil => simpa using hq
  | cons n s ih =>
    apply ih
    apply h.2 _ n
    rw [List.append_assoc, ← List.reverse_cons, hq]
    simp

theorem fits_prefix {k : Kernel} {base : Nat} {p q : List Name} (hp : p <+: q) (hq : Fits k base q) :
    Fits k base p := by
  obtain ⟨r, rfl⟩ := hp
  obtain ⟨h1, h2⟩ := hq
  constructor
  · unfold textLen at h1 ⊢
    rw [List.map_append, List.sum_append] at h1
    omega
  · exact fun n hn => h2 n (by simp [hn])

theorem prefix_snoc {p q : List Name} {n : Name} : p <+: q ++ [n] ↔ p <+: q ∨ p = q ++ [n] := by
  constructor
  · intro h
    by_cases hl : p.length ≤ q.length
    · exact Or.inl (List.prefix_of_prefix_length_le h (List.prefix_append _ _) hl)
    · right
      have h1 := h.length_le
      simp only [List.length_append, List.length_cons, List.length_nil] at h1
      exact List.IsPrefix.eq_of_length h (by simp; omega)
  · rintro (h | rfl)
    · exact h.trans (List.prefix_append _ _)
    · exact List.prefix_rfl

theorem mkpath_cons (k : Kernel) (base : Nat) (d : Disk) (x y : Name) (up : List Name) :
    mkpath k base d (x :: y :: up) =
      match lstat k base d (y :: up).reverse with
      | some _ => some d
      | none =>
        match mkpath k base d (y :: up) with
        | none => none
        | some d' => mkdir k base d' (y :: up).reverse := rfl

/-- `mkpath` makes the directories that lead to a place. -/
theorem mkpath_spec {k : Kernel} {base : Nat} {d : Disk} (hc : Closed d) (x : Name) (up : List Name)
    (hf : Fits k base up.reverse) (hn : ∀ p c, p <+: up.reverse → d p ≠ some (.file c)) :
    ∃ d', mkpath k base d (x :: up) = some d' ∧ Closed d' ∧
      (∀ p, p <+: up.reverse → d' p = some .dir) ∧ (∀ p, ¬ p <+: up.reverse → d' p = d p) := by
  induction up generalizing x with
  | nil =>
    refine ⟨d, rfl, hc, ?_, fun _ _ => rfl⟩
    intro p hp
    rw [List.reverse_nil, List.prefix_nil] at hp
    rw [hp]
    exact hc.1
  | cons y up ih =>
    have hpre : up.reverse <+: (y :: up).reverse := by rw [List.reverse_cons]; exact List.prefix_append _ _
    cases hd : d (y :: up).reverse with
    | some n =>
      refine ⟨d, ?_, hc, ?_, fun _ _ => rfl⟩
      · rw [mkpath_cons]
        simp only [lstat, if_pos hf, hd]
      · intro p hp
        cases n with
        | dir => exact closed_prefix hc hp hd
        | file c => exact absurd hd (hn _ c List.prefix_rfl)
    | none =>
      obtain ⟨d1, h1, h2, h3, h4⟩ := ih y (fits_prefix hpre hf) (fun p c hp => hn p c (hp.trans hpre))
      have hnp : ¬ (y :: up).reverse <+: up.reverse := fun h => by
        have := h.length_le
        simp at this
        omega
      have hy : d1 (y :: up).reverse = none := by rw [h4 _ hnp, hd]
      have hpar : parentOk d1 (y :: up).reverse = true := by
        unfold parentOk
        rw [List.reverse_cons, List.dropLast_concat]
        simp [h3 _ List.prefix_rfl]
      have hm : mkdir k base d1 (y :: up).reverse = some (d1.put (y :: up).reverse .dir) := by
        unfold mkdir
        rw [if_pos ⟨hf, hpar, hy⟩]
      refine ⟨d1.put (y :: up).reverse .dir, ?_, ?_, ?_, ?_⟩
      · rw [mkpath_cons, h1]
        simp only [lstat, if_pos hf, hd]
        exact hm
      · constructor
        · simp only [Disk.put]
          split
          · rfl
          · exact h2.1
        · intro p n hp
          simp only [Disk.put] at hp ⊢
          split
          · rfl
          · next hne =>
            by_cases he : p ++ [n] = (y :: up).reverse
            · rw [List.reverse_cons] at he
              obtain ⟨rfl, _⟩ := List.append_inj' he rfl
              exact h3 _ List.prefix_rfl
            · rw [if_neg he] at hp
              exact h2.2 _ _ hp
      · intro p hp
        simp only [Disk.put]
        split
        · rfl
        · next hne =>
          rw [List.reverse_cons, prefix_snoc] at hp
          rcases hp with hp | hp
          · exact h3 p hp
          · exact absurd (by rw [hp, List.reverse_cons]) hne
      · intro p hp
        have hne : p ≠ (y :: up).reverse := fun e => hp (e ▸ List.prefix_rfl)
        simp only [Disk.put, if_neg hne]
        exact h4 p (fun h => hp (h.trans hpre))

/-- What is in the directory: these files, and directories that lead to them. -/
structure Holds (d : Disk) (S : List (List Name × Str)) : Prop where
  closed : Closed d
  files : ∀ e ∈ S, d e.1 = some (.file e.2)
  onlyFiles : ∀ p c, d p = some (.file c) → ∃ e ∈ S, e.1 = p
  dirs : ∀ p, d p = some .dir → p = [] ∨ ∃ e ∈ S, p <+: e.1

theorem holds_empty : Holds emptyDisk [] where
  closed := by
    refine ⟨rfl, ?_⟩
    intro p n h
    exact absurd (by simp [emptyDisk]) h
  files := by simp
  onlyFiles := by
    intro p c h
    unfold emptyDisk at h
    split at h <;> cases h
  dirs := by
    intro p h
    unfold emptyDisk at h
    split at h
    · next hp => exact Or.inl hp
    · cases h

/-- A place apart from all that are taken can be taken. -/
theorem store_ok {k : Kernel} {base : Nat} {d : Disk} {S : List (List Name × Str)} (hs : Holds d S)
    {q : List Name} (hq : q ≠ []) (hf : Fits k base q) (ha : ∀ e ∈ S, Apart e.1 q) (content : Str) :
    ∃ d1 d2, mkpath k base d q.reverse = some d1 ∧ openWrite k base d1 q content = some d2 ∧
      Holds d2 (S ++ [(q, content)]) := by
  obtain ⟨up, x, hux⟩ : ∃ up x, q = up ++ [x] := ⟨_, _, (List.dropLast_concat_getLast hq).symm⟩
  have hrev : q.reverse = x :: up.reverse := by rw [hux]; simp
  have hup : up <+: q := by rw [hux]; exact List.prefix_append _ _
  have hnf : ∀ p c, p <+: up → d p ≠ some (.file c) := by
    intro p c hp hd
    obtain ⟨e, he, rfl⟩ := hs.onlyFiles p c hd
    exact (ha e he).1 (hp.trans hup)
  obtain ⟨d1, h1, h2, h3, h4⟩ := mkpath_spec (k := k) (base := base) hs.closed x up.reverse
    (by rw [List.reverse_reverse]; exact fits_prefix hup hf) (by rw [List.reverse_reverse]; exact hnf)
  rw [List.reverse_reverse] at h3 h4
  have hqup : ¬ q <+: up := fun h => by
    have := h.length_le
    rw [hux] at this
    simp at this
    omega
  have hq1 : d1 q ≠ some .dir := by
    rw [h4 q hqup]
    intro h
    rcases hs.dirs q h with h | ⟨e, he, hpe⟩
    · exact hq h
    · exact (ha e he).2 hpe
  have hpar : parentOk d1 q = true := by
    unfold parentOk
    rw [hux, List.dropLast_concat]
    simp [h3 _ List.prefix_rfl]
  have hnotS : ∀ e ∈ S, e.1 ≠ q ∧ ¬ e.1 <+: up := fun e he =>
    ⟨fun h => (ha e he).1 (h ▸ List.prefix_rfl), fun h => (ha e he).1 (h.trans hup)⟩
  refine ⟨d1, d1.put q (.file content), by rw [hrev]; exact h1, by unfold openWrite; rw [if_pos ⟨hf, hpar, hq1⟩], ?_⟩
  constructor
  · constructor
    · simp only [Disk.put]
      rw [if_neg (fun h => hq h.symm)]
      exact h2.1
    · intro p n hp
      have hpd : d1 p = some .dir := by
        simp only [Disk.put] at hp
        by_cases he : p ++ [n] = q
        · rw [hux] at he
          obtain ⟨rfl, _⟩ := List.append_inj' he rfl
          exact h3 _ List.prefix_rfl
        · rw [if_neg he] at hp
          exact h2.2 _ _ hp
      simp only [Disk.put]
      rw [if_neg (fun h : p = q => hq1 (h ▸ hpd))]
      exact hpd
  · intro e he
    simp only [Disk.put]
    rcases List.mem_append.1 he with he | he
    · rw [if_neg (hnotS e he).1, h4 _ (hnotS e he).2]
      exact hs.files e he
    · simp only [List.mem_singleton] at he
      rw [he]
      simp
  · intro p c hp
    simp only [Disk.put] at hp
    by_cases he : p = q
    · exact ⟨(q, content), by simp, he.symm⟩
    · rw [if_neg he] at hp
      by_cases hpu : p <+: up
      · rw [h3 p hpu] at hp; cases hp
      · rw [h4 p hpu] at hp
        obtain ⟨e, h, h'⟩ := hs.onlyFiles p c hp
        exact ⟨e, by simp [h], h'⟩
  · intro p hp
    simp only [Disk.put] at hp
    by_cases he : p = q
    · rw [if_pos he] at hp; cases hp
    · rw [if_neg he] at hp
      by_cases hpu : p <+: up
      · exact Or.inr ⟨(q, content), by simp, hpu.trans hup⟩
      · rw [h4 p hpu] at hp
        rcases hs.dirs p hp with h | ⟨e, h, h'⟩
        · exact Or.inl h
        · exact Or.inr ⟨e, by simp [h], h'⟩

/-! ## The files one after the other -/

/-- The data paths that are given, whatever happens to the files. -/
def assign (e : Env) (d : Dpth) : List New → List Str
  | [] => []
  | f :: fs =>
    let n := newDatapth e.tree e.lim e.treeLen d f
    n.1 :: assign e (if n.2 then d else (dpthIncr e.maxSub d).1) fs

theorem receiveAll_ok (e : Env) (fs : List New) (s : St) (S : List (List Name × Str)) (hs : Holds s.disk S)
    (hdot : ∀ f ∈ fs, PathCmp.hasDotComponent f.path = false)
    (hfit : ∀ p ∈ assign e s.dpth fs, Fits e.kernel e.base (parts p) ∧ parts p ≠ [])
    (hap : (assign e s.dpth fs).Pairwise (fun p q => Apart (parts p) (parts q)))
    (haS : ∀ x ∈ S, ∀ p ∈ assign e s.dpth fs, Apart x.1 (parts p)) :
    ∃ s', receiveAll e s fs = some (assign e s.dpth fs, s') ∧
      Holds s'.disk (S ++ ((assign e s.dpth fs).map parts).zip (fs.map (·.content))) := by
  induction fs generalizing s S with
  | nil => exact ⟨s, rfl, by simpa [assign] using hs⟩
  | cons f fs ih =>
    simp only [assign, List.mem_cons, forall_eq_or_imp, List.pairwise_cons] at hfit hap haS hdot
    obtain ⟨d1, d2, h1, h2, h3⟩ := store_ok hs hfit.1.2 hfit.1.1 (fun x hx => (haS x hx).1) f.content
    have hr : receive e s f = some ((newDatapth e.tree e.lim e.treeLen s.dpth f).1,
        ⟨d2, if (newDatapth e.tree e.lim e.treeLen s.dpth f).2 then s.dpth else (dpthIncr e.maxSub s.dpth).1⟩) := by
      unfold receive
      rw [hdot.1]
      simp only [Bool.false_eq_true, if_false, h1, h2]
    obtain ⟨s', k1, k2⟩ := ih ⟨d2, if (newDatapth e.tree e.lim e.treeLen s.dpth f).2 then s.dpth
      else (dpthIncr e.maxSub s.dpth).1⟩ _ h3 hdot.2 hfit.2 hap.2 (by
        intro x hx p hp
        rcases List.mem_append.1 hx with hx | hx
        · exact (haS x hx).2 p hp
        · simp only [List.mem_singleton] at hx
          rw [hx]
          exact hap.1 p hp)
    refine ⟨s', ?_, ?_⟩
    · simp only [receiveAll, hr, k1, assign]
    · simpa [assign, List.append_assoc] using k2

/-! ## Paths of a client have no dot components -/

theorem parts_ne_nil (a : Str) : parts a ≠ [] := by
  cases a with
  | nil => simp [parts]
  | cons c cs =>
    rw [parts]
    split
    · simp
    · split <;> simp

theorem parts_append (a b : Str) : parts (a ++ slash :: b) = parts a ++ parts b := by
  induction a with
  | nil => simp [parts]
  | cons c cs ih =>
    rw [List.cons_append, parts]
    by_cases hc : c = slash
    · rw [if_pos hc, ih, parts, if_pos hc]; rfl
    · rw [if_neg hc, ih]
      conv => rhs; rw [parts, if_neg hc]
      have hne := parts_ne_nil cs
      generalize parts cs = l at hne ⊢
      cases l with
      | nil => exact absurd rfl hne
      | cons h t => rfl

theorem mem_parts {c p : Str} (h : Component c p) : c ∈ parts p := by
  obtain ⟨hc, pre, post, rfl, hpre, hpost⟩ := h
  have h1 : c ∈ parts (c ++ post) := by
    rcases hpost with rfl | hpost
    · rw [List.append_nil, parts_plain hc]; simp
    · cases post with
      | nil => cases hpost
      | cons x xs =>
        simp only [List.head?_cons, Option.some.injEq] at hpost
        rw [hpost, parts_cons hc]
        simp
  rcases hpre with rfl | hpre
  · simpa using h1
  · obtain ⟨a, rfl⟩ : ∃ a, pre = a ++ [slash] := by
      have hne : pre ≠ [] := fun e => by rw [e] at hpre; cases hpre
      rw [List.getLast?_eq_some_getLast hne] at hpre
      have hl : pre.getLast hne = slash := Option.some.inj hpre
      exact ⟨pre.dropLast, by rw [← hl, List.dropLast_concat_getLast]⟩
    rw [List.append_assoc, List.append_assoc, List.singleton_append, parts_append]
    exact List.mem_append_right _ h1

theorem no_dot {p : Str} {names : List Name} (h : ClientPath p names) : PathCmp.hasDotComponent p = false := by
  have hp : ∀ n ∈ parts p, n ≠ [dot] ∧ n ≠ [dot, dot] := by
    cases h with
    | unix hne hg =>
      cases names with
      | nil => exact absurd rfl hne
      | cons n ns =>
        rw [List.flatMap_cons, List.cons_append, show ∀ t : Str, slash :: t = [] ++ slash :: t from fun _ => rfl,
          parts_cons (by simp), parts_flat _ _ (good_slash hg)]
        intro m hm
        rcases List.mem_cons.1 hm with rfl | hm
        · decide
        · exact (hg m hm).2.2.2
    | windows hl hne hg =>
      rw [parts_flat _ _ (good_slash hg)]
      exact fun m hm => (hg m hm).2.2.2
  cases hd : PathCmp.hasDotComponent p with
  | false => rfl
  | true =>
    exfalso
    unfold PathCmp.hasDotComponent at hd
    rw [PathCmp.dotLoop_spec] at hd
    obtain ⟨pre, c, post, h1, h2, h3, h4⟩ := hd
    have hs : slash ∉ c := by rcases h2 with rfl | rfl <;> decide
    have hm := mem_parts (c := c) (p := p) ⟨hs, pre, post, h1, h3.imp (fun h => h.1) id, h4⟩
    rcases h2 with rfl | rfl
    · exact (hp _ hm).1 rfl
    · exact (hp _ hm).2 rfl

/-! ## The data paths are apart -/

theorem newDatapth_cases (e : Env) (d : Dpth) (f : New) :
    newDatapth e.tree e.lim e.treeLen d f = (Seed.treeDatapth f.path, true) ∧ e.tree = true ∧
      treedata e.lim e.treeLen f = true ∨
    ∃ gz, newDatapth e.tree e.lim e.treeLen d f = (dpthMk d gz, false) := by
  unfold newDatapth
  split
  · next h =>
    left
    simp only [Bool.and_eq_true] at h
    exact ⟨rfl, h.1, h.2⟩
  · exact Or.inr ⟨_, rfl⟩

theorem treedata_isFile {lim : Limits} {t : Nat} {f : New} (h : treedata lim t f = true) : IsFile f := by
  unfold treedata at h
  split at h
  · cases h
  · next h1 =>
    split at h
    · cases h
    · next h2 =>
      refine ⟨?_, by simpa using h1⟩
      by_cases a : f.cmd = .file
      · exact Or.inl a
      · by_cases b : f.cmd = .encFile
        · exact Or.inr (Or.inl b)
        · by_cases c : f.cmd = .efsFile
          · exact Or.inr (Or.inr c)
          · exact absurd ⟨a, b, c⟩ h2

/-- Every data path is in the tree at the place of its file, or numbered from the counter on. -/
theorem assign_mem (e : Env) (fs : List New) (d : Dpth) (hd : d.Ok)
    (hk : ∀ k, k + 1 < fs.length → (dpthIncr e.maxSub (after e.maxSub d k)).2 = true) (p : Str)
    (hp : p ∈ assign e d fs) :
    (∃ f ∈ fs, p = Seed.treeDatapth f.path ∧ treedata e.lim e.treeLen f = true) ∨
    ∃ d' gz, d'.Ok ∧ d.rank ≤ d'.rank ∧ p = dpthMk d' gz := by
  induction fs generalizing d with
  | nil => cases hp
  | cons f fs ih =>
    simp only [assign, List.mem_cons] at hp
    rcases newDatapth_cases e d f with ⟨hn, ht, htd⟩ | ⟨gz, hn⟩
    · rw [hn] at hp
      rcases hp with rfl | hp
      · exact Or.inl ⟨f, by simp, rfl, htd⟩
      · rcases ih d hd (fun k hk' => hk k (by simp only [List.length_cons]; omega)) hp with ⟨g, hg, h⟩ | h
        · exact Or.inl ⟨g, by simp [hg], h⟩
        · exact Or.inr h
    · rw [hn] at hp
      rcases hp with rfl | hp
      · exact Or.inr ⟨d, gz, hd, Nat.le_refl _, rfl⟩
      · have hne : fs ≠ [] := fun h => by rw [h] at hp; cases hp
        have hlen : 0 < fs.length := List.length_pos_iff.2 hne
        have h0 := hk 0 (by simp only [List.length_cons]; omega)
        obtain ⟨hr, ho⟩ := dpthIncr_ok hd h0
        rcases ih _ ho (fun k hk' => hk (k + 1) (by simp only [List.length_cons]; omega)) hp with ⟨g, hg, h⟩ | ⟨d', gz', h1, h2, h3⟩
        · exact Or.inl ⟨g, by simp [hg], h⟩
        · exact Or.inr ⟨d', gz', h1, Nat.le_of_lt (Nat.lt_of_lt_of_le hr h2), h3⟩

theorem apart_cons {x : Name} {p q : List Name} (h : Apart p q) : Apart (x :: p) (x :: q) := by
  refine ⟨fun h' => h.1 ?_, fun h' => h.2 ?_⟩
  · exact (List.cons_prefix_cons.1 h').2
  · exact (List.cons_prefix_cons.1 h').2

theorem apart_head {x y : Name} {p q : List Name} (h : x ≠ y) : Apart (x :: p) (y :: q) :=
  ⟨fun h' => h (List.cons_prefix_cons.1 h').1, fun h' => h (List.cons_prefix_cons.1 h').1.symm⟩

theorem apart_mk {d e : Dpth} (hd : d.Ok) (he : e.Ok) (h : d ≠ e) (g k : Bool) :
    Apart (parts (dpthMk d g)) (parts (dpthMk e k)) := by
  have key : ∀ {d e : Dpth} {g k : Bool}, d.Ok → e.Ok → d ≠ e →
      ¬ parts (dpthMk d g) <+: parts (dpthMk e k) := by
    intro d e g k hd he h hp
    have heq := List.IsPrefix.eq_of_length hp (by rw [parts_mk hd, parts_mk he]; rfl)
    rw [parts_mk hd, parts_mk he] at heq
    simp only [List.cons.injEq, and_true] at heq
    obtain ⟨h1, h2, h3⟩ := heq
    obtain ⟨h3, _⟩ := List.append_inj h3 (by rw [hex04_len hd.2.2, hex04_len he.2.2])
    have e1 := hex04_inj hd.1 he.1 h1
    have e2 := hex04_inj hd.2.1 he.2.1 h2
    have e3 := hex04_inj hd.2.2 he.2.2 h3
    apply h
    cases d; cases e; simp_all
  exact ⟨key hd he h, key he hd (fun x => h x.symm)⟩

theorem apart_tree_mk {p : Str} {names : List Name} (h : ClientPath p names) {d : Dpth} (hd : d.Ok) (g : Bool) :
    Apart (parts (Seed.treeDatapth p)) (parts (dpthMk d g)) ∧
    Apart (parts (dpthMk d g)) (parts (Seed.treeDatapth p)) := by
  rw [parts_tree h, parts_mk hd]
  exact ⟨apart_head (fun x => (hex04_slash hd.1).2 x.symm), apart_head (hex04_slash hd.1).2⟩

theorem assign_apart (e : Env) (fs : List New) (d : Dpth) (hd : d.Ok) (hc : OneClient fs)
    (hk : ∀ k, k + 1 < fs.length → (dpthIncr e.maxSub (after e.maxSub d k)).2 = true) :
    (assign e d fs).Pairwise (fun p q => Apart (parts p) (parts q)) := by
  induction fs generalizing d with
  | nil => exact List.Pairwise.nil
  | cons f fs ih =>
    obtain ⟨hc1, hc2⟩ := hc
    simp only [List.pairwise_cons, List.mem_cons, forall_eq_or_imp] at hc1 hc2
    obtain ⟨names, hf⟩ := hc1.1
    rcases newDatapth_cases e d f with ⟨hn, ht, htd⟩ | ⟨gz, hn⟩
    · have hk' : ∀ k, k + 1 < fs.length → (dpthIncr e.maxSub (after e.maxSub d k)).2 = true :=
        fun k h => hk k (by simp only [List.length_cons]; omega)
      simp only [assign, hn, if_true, List.pairwise_cons]
      refine ⟨?_, ih d hd ⟨hc1.2, hc2.2⟩ hk'⟩
      intro p hp
      rcases assign_mem e fs d hd hk' p hp with ⟨g, hg, rfl, hgt⟩ | ⟨d', gz', h1, h2, rfl⟩
      · obtain ⟨ns, hgn⟩ := hc1.2 g hg
        rw [parts_tree hf, parts_tree hgn]
        exact apart_cons (hc2.1 g hg (treedata_isFile htd) (treedata_isFile hgt) _ _ hf hgn)
      · exact (apart_tree_mk hf h1 gz').1
    · simp only [assign, hn, Bool.false_eq_true, if_false, List.pairwise_cons]
      by_cases hne : fs = []
      · subst hne
        exact ⟨by simp [assign], List.Pairwise.nil⟩
      · have hlen : 0 < fs.length := List.length_pos_iff.2 hne
        have h0 := hk 0 (by simp only [List.length_cons]; omega)
        obtain ⟨hr, ho⟩ := dpthIncr_ok hd h0
        have hk' : ∀ k, k + 1 < fs.length →
            (dpthIncr e.maxSub (after e.maxSub (dpthIncr e.maxSub d).1 k)).2 = true :=
          fun k h => hk (k + 1) (by simp only [List.length_cons]; omega)
        refine ⟨?_, ih _ ho ⟨hc1.2, hc2.2⟩ hk'⟩
        intro p hp
        rcases assign_mem e fs _ ho hk' p hp with ⟨g, hg, rfl, hgt⟩ | ⟨d', gz', h1, h2, rfl⟩
        · obtain ⟨ns, hgn⟩ := hc1.2 g hg
          exact (apart_tree_mk hgn hd gz).2
        · apply apart_mk hd h1
          intro x
          have hr' : d.rank < (dpthIncr e.maxSub d).1.rank := hr
          rw [x] at hr'
          have : d'.rank < d'.rank := by rw [x] at h2; exact Nat.lt_of_lt_of_le hr' h2
          omega

theorem flat_length (ns : List Name) :
    (ns.flatMap (fun n => slash :: n)).length = (ns.map (·.length + 1)).sum := by
  induction ns with
  | nil => rfl
  | cons n ns ih =>
    rw [List.flatMap_cons, List.length_append, ih, List.map_cons, List.sum_cons, List.length_cons]

theorem textLen_tree {p : Str} {names : List Name} (h : ClientPath p names) (base : Nat) :
    base + 2 + p.length ≤ textLen base (Seed.treeDir :: names) ∧
    textLen base (Seed.treeDir :: names) ≤ base + 3 + p.length := by
  have ht : Seed.treeDir.length = 1 := by decide
  unfold textLen
  rw [List.map_cons, List.sum_cons, ht]
  cases h with
  | unix hne hg => rw [flat_length]; omega
  | windows h2 hne hg =>
    rw [List.length_append, flat_length, List.map_cons, List.sum_cons]
    omega

end Verif.DataPath
