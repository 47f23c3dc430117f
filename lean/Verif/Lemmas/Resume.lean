import Verif.Spec.Resume
import Verif.Lemmas.Phase2

namespace Verif
open Verif.Phase2 Verif.Resume Verif.Manifest Verif.Iobuf Verif.PathCmp

variable {E R : Type}

/-! ### Comparisons -/

theorem pathcmp_range : ∀ a b : Str, pathcmp a b = -1 ∨ pathcmp a b = 0 ∨ pathcmp a b = 1
  | [], [] => by simp [pathcmp]
  | _ :: _, [] => by simp [pathcmp]
  | [], _ :: _ => by simp [pathcmp]
  | x :: xs, y :: ys => by
    rw [pathcmp]
    have ih := pathcmp_range xs ys
    repeat' split
    all_goals simp_all

theorem iobufPathcmp_range (a b : Cmd × Option Str) :
    iobufPathcmp a b = -1 ∨ iobufPathcmp a b = 0 ∨ iobufPathcmp a b = 1 := by
  have h : pathcmpP a.2 b.2 = -1 ∨ pathcmpP a.2 b.2 = 0 ∨ pathcmpP a.2 b.2 = 1 := by
    unfold pathcmpP
    split
    · simp
    · simp
    · simp
    · exact pathcmp_range _ _
  unfold iobufPathcmp
  simp only
  split
  · exact h
  · repeat' split
    all_goals simp

/-! ### What is recorded -/

theorem subject_eq {o : Out E} {p : E} (h : o.scanned = some p) : subject o = p := by
  cases o <;> simp_all [Out.scanned, subject]

theorem records_subject (w : Walk E) (scan : List E) (prev : Option (List E)) :
    (records w scan prev).map subject = scan := by
  have h : (phase2 w scan prev).filterMap Out.scanned = scan := by rw [phase2_flat, flat_scanned]
  conv => rhs; rw [← h]
  unfold records
  generalize phase2 w scan prev = l
  induction l with
  | nil => rfl
  | cons o l ih =>
    cases o <;> simp [List.filterMap_cons, Out.scanned, subject, ih]

theorem records_ok (w : Walk E) (hd : ∀ c p, w.dec c p ≠ .doneDeleted) (scan : List E)
    (prev : Option (List E)) (hs : SortedBy w.key scan) (hp : SortedBy w.key (prev.getD []))
    (hn : NoClash w.key (scan ++ prev.getD [])) :
    ∀ o ∈ records w scan prev, OutOk w scan (prev.getD []) o ∧ (∀ c, o.previous = some c → c ∈ prev.getD []) ∧
      o.scanned = some (subject o) := by
  intro o ho
  unfold records at ho
  rw [List.mem_filter] at ho
  obtain ⟨ho, hdel⟩ := ho
  rw [phase2_flat] at ho
  refine ⟨flat_ok w hd scan (prev.getD []) hs hp hn scan (prev.getD []) [] [] rfl rfl (by simp) (by simp) o ho,
    ?_, ?_⟩
  · intro c hc
    have := flat_previous w scan (prev.getD [])
    rw [← this, List.mem_filterMap]
    exact ⟨o, ho, hc⟩
  · cases o <;> simp_all [Out.scanned, subject]

/-- What is recorded about an entry depends only on the previous entry in the same place. -/
theorem out_unique {w : Walk E} {S S' P P' : List E} {o o' : Out E} (hP : SortedBy w.key P)
    (h1 : OutOk w S P o) (h1p : ∀ c, o.previous = some c → c ∈ P) (h1s : o.scanned = some (subject o))
    (h2 : OutOk w S' P' o') (h2p : ∀ c, o'.previous = some c → c ∈ P') (h2s : o'.scanned = some (subject o'))
    (he : subject o = subject o') (hsub : ∀ c ∈ P', c ∈ P)
    (hall : ∀ c ∈ P, SameKey (w.key c) (w.key (subject o)) → c ∈ P') : o = o' := by
  have notW : ∀ c p, w.dec c p = .changed ∨ w.dec c p = .doneChanged ∨ w.dec c p = .doneUnchanged →
      ¬ Whole (w.dec c p) := by
    intro c p h hw
    unfold Whole at hw
    rcases h with h | h | h <;> rw [h] at hw <;> simp at hw
  cases o with
  | deleted c => simp [Out.scanned] at h1s
  | new p =>
    cases o' with
    | deleted c => simp [Out.scanned] at h2s
    | new p' => simp only [subject] at he; rw [he]
    | changed p' c =>
      simp only [subject] at he; subst he
      exact absurd (h1 c (hsub c (h2p c rfl)) h2.1) (notW c _ (by rcases h2.2 with h | h <;> simp [h]))
    | unchanged p' c =>
      simp only [subject] at he; subst he
      exact absurd (h1 c (hsub c (h2p c rfl)) h2.1) (notW c _ (by simp [h2.2]))
  | changed p c =>
    have hc := h1p c rfl
    have hc' := hall c hc h1.1
    cases o' with
    | deleted c => simp [Out.scanned] at h2s
    | new p' =>
      simp only [subject] at he; subst he
      exact absurd (h2 c hc' h1.1) (notW c _ (by rcases h1.2 with h | h <;> simp [h]))
    | changed p' c' =>
      simp only [subject] at he; subst he
      rw [sorted_same_eq hP hc (hsub c' (h2p c' rfl)) (h1.1.trans h2.1.symm)]
    | unchanged p' c' =>
      simp only [subject] at he; subst he
      have e := sorted_same_eq hP hc (hsub c' (h2p c' rfl)) (h1.1.trans h2.1.symm)
      subst e
      have := h1.2
      rw [h2.2] at this
      simp at this
  | unchanged p c =>
    have hc := h1p c rfl
    have hc' := hall c hc h1.1
    cases o' with
    | deleted c => simp [Out.scanned] at h2s
    | new p' =>
      simp only [subject] at he; subst he
      exact absurd (h2 c hc' h1.1) (notW c _ (by simp [h1.2]))
    | changed p' c' =>
      simp only [subject] at he; subst he
      have e := sorted_same_eq hP hc (hsub c' (h2p c' rfl)) (h1.1.trans h2.1.symm)
      subst e
      have := h2.2
      rw [h1.2] at this
      simp at this
    | unchanged p' c' =>
      simp only [subject] at he; subst he
      rw [sorted_same_eq hP hc (hsub c' (h2p c' rfl)) (h1.1.trans h2.1.symm)]

theorem map_ext {A B : Type} {f : A → B} : ∀ {l l' : List A}, l.map f = l'.map f →
    (∀ a ∈ l, ∀ b ∈ l', f a = f b → a = b) → l = l'
  | [], [], _, _ => rfl
  | [], b :: l', h, _ => by simp at h
  | a :: l, [], h, _ => by simp at h
  | a :: l, b :: l', h, hu => by
    simp only [List.map_cons, List.cons.injEq] at h
    rw [hu a (by simp) b (by simp) h.1,
      map_ext h.2 (fun x hx y hy => hu x (by simp [hx]) y (by simp [hy]))]

/-- The records about the rest of the scan, made with the rest of the previous manifest, are the rest of
the records. -/
theorem records_split (w : Walk E) (hd : ∀ c p, w.dec c p ≠ .doneDeleted) (A B : List E)
    (prev prev' : Option (List E)) (hs : SortedBy w.key (A ++ B)) (hp : SortedBy w.key (prev.getD []))
    (hn : NoClash w.key ((A ++ B) ++ prev.getD []))
    (hsl : (prev'.getD []).Sublist (prev.getD []))
    (hall : ∀ c ∈ prev.getD [], ∀ p ∈ B, SameKey (w.key c) (w.key p) → c ∈ prev'.getD []) :
    ∃ X, records w (A ++ B) prev = X ++ records w B prev' ∧ X.map subject = A := by
  have hsB : SortedBy w.key B := (List.pairwise_append.1 hs).2.1
  have hp' : SortedBy w.key (prev'.getD []) := List.Pairwise.sublist hsl hp
  have hn' : NoClash w.key (B ++ prev'.getD []) := by
    intro a ha b hb
    refine hn a ?_ b ?_
    · rcases List.mem_append.1 ha with h | h
      · simp [h]
      · simp [hsl.subset h]
    · rcases List.mem_append.1 hb with h | h
      · simp [h]
      · simp [hsl.subset h]
  have hm := records_subject w (A ++ B) prev
  have ok1 := records_ok w hd (A ++ B) prev hs hp hn
  have ok2 := records_ok w hd B prev' hsB hp' hn'
  refine ⟨(records w (A ++ B) prev).take A.length, ?_, ?_⟩
  · have : (records w (A ++ B) prev).drop A.length = records w B prev' := by
      refine map_ext (f := subject) ?_ ?_
      · rw [List.map_drop, hm, records_subject]
        simp
      · intro a ha b hb hab
        obtain ⟨a1, a2, a3⟩ := ok1 a (List.mem_of_mem_drop ha)
        obtain ⟨b1, b2, b3⟩ := ok2 b hb
        refine out_unique hp a1 a2 a3 b1 b2 b3 hab (fun c hc => hsl.subset hc) ?_
        intro c hc hsk
        refine hall c hc (subject a) ?_ hsk
        rw [hab]
        have := records_subject w B prev'
        rw [← this]
        exact List.mem_map_of_mem hb
    rw [← this, List.take_append_drop]
  · rw [List.map_take, hm]
    simp

/-! ### Positions -/

theorem forwardPast_spec {target : Cmd × Option Str} {key : E → Cmd × Option Str} : ∀ {l : List E},
    SortedBy key l → (∀ x ∈ l, ¬ Clash target (key x)) →
    ∃ A, l = A ++ forwardPast target key l ∧
      (∀ a ∈ A, EntryLt (key a) target ∨ SameKey target (key a)) ∧
      (∀ b ∈ forwardPast target key l, EntryLt target (key b))
  | [], _, _ => ⟨[], by simp [forwardPast]⟩
  | x :: xs, hs, hc => by
    unfold SortedBy at hs
    rw [List.pairwise_cons] at hs
    have hcx := hc x (by simp)
    have hcases := pcmp_cases (E := Cmd × Option Str) (fun z => z) (a := target) (b := key x) hcx
    simp only [pcmp] at hcases
    rw [forwardPast]
    rcases hcases with ⟨h, h2⟩ | ⟨h, h2⟩ | ⟨h, h2⟩
    · rw [if_pos h]
      refine ⟨[x], rfl, ?_, ?_⟩
      · intro a ha
        rw [List.mem_singleton.1 ha]
        exact Or.inr h2
      · intro b hb
        exact (hs.1 b hb).same_left h2.symm
    · have : iobufPathcmp target (key x) = -1 := by
        rcases iobufPathcmp_range target (key x) with e | e | e <;> omega
      rw [if_neg (by omega), if_pos this]
      refine ⟨[], rfl, by simp, ?_⟩
      intro b hb
      rcases List.mem_cons.1 hb with rfl | hb
      · exact h2
      · exact h2.trans (hs.1 b hb)
    · rw [if_neg (by omega), if_neg (by omega)]
      obtain ⟨A, e, h3, h4⟩ := forwardPast_spec hs.2 (fun y hy => hc y (by simp [hy]))
      refine ⟨x :: A, by rw [List.cons_append, ← e], ?_, h4⟩
      intro a ha
      rcases List.mem_cons.1 ha with rfl | ha
      · exact Or.inl h2
      · exact h3 a ha

theorem lastGoodLoop_spec (i : Info R) : ∀ (l pre : List R) (got : Bool) (acc : Option R × Nat),
    (acc = (none, 0) ∨ ∃ q r, acc = (some r, q.length + 1) ∧ (q ++ [r]) <+: pre) →
    lastGoodLoop i got pre.length acc l = (none, 0) ∨
      ∃ q r, lastGoodLoop i got pre.length acc l = (some r, q.length + 1) ∧ (q ++ [r]) <+: (pre ++ l)
  | [], pre, got, acc, h => by
    rw [lastGoodLoop, List.append_nil]
    exact h
  | x :: l, pre, got, acc, h => by
    rw [lastGoodLoop]
    have e : pre.length + 1 = (pre ++ [x]).length := by simp
    rw [e, show pre ++ x :: l = (pre ++ [x]) ++ l by simp]
    refine lastGoodLoop_spec i l (pre ++ [x]) _ _ ?_
    split
    · rcases h with h | ⟨q, r, h, h2⟩
      · exact Or.inl h
      · exact Or.inr ⟨q, r, h, h2.trans (List.prefix_append _ _)⟩
    · split
      · exact Or.inr ⟨pre, x, by simp, List.prefix_refl _⟩
      · rcases h with h | ⟨q, r, h, h2⟩
        · exact Or.inl h
        · exact Or.inr ⟨q, r, h, h2.trans (List.prefix_append _ _)⟩

theorem lastGood_spec (i : Info R) (l : List R) :
    lastGood i l = (none, 0) ∨ ∃ q r, lastGood i l = (some r, q.length + 1) ∧ (q ++ [r]) <+: l := by
  have := lastGoodLoop_spec i l [] false (none, 0) (Or.inl rfl)
  simpa [lastGood] using this

/-- Whether a header is waiting for its footer, after a list. -/
def gotAfter (i : Info R) (l : List R) : Bool := l.foldl (fun g x => vssStart i x g) false

theorem vssStart_cases (i : Info R) (x : R) (g : Bool) :
    (Header i x ∧ ¬ EndsGroup i x ∧ vssStart i x g = true) ∨
    (¬ Header i x ∧ EndsGroup i x ∧ vssStart i x g = false) ∨
    (¬ Header i x ∧ ¬ EndsGroup i x ∧ vssStart i x g = g) := by
  unfold vssStart Header EndsGroup
  split <;> simp_all
  all_goals cases i.isDir x <;> simp_all

theorem gotAfter_snoc (i : Info R) (l : List R) (x : R) :
    gotAfter i (l ++ [x]) = vssStart i x (gotAfter i l) := by
  simp [gotAfter]

theorem inGroup_snoc (i : Info R) (l : List R) (x : R) :
    InGroup i (l ++ [x]) ↔ Header i x ∨ InGroup i l ∧ ¬ EndsGroup i x := by
  constructor
  · rintro ⟨a, y, b, e, hy, hb⟩
    rcases List.eq_nil_or_concat b with rfl | ⟨b, z, rfl⟩
    · have := List.append_inj_right' e rfl
      simp at this
      exact Or.inl (this ▸ hy)
    · have e2 : l ++ [x] = (a ++ y :: b) ++ [z] := by rw [e]; simp
      obtain ⟨e3, e4⟩ := List.append_inj' e2 rfl
      simp at e4
      exact Or.inr ⟨⟨a, y, b, e3, hy, fun z' h => hb z' (by simp [h])⟩, by rw [e4]; exact hb z (by simp)⟩
  · rintro (h | ⟨⟨a, y, b, e, hy, hb⟩, hx⟩)
    · exact ⟨l, x, [], rfl, h, by simp⟩
    · refine ⟨a, y, b ++ [x], by rw [e]; simp, hy, ?_⟩
      intro z hz
      rcases List.mem_append.1 hz with h | h
      · exact hb z h
      · rw [List.mem_singleton.1 h]; exact hx

theorem gotAfter_iff_rev (i : Info R) : ∀ l : List R, gotAfter i l.reverse = true ↔ InGroup i l.reverse
  | [] => by simp [gotAfter, InGroup]
  | x :: l => by
    rw [List.reverse_cons, gotAfter_snoc, inGroup_snoc]
    have ih := gotAfter_iff_rev i l
    rcases vssStart_cases i x (gotAfter i l.reverse) with ⟨h1, h2, h3⟩ | ⟨h1, h2, h3⟩ | ⟨h1, h2, h3⟩ <;>
      rw [h3] <;> simp_all

theorem gotAfter_iff (i : Info R) (l : List R) : gotAfter i l = true ↔ InGroup i l := by
  have := gotAfter_iff_rev i l.reverse
  rwa [List.reverse_reverse] at this

theorem lastGoodLoop_good (i : Info R) (full : List R) : ∀ (l pre : List R) (acc : Option R × Nat),
    full = pre ++ l →
    (∀ r n, acc = (some r, n) → Entire i r ∧ gotAfter i (full.take n) = false) →
    ∀ r n, lastGoodLoop i (gotAfter i pre) pre.length acc l = (some r, n) →
      Entire i r ∧ gotAfter i (full.take n) = false
  | [], pre, acc, _, h => by
    rw [lastGoodLoop]
    exact h
  | x :: l, pre, acc, e, h => by
    rw [lastGoodLoop, ← gotAfter_snoc, show pre.length + 1 = (pre ++ [x]).length by simp]
    refine lastGoodLoop_good i full l (pre ++ [x]) _ (by rw [e]; simp) ?_
    intro r n
    split
    · exact h r n
    · rename_i hg
      split
      · rename_i hc
        intro h2
        simp only [Prod.mk.injEq, Option.some.injEq] at h2
        obtain ⟨rfl, rfl⟩ := h2
        refine ⟨?_, ?_⟩
        · unfold Entire
          simpa using hc
        · rw [e, show pre ++ x :: l = (pre ++ [x]) ++ l by simp, List.take_left']
          · simpa using hg
          · rfl
      · exact h r n

theorem lastGood_good (i : Info R) (l : List R) (r : R) (n : Nat) (h : lastGood i l = (some r, n)) :
    Entire i r ∧ ¬ InGroup i (l.take n) := by
  have := lastGoodLoop_good i l l [] (none, 0) rfl (by simp) r n h
  rw [← gotAfter_iff]
  simpa using this

theorem lastGoodLoop_all (i : Info R) : ∀ (l : List R) (n : Nat) (acc : Option R × Nat), acc.2 = n →
    (∀ x ∈ l, (i.key x).1 ≠ .vss ∧ (i.key x).1 ≠ .encVss ∧
      ((i.key x).1.isFiledata || (i.key x).1.isVssdata) = i.endfile x) →
    (lastGoodLoop i false n acc l).2 = n + l.length
  | [], n, acc, h, _ => by rw [lastGoodLoop, h]; simp
  | x :: l, n, acc, h, hk => by
    obtain ⟨h1, h2, h3⟩ := hk x (by simp)
    rw [lastGoodLoop]
    have e : vssStart i x false = false := by
      unfold vssStart
      split <;> simp_all
    have e2 : ((!(i.key x).1.isFiledata && !(i.key x).1.isVssdata) || i.endfile x) = true := by
      rw [← h3]
      cases (i.key x).1.isFiledata <;> cases (i.key x).1.isVssdata <;> rfl
    simp only [e, e2]
    have := lastGoodLoop_all i l (n + 1) (some x, n + 1) rfl (fun y hy => hk y (by simp [hy]))
    simp only [List.length_cons]
    simp only [if_true, Bool.false_eq_true, if_false]
    omega

theorem forwardBeforeLoop_spec {target : Cmd × Option Str} {i : Info R}
    (hi : ∀ x, (i.endfile x || !(i.key x).1.isFiledata) = true) : ∀ (l : List R) (n : Nat),
    forwardBeforeLoop target i n n l = n + (l.takeWhile (fun x => decide (0 < iobufPathcmp target (i.key x)))).length
  | [], n => by simp [forwardBeforeLoop]
  | x :: l, n => by
    rw [forwardBeforeLoop, hi x]
    by_cases h : iobufPathcmp target (i.key x) ≤ 0
    · rw [if_pos h, List.takeWhile_cons_of_neg (by simp; omega)]
      simp
    · rw [if_neg h, List.takeWhile_cons_of_pos (by simp; omega)]
      simp only [if_true]
      rw [forwardBeforeLoop_spec hi l (n + 1)]
      simp only [List.length_cons]
      omega

theorem forwardBefore_eq {target : Cmd × Option Str} {i : Info R}
    (hi : ∀ x, (i.endfile x || !(i.key x).1.isFiledata) = true) (l : List R) :
    forwardBefore target i l = l.takeWhile (fun x => decide (0 < iobufPathcmp target (i.key x))) := by
  unfold forwardBefore
  rw [forwardBeforeLoop_spec hi, Nat.zero_add]
  generalize (fun x => decide (0 < iobufPathcmp target (i.key x))) = p
  clear hi
  induction l with
  | nil => rfl
  | cons x l ih =>
    by_cases h : p x
    · rw [List.takeWhile_cons_of_pos h]
      simp [ih]
    · rw [List.takeWhile_cons_of_neg h]
      simp

theorem outInfo_end (w : Walk E) (isDir : E → Bool) (x : Out E) :
    ((outInfo w isDir).endfile x || !((outInfo w isDir).key x).1.isFiledata) = true := by
  unfold outInfo
  simp only
  cases (w.key (subject x)).1.isFiledata <;> simp

/-! ### The point to resume at -/

theorem sorted_cut {K : R → Cmd × Option Str} {P Q S1 S2 : List R} {r : R}
    (hs : SortedBy K (P ++ r :: Q)) (he : P ++ r :: Q = S1 ++ S2)
    (h1 : ∀ x ∈ S1, EntryLt (K x) (K r) ∨ SameKey (K r) (K x)) (h2 : ∀ x ∈ S2, EntryLt (K r) (K x)) :
    S1 = P ++ [r] := by
  unfold SortedBy at hs
  rw [List.pairwise_append] at hs
  obtain ⟨_, hs2, hs3⟩ := hs
  rw [List.pairwise_cons] at hs2
  rw [show P ++ r :: Q = (P ++ [r]) ++ Q by simp, List.append_eq_append_iff] at he
  rcases he with ⟨a, h, h'⟩ | ⟨a, h, h'⟩
  · cases a with
    | nil => simpa using h
    | cons y a =>
      have hy := h1 y (by rw [h]; simp)
      have hy2 := hs2.1 y (by rw [h']; simp)
      rcases hy with hy | hy
      · exact absurd (hy.trans hy2) EntryLt.irrefl
      · exact absurd hy hy2.not_same
  · rcases List.eq_nil_or_concat a with rfl | ⟨a, y, rfl⟩
    · simpa using h.symm
    · exfalso
      have e : P ++ [r] = (S1 ++ a) ++ [y] := by rw [h]; simp
      have : r = y := by
        have := congrArg List.getLast? e
        simpa using this
      subst this
      exact absurd (h2 r (by rw [h']; simp)) EntryLt.irrefl

theorem takeWhile_cut {p : R → Bool} {u X Y : List R} (hu : u <+: X ++ Y) (hX : ∀ x ∈ X, x ∈ u)
    (hnd : (X ++ Y).Nodup) (h1 : ∀ x ∈ X, p x = true) (h2 : ∀ x ∈ Y, p x = false) : u.takeWhile p = X := by
  obtain ⟨v, hv⟩ := hu
  rw [List.append_eq_append_iff] at hv
  rcases hv with ⟨a, h, h'⟩ | ⟨a, h, h'⟩
  · cases a with
    | nil =>
      rw [show u = X by simpa using h.symm]
      clear h h' hX hnd h2
      induction X with
      | nil => rfl
      | cons x X ih =>
        rw [List.takeWhile_cons_of_pos (h1 x (by simp)), ih (fun y hy => h1 y (by simp [hy]))]
    | cons y a =>
      exfalso
      have hy := hX y (by rw [h]; simp)
      rw [h, List.append_assoc, List.nodup_append] at hnd
      exact hnd.2.2 y hy y (by simp) rfl
  · rw [h, List.takeWhile_append_of_pos (fun x hx => h1 x hx)]
    cases a with
    | nil => simp
    | cons y a =>
      rw [List.takeWhile_cons_of_neg (by rw [h2 y (by rw [h']; simp)]; simp)]
      simp

theorem sorted_nodup {K : R → Cmd × Option Str} {l : List R} (h : SortedBy K l) : l.Nodup := by
  unfold SortedBy at h
  unfold List.Nodup
  refine h.imp ?_
  intro a b hab e
  rw [e] at hab
  exact EntryLt.irrefl hab

theorem records_sorted (w : Walk E) (scan : List E) (prev : Option (List E)) (hs : SortedBy w.key scan) :
    SortedBy (fun o => w.key (subject o)) (records w scan prev) := by
  have := records_subject w scan prev
  unfold SortedBy at *
  rw [← this, List.pairwise_map] at hs
  exact hs

theorem prev_split {w : Walk E} {t : Cmd × Option Str} {prev : Option (List E)}
    (hp : SortedBy w.key (prev.getD [])) (hc : ∀ x ∈ prev.getD [], ¬ Clash t (w.key x)) :
    ((prev.map (forwardPast t w.key)).getD []).Sublist (prev.getD []) ∧
    ∀ c ∈ prev.getD [], ∀ p, EntryLt t (w.key p) → SameKey (w.key c) (w.key p) →
      c ∈ (prev.map (forwardPast t w.key)).getD [] := by
  cases prev with
  | none => simp
  | some l =>
    simp only [Option.getD_some, Option.map_some] at *
    obtain ⟨A, e, h1, h2⟩ := forwardPast_spec hp hc
    refine ⟨?_, ?_⟩
    · conv => rhs; rw [e]
      exact List.sublist_append_right _ _
    · intro c hc p hlt hsk
      rw [e] at hc
      rcases List.mem_append.1 hc with h | h
      · exfalso
        have h3 : EntryLt t (w.key c) := hlt.same_right hsk.symm
        rcases h1 c h with h4 | h4
        · exact EntryLt.irrefl (h3.trans h4)
        · exact h3.not_same h4
      · exact h

theorem resume_point (w : Walk E) (isDir sent : E → Bool) (hd : ∀ c p, w.dec c p ≠ .doneDeleted)
    (scan : List E) (prev : Option (List E)) (hs : SortedBy w.key scan) (hp : SortedBy w.key (prev.getD []))
    (hn : NoClash w.key (scan ++ prev.getD [])) (n : Nat) (ch un : List (Out E))
    (h : StoppedAfter w sent scan prev n ch un) :
    ∃ X, records w scan prev = X ++ records w (resume (outInfo w isDir) w.key ch un scan prev).scan
        (resume (outInfo w isDir) w.key ch un scan prev).prev ∧
      (resume (outInfo w isDir) w.key ch un scan prev).changed =
        X.filter (fun o => toChanged w o && sent (subject o)) ∧
      (resume (outInfo w isDir) w.key ch un scan prev).unchanged = X.filter (fun o => !toChanged w o) ∧
      (∀ o ∈ records w (resume (outInfo w isDir) w.key ch un scan prev).scan
        (resume (outInfo w isDir) w.key ch un scan prev).prev, o ∉ X) := by
  rcases lastGood_spec (outInfo w isDir) ch with hg | ⟨q, r, hg, hq⟩
  · refine ⟨[], ?_, ?_, ?_, ?_⟩ <;> simp [resume, hg]
  · have hr : resume (outInfo w isDir) w.key ch un scan prev =
        { changed := q ++ [r], unchanged := forwardBefore (w.key (subject r)) (outInfo w isDir) un,
          scan := forwardPast (w.key (subject r)) w.key scan,
          prev := prev.map (forwardPast (w.key (subject r)) w.key) } := by
      have : ch.take (q.length + 1) = q ++ [r] := by
        obtain ⟨v, rfl⟩ := hq
        rw [show q.length + 1 = (q ++ [r]).length by simp, List.take_left']
        rfl
      unfold resume
      rw [hg]
      simp only [this]
      rfl
    rw [hr]
    simp only
    obtain ⟨hch, hun⟩ := h
    have hrG : r ∈ (records w scan prev).take n ∧ (toChanged w r && sent (subject r)) = true := by
      have := (hq.trans hch).subset (show r ∈ q ++ [r] by simp)
      exact List.mem_filter.1 this
    have hrs : subject r ∈ scan := by
      rw [← records_subject w scan prev]
      exact List.mem_map_of_mem (List.mem_of_mem_take hrG.1)
    obtain ⟨A, eA, hA, hB⟩ := forwardPast_spec (target := w.key (subject r)) hs
      (fun x hx => hn _ (by simp [hrs]) _ (by simp [hx]))
    obtain ⟨hsl, hall⟩ := prev_split (w := w) (t := w.key (subject r)) hp
      (fun x hx => hn _ (by simp [hrs]) _ (by simp [hx]))
    generalize hBe : forwardPast (w.key (subject r)) w.key scan = B at *
    generalize hPe : prev.map (forwardPast (w.key (subject r)) w.key) = prev' at *
    have hG := records_sorted w scan prev hs
    obtain ⟨X, hX, hXs⟩ := records_split w hd A B prev prev' (eA ▸ hs) hp (eA ▸ hn) hsl
      (fun c hc p hp2 hsk => hall c hc p (hB p hp2) hsk)
    rw [← eA] at hX
    have hX1 : ∀ o ∈ X, EntryLt (w.key (subject o)) (w.key (subject r)) ∨
        SameKey (w.key (subject r)) (w.key (subject o)) := by
      intro o ho
      exact hA _ (by rw [← hXs]; exact List.mem_map_of_mem ho)
    have hY1 : ∀ o ∈ records w B prev', EntryLt (w.key (subject r)) (w.key (subject o)) := by
      intro o ho
      exact hB _ (by rw [← records_subject w B prev']; exact List.mem_map_of_mem ho)
    have hrG' := List.mem_of_mem_take hrG.1
    refine ⟨X, hX, ?_, ?_, ?_⟩
    · -- changed
      obtain ⟨v, hv⟩ := hq.trans (hch.trans ((List.take_prefix n _).filter _))
      have hsc : SortedBy (fun o => w.key (subject o))
          ((records w scan prev).filter (fun o => toChanged w o && sent (subject o))) :=
        List.Pairwise.sublist List.filter_sublist hG
      have e2 : q ++ r :: v = X.filter (fun o => toChanged w o && sent (subject o)) ++
          (records w B prev').filter (fun o => toChanged w o && sent (subject o)) := by
        rw [← List.filter_append, ← hX, ← hv]; simp
      refine (sorted_cut (K := fun o => w.key (subject o)) (Q := v) ?_ e2 ?_ ?_).symm
      · rw [show q ++ r :: v = (q ++ [r]) ++ v by simp, hv]
        exact hsc
      · intro x hx
        exact hX1 x (List.mem_filter.1 hx).1
      · intro x hx
        exact hY1 x (List.mem_filter.1 hx).1
    · -- unchanged
      rw [forwardBefore_eq (outInfo_end w isDir)]
      refine takeWhile_cut (Y := (records w B prev').filter (fun o => !toChanged w o)) ?_ ?_ ?_ ?_ ?_
      · rw [← List.filter_append, ← hX, hun]
        exact (List.take_prefix n _).filter _
      · intro x hx
        obtain ⟨hx1, hx2⟩ := List.mem_filter.1 hx
        rw [hun, List.mem_filter]
        refine ⟨?_, hx2⟩
        have hxG : x ∈ records w scan prev := by rw [hX]; simp [hx1]
        rw [← List.take_append_drop n (records w scan prev)] at hxG
        rcases List.mem_append.1 hxG with h | h
        · exact h
        · exfalso
          have hlt : EntryLt (w.key (subject r)) (w.key (subject x)) := by
            unfold SortedBy at hG
            rw [← List.take_append_drop n (records w scan prev), List.pairwise_append] at hG
            exact hG.2.2 r hrG.1 x h
          rcases hX1 x hx1 with h1 | h1
          · exact EntryLt.irrefl (h1.trans hlt)
          · exact hlt.not_same h1
      · rw [← List.filter_append, ← hX]
        exact (sorted_nodup hG).sublist List.filter_sublist
      · intro x hx
        obtain ⟨hx1, hx2⟩ := List.mem_filter.1 hx
        have hxG : x ∈ records w scan prev := by rw [hX]; simp [hx1]
        have hlt : EntryLt (w.key (subject x)) (w.key (subject r)) := by
          rcases hX1 x hx1 with h1 | h1
          · exact h1
          · exfalso
            have := sorted_same_eq hG hrG' hxG h1
            subst this
            simp_all
        have hxs : subject x ∈ scan := by
          rw [← records_subject w scan prev]
          exact List.mem_map_of_mem hxG
        rcases pcmp_cases (E := Cmd × Option Str) (fun z => z) (a := w.key (subject r)) (b := w.key (subject x))
          (hn _ (by simp [hrs]) _ (by simp [hxs])) with ⟨_, h2⟩ | ⟨_, h2⟩ | ⟨h, h2⟩
        · exact absurd h2.symm hlt.not_same
        · exact absurd (h2.trans hlt) EntryLt.irrefl
        · exact decide_eq_true (show 0 < iobufPathcmp (w.key (subject r)) (w.key (subject x)) from h)
      · intro x hx
        obtain ⟨hx1, hx2⟩ := List.mem_filter.1 hx
        have hlt := hY1 x hx1
        have hxs : subject x ∈ scan := by
          rw [eA, List.mem_append, ← records_subject w B prev']
          exact Or.inr (List.mem_map_of_mem hx1)
        rcases pcmp_cases (E := Cmd × Option Str) (fun z => z) (a := w.key (subject r)) (b := w.key (subject x))
          (hn _ (by simp [hrs]) _ (by simp [hxs])) with ⟨_, h2⟩ | ⟨h, h2⟩ | ⟨h, h2⟩
        · exact absurd h2 hlt.not_same
        · have h : iobufPathcmp (w.key (subject r)) (w.key (subject x)) < 0 := h
          have h' : ¬ 0 < iobufPathcmp (w.key (subject r)) (w.key (subject x)) := Int.not_lt.2 (Int.le_of_lt h)
          exact decide_eq_false h'
        · exact absurd (h2.trans hlt) EntryLt.irrefl
    · intro o ho hoX
      have := hY1 o ho
      rcases hX1 o hoX with h1 | h1
      · exact EntryLt.irrefl (this.trans h1)
      · exact this.not_same h1

/-- However often it has been interrupted and resumed, the lists are as after one interruption. -/
theorem interrupted_stopped (w : Walk E) (isDir sent : E → Bool) (hd : ∀ c p, w.dec c p ≠ .doneDeleted)
    (scan : List E) (prev : Option (List E)) (hs : SortedBy w.key scan) (hp : SortedBy w.key (prev.getD []))
    (hn : NoClash w.key (scan ++ prev.getD [])) (ch un : List (Out E))
    (h : Interrupted w isDir sent scan prev ch un) : ∃ n, StoppedAfter w sent scan prev n ch un := by
  induction h with
  | first h => exact ⟨_, h⟩
  | @again m ch un ch' un' _ h' ih =>
    obtain ⟨n, hn2⟩ := ih
    obtain ⟨X, h1, h2, h3, _⟩ := resume_point w isDir sent hd scan prev hs hp hn n ch un hn2
    obtain ⟨hc, hu⟩ := h'
    refine ⟨X.length + m, ?_, ?_⟩
    · rw [h1, h2, List.take_length_add_append, List.filter_append]
      exact (List.prefix_append_right_inj _).2 hc
    · rw [h1, h3, List.take_length_add_append, List.filter_append, ← hu]

end Verif
