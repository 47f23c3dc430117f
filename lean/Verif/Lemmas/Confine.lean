import Verif.Spec.Confine
import Verif.Lemmas.Scan

namespace Verif.Confine
open Verif.PathCmp

/-! ### Looking up paths -/

/-- A place that paths lead to. -/
structure Canon (fs : FS) (p : List Name) : Prop where
  dirs : ∀ q, q <+: p → q ≠ p → fs q = some .dir
  node : fs p ≠ none ∧ ∀ t, fs p ≠ some (.lnk t)
  plain : ∀ c ∈ p, isStay c = false ∧ isUp c = false

theorem RealDir.canon {fs d} (h : RealDir fs d) : Canon fs d :=
  ⟨fun q hq _ => h.dirs q hq, by rw [h.dirs d (List.prefix_refl d)]; simp, h.plain⟩

theorem Canon.root {fs : FS} (h : fs [] = some .dir) : Canon fs [] :=
  ⟨fun q hq hn => absurd (List.prefix_nil.mp hq) hn, by rw [h]; simp, by simp⟩

theorem Canon.pre {fs p q} (h : Canon fs p) (hq : q <+: p) : Canon fs q := by
  by_cases e : q = p
  · rw [e]; exact h
  · have hd := h.dirs q hq e
    exact ⟨fun r hr hn => h.dirs r (hr.trans hq) (fun e' => hn (hr.eq_of_length_le (e' ▸ hq.length_le))),
      by rw [hd]; simp, fun c hc => h.plain c (hq.subset hc)⟩

theorem Canon.snoc {fs p c} (h : Canon fs p) (hd : fs p = some .dir) (hc : isStay c = false ∧ isUp c = false)
    (hn : fs (p ++ [c]) ≠ none ∧ ∀ t, fs (p ++ [c]) ≠ some (.lnk t)) : Canon fs (p ++ [c]) := by
  refine ⟨fun q hq hne => ?_, hn, ?_⟩
  · rcases List.prefix_concat_iff.mp (by simpa using hq) with e | hq
    · exact absurd e hne
    · by_cases e : q = p
      · rw [e]; exact hd
      · exact h.dirs q hq e
  · intro x hx
    rcases List.mem_append.mp hx with hx | hx
    · exact h.plain x hx
    · rw [List.mem_singleton.mp hx]; exact hc

/-- `walk` in one piece. -/
def walkR (fs : FS) (fuel : Nat) (cur : List Name) (cs : List Name) : Res :=
  match cs with
  | [] => .ok cur
  | c :: cs =>
    if fs cur = some .dir then
      if isStay c then walkR fs fuel cur cs
      else if isUp c then walkR fs fuel cur.dropLast cs
      else match fs (cur ++ [c]) with
        | none => .noent
        | some (.lnk t) =>
          match fuel with
          | 0 => .err
          | fuel + 1 => walkR fs fuel (if t.head? = some slash then [] else cur) (parts t ++ cs)
        | some .dir => walkR fs fuel (cur ++ [c]) cs
        | some (.file _) => walkR fs fuel (cur ++ [c]) cs
    else .err
termination_by (fuel, cs.length)

theorem walk_eq : walk = walkR := by
  funext fs fuel cur cs
  fun_induction walkR fs fuel cur cs with
  | case1 fuel cur => cases fuel <;> rfl
  | case2 fuel cur c cs hd hs ih => rw [← ih]; cases fuel <;> simp only [walk, walkWith, hd, hs, if_true]
  | case3 fuel cur c cs hd hs hu ih =>
    rw [← ih]
    cases fuel <;> (simp only [walk]; rw [walkWith, if_pos hd, if_neg hs, if_pos hu])
  | case4 fuel cur c cs hd hs hu hn =>
    cases fuel <;> (simp only [walk]; rw [walkWith, if_pos hd, if_neg hs, if_neg hu, hn])
  | case5 cur c cs hd hs hu t hn =>
    simp only [walk]; rw [walkWith, if_pos hd, if_neg hs, if_neg hu, hn]
  | case6 cur c cs hd hs hu t hn fuel ih =>
    refine Eq.trans ?_ ih
    show walkWith fs (walk fs fuel) cur (c :: cs) = _
    rw [walkWith, if_pos hd, if_neg hs, if_neg hu, hn]
    rfl
  | case7 fuel cur c cs hd hs hu hn ih =>
    rw [← ih]
    cases fuel <;> (simp only [walk]; rw [walkWith, if_pos hd, if_neg hs, if_neg hu, hn])
  | case8 fuel cur c cs hd hs hu i hn ih =>
    rw [← ih]
    cases fuel <;> (simp only [walk]; rw [walkWith, if_pos hd, if_neg hs, if_neg hu, hn])
  | case9 fuel cur c cs hd =>
    cases fuel <;> (simp only [walk]; rw [walkWith, if_neg hd])

theorem realpath_walkR (fs : FS) (p : List Name) : realpath fs p = walkR fs 40 [] p := by
  unfold realpath; rw [walk_eq]

theorem walk_canon {fs : FS} {fuel cur cs p} (hr : fs [] = some .dir) (hc : Canon fs cur)
    (h : walkR fs fuel cur cs = .ok p) : Canon fs p := by
  fun_induction walkR fs fuel cur cs with
  | case1 => injection h with h; exact h ▸ hc
  | case2 _ _ _ _ _ _ ih => exact ih hc h
  | case3 _ _ _ _ _ _ _ ih => exact ih (hc.pre (List.dropLast_prefix _)) h
  | case4 => exact absurd h (by simp)
  | case5 => exact absurd h (by simp)
  | case6 _ _ _ _ _ _ _ _ _ ih =>
    refine ih ?_ h
    split
    · exact Canon.root hr
    · exact hc
  | case7 _ _ _ _ hd hs hu hn ih =>
    exact ih (hc.snoc hd ⟨by simpa using hs, by simpa using hu⟩ (by rw [hn]; simp)) h
  | case8 _ _ _ _ hd hs hu _ hn ih =>
    exact ih (hc.snoc hd ⟨by simpa using hs, by simpa using hu⟩ (by rw [hn]; simp)) h
  | case9 => exact absurd h (by simp)

theorem walk_along {fs : FS} {fuel cur cs rest} (h : Canon fs (cur ++ cs)) :
    walkR fs fuel cur (cs ++ rest) = walkR fs fuel (cur ++ cs) rest := by
  induction cs generalizing cur with
  | nil => simp
  | cons c cs ih =>
    have hd : fs cur = some .dir := h.dirs cur (List.prefix_append _ _) (by simp)
    have hp := h.plain c (by simp)
    have e : cur ++ c :: cs = (cur ++ [c]) ++ cs := by simp
    have hn := (h.pre (q := cur ++ [c]) (by rw [e]; exact List.prefix_append _ _)).node
    rw [e] at h
    rw [List.cons_append, walkR, if_pos hd, hp.1, hp.2, e, ← ih h]
    simp only [Bool.false_eq_true, if_false]
    rcases hf : fs (cur ++ [c]) with _ | n
    · exact absurd hf hn.1
    · cases n with
      | dir => rfl
      | file i => rfl
      | lnk t => exact absurd hf (hn.2 t)

theorem realpath_canon {fs : FS} {p} (h : Canon fs p) : realpath fs p = .ok p := by
  have := walk_along (fuel := 40) (cur := []) (cs := p) (rest := []) (by simpa using h)
  simpa [realpath_walkR, walkR] using this

theorem realpath_along {fs : FS} {p rest} (h : Canon fs p) : realpath fs (p ++ rest) = walkR fs 40 p rest := by
  have := walk_along (fuel := 40) (cur := []) (cs := p) (rest := rest) (by simpa using h)
  simpa [realpath_walkR] using this

theorem walk_append {fs : FS} {fuel cur a b p} (h : walkR fs fuel cur a = .ok p) :
    ∃ k, k ≤ fuel ∧ walkR fs fuel cur (a ++ b) = walkR fs k p b := by
  fun_induction walkR fs fuel cur a with
  | case1 => injection h with h; exact ⟨_, Nat.le_refl _, by rw [h]; rfl⟩
  | case2 fuel cur c cs hd hs ih =>
    obtain ⟨k, hk, e⟩ := ih h
    exact ⟨k, hk, by rw [List.cons_append, walkR, if_pos hd, if_pos hs, e]⟩
  | case3 fuel cur c cs hd hs hu ih =>
    obtain ⟨k, hk, e⟩ := ih h
    exact ⟨k, hk, by rw [List.cons_append, walkR, if_pos hd, if_neg hs, if_pos hu, e]⟩
  | case4 => exact absurd h (by simp)
  | case5 => exact absurd h (by simp)
  | case6 cur c cs hd hs hu t hn fuel ih =>
    obtain ⟨k, hk, e⟩ := ih h
    refine ⟨k, Nat.le_succ_of_le hk, ?_⟩
    rw [List.cons_append, walkR, if_pos hd, if_neg hs, if_neg hu, hn]
    simpa using e
  | case7 fuel cur c cs hd hs hu hn ih =>
    obtain ⟨k, hk, e⟩ := ih h
    refine ⟨k, hk, ?_⟩
    rw [List.cons_append, walkR, if_pos hd, if_neg hs, if_neg hu, hn]
    simpa using e
  | case8 fuel cur c cs hd hs hu i hn ih =>
    obtain ⟨k, hk, e⟩ := ih h
    refine ⟨k, hk, ?_⟩
    rw [List.cons_append, walkR, if_pos hd, if_neg hs, if_neg hu, hn]
    simpa using e
  | case9 => exact absurd h (by simp)

/-- What does not exist does not exist when more links may be followed, and nothing is below it. -/
theorem walk_noent {fs : FS} {fuel cur a} (h : walkR fs fuel cur a = .noent) (k : Nat) (b : List Name) :
    walkR fs (fuel + k) cur (a ++ b) = .noent := by
  fun_induction walkR fs fuel cur a with
  | case1 => exact absurd h (by simp)
  | case2 fuel cur c cs hd hs ih =>
    rw [List.cons_append, walkR, if_pos hd, if_pos hs, ih h]
  | case3 fuel cur c cs hd hs hu ih =>
    rw [List.cons_append, walkR, if_pos hd, if_neg hs, if_pos hu, ih h]
  | case4 fuel cur c cs hd hs hu hn =>
    rw [List.cons_append, walkR, if_pos hd, if_neg hs, if_neg hu, hn]
  | case5 => exact absurd h (by simp)
  | case6 cur c cs hd hs hu t hn fuel ih =>
    rw [List.cons_append, walkR, if_pos hd, if_neg hs, if_neg hu, hn]
    have := ih h
    rw [List.append_assoc] at this
    simpa [Nat.add_right_comm] using this
  | case7 fuel cur c cs hd hs hu hn ih =>
    rw [List.cons_append, walkR, if_pos hd, if_neg hs, if_neg hu, hn]
    exact ih h
  | case8 fuel cur c cs hd hs hu i hn ih =>
    rw [List.cons_append, walkR, if_pos hd, if_neg hs, if_neg hu, hn]
    exact ih h
  | case9 => exact absurd h (by simp)

/-! ### The canonical path -/

theorem canonLoop_spec {fs : FS} (hr : fs [] = some .dir) {rq rest p r}
    (h : canonLoop fs rq rest = some (p, r))
    (hrest : rest = [] ∨ ∃ c t, rest = c :: t ∧ realpath fs (rq.reverse) = .noent) :
    Canon fs p ∧ ∃ c t, r = c :: t ∧ (t = [] ∨ ∀ b, realpath fs (p ++ c :: b) = .noent) ∧
      (∀ x ∈ r, x ∈ rq ∨ x ∈ rest) ∧ r.getLast? = (rq.reverse ++ rest).getLast? := by
  induction rq generalizing rest with
  | nil => simp [canonLoop] at h
  | cons c rq ih =>
    unfold canonLoop at h
    split at h
    · rename_i q hq
      injection h with h
      injection h with h1 h2
      subst h1 h2
      have hcan : Canon fs q := walk_canon hr (Canon.root hr) ((realpath_walkR _ _).symm.trans hq)
      refine ⟨hcan, c, rest, rfl, ?_, ?_, ?_⟩
      · rcases hrest with rfl | ⟨_, _, _, hn⟩
        · exact .inl rfl
        · right
          intro b
          rw [realpath_along hcan]
          rw [List.reverse_cons] at hn
          obtain ⟨k, hk, e⟩ := walk_append (b := [c]) ((realpath_walkR _ _).symm.trans hq)
          rw [realpath_walkR] at hn
          rw [e] at hn
          have := walk_noent hn (40 - k) b
          rwa [Nat.add_sub_cancel' hk, List.singleton_append] at this
      · intro x hx
        rcases List.mem_cons.mp hx with rfl | hx
        · exact .inl (by simp)
        · exact .inr hx
      · rw [List.reverse_cons, List.append_assoc, List.singleton_append, List.getLast?_append]
        rw [List.getLast?_cons]; rfl
    · rename_i hn
      obtain ⟨h1, c', t, h2, h3, h4, h5⟩ := ih h (.inr ⟨c, rest, rfl, hn⟩)
      refine ⟨h1, c', t, h2, h3, fun x hx => ?_, by rw [h5]; simp⟩
      rcases h4 x hx with hx | hx
      · exact .inl (List.mem_cons_of_mem _ hx)
      · rcases List.mem_cons.mp hx with rfl | hx
        · exact .inl (by simp)
        · exact .inr hx
    · exact absurd h (by simp)

/-! ### Where a path leads -/

theorem locate_snoc (fs : FS) (d : List Name) (c : Name) : locate fs (d ++ [c]) =
    match realpath fs d with
    | .noent => .noent
    | .err => .err
    | .ok d =>
      if fs d = some .dir then
        if isStay c then .self d
        else if isUp c then .self d.dropLast
        else .entry d c
      else .err := by
  unfold locate
  rw [List.getLast?_concat, List.dropLast_concat]
  rfl

theorem locate_self {fs : FS} {p q} (h : locate fs p = .self q) : realpath fs p = .ok q := by
  rcases List.eq_nil_or_concat p with rfl | ⟨d, c, rfl⟩
  · simp only [locate, List.getLast?_nil] at h
    injection h with h
    rw [← h, realpath_walkR, walkR]
  · rw [List.concat_eq_append, locate_snoc] at h
    rw [List.concat_eq_append]
    split at h
    · exact absurd h (by simp)
    · exact absurd h (by simp)
    · rename_i e he
      obtain ⟨k, -, hk⟩ := walk_append (b := [c]) ((realpath_walkR _ _).symm.trans he)
      rw [realpath_walkR]
      rw [hk]
      split at h
      · rename_i hd
        split at h
        · rename_i hs
          injection h with h
          rw [walkR, if_pos hd, if_pos hs, walkR, h]
        · rename_i hs
          split at h
          · rename_i hu
            injection h with h
            rw [walkR, if_pos hd, if_neg hs, if_pos hu, walkR, h]
          · exact absurd h (by simp)
      · exact absurd h (by simp)

theorem locate_canon {fs : FS} {d c} (h : Canon fs d) (hd : fs d = some .dir)
    (hc : isStay c = false ∧ isUp c = false) : locate fs (d ++ [c]) = .entry d c := by
  rw [locate_snoc, realpath_canon h]
  simp [hd, hc.1, hc.2]

theorem lstat_canon {fs : FS} {p} (h : Canon fs p) : lstat fs p = fs p := by
  rcases List.eq_nil_or_concat p with rfl | ⟨d, c, rfl⟩
  · rfl
  · rw [List.concat_eq_append] at h ⊢
    have hd := h.pre (List.prefix_append d [c])
    unfold lstat target
    rw [locate_canon hd (h.dirs d (List.prefix_append _ _) (by simp)) (h.plain c (by simp))]
    rcases hn : fs (d ++ [c]) with _ | n
    · exact absurd hn h.node.1
    · simp [hn]

/-- A name that is what it says, in a real directory. -/
structure At (fs : FS) (D d : List Name) (c : Name) : Prop where
  canon : Canon fs d
  dir : fs d = some .dir
  plain : isStay c = false ∧ isUp c = false
  good : GoodName c
  inside : D <+: d ++ [c]

theorem At.locate {fs D d c} (h : At fs D d c) : Confine.locate fs (d ++ [c]) = .entry d c :=
  locate_canon h.canon h.dir h.plain

theorem At.lstat {fs D d c} (h : At fs D d c) : Confine.lstat fs (d ++ [c]) = fs (d ++ [c]) := by
  unfold Confine.lstat target
  rw [h.locate]
  rcases hn : fs (d ++ [c]) with _ | n <;> simp [hn]

theorem At.put {fs D d c} (h : At fs D d c) (n : Option Node) : At (put fs (d ++ [c]) n) D d c := by
  have hne : ∀ q : List Name, q <+: d → q ≠ d ++ [c] := by
    intro q hq e
    have := hq.length_le
    rw [e, List.length_append, List.length_singleton] at this
    omega
  have hk : ∀ q, q <+: d → Confine.put fs (d ++ [c]) n q = fs q := fun q hq => if_neg (hne q hq)
  refine ⟨⟨fun q hq hn => ?_, ?_, h.canon.plain⟩, ?_, h.plain, h.good, h.inside⟩
  · rw [hk q hq]; exact h.canon.dirs q hq hn
  · rw [hk d (List.prefix_refl d)]; exact h.canon.node
  · rw [hk d (List.prefix_refl d)]; exact h.dir

/-- A path that leads into the directory, or nowhere. `H` is needed if it ends with `..`. -/
inductive Ready (H : Prop) (fs : FS) (D : List Name) (P : List Name) : Prop where
  | nowhere (h : locate fs P = .noent ∨ locate fs P = .err)
  | self (q : List Name) (h : locate fs P = .self q) (hq : D <+: q ∨ (q = D.dropLast ∧ H))
  | entry (d : List Name) (c : Name) (e : P = d ++ [c]) (h : At fs D d c)

/-- What a name in a path can be. -/
def PartName (c : Name) : Prop := slash ∉ c ∧ NoNul c

theorem PartName.good {c} (h : PartName c) (hs : isStay c = false) : GoodName c :=
  ⟨fun e => by simp [isStay, e] at hs, h.1, h.2⟩

theorem ready_snoc {H : Prop} {fs : FS} {D p c} (hp : Canon fs p) (hD : D <+: p) (hc : PartName c)
    (hH : isUp c = true → H) : Ready H fs D (p ++ [c]) := by
  by_cases hd : fs p = some .dir
  · by_cases hs : isStay c
    · exact .self p (by rw [locate_snoc, realpath_canon hp]; simp [hd, hs]) (.inl hD)
    · by_cases hu : isUp c
      · refine .self p.dropLast (by rw [locate_snoc, realpath_canon hp]; simp [hd, hs, hu]) ?_
        by_cases e : p = D
        · exact .inr ⟨by rw [e], hH hu⟩
        · left
          obtain ⟨t, rfl⟩ := hD
          rcases List.eq_nil_or_concat t with rfl | ⟨t', x, rfl⟩
          · simp at e
          · rw [List.concat_eq_append, ← List.append_assoc, List.dropLast_concat]
            exact List.prefix_append _ _
      · exact .entry p c rfl ⟨hp, hd, ⟨by simpa using hs, by simpa using hu⟩, hc.good (by simpa using hs),
          hD.trans (List.prefix_append _ _)⟩
  · exact .nowhere (.inr (by rw [locate_snoc, realpath_canon hp]; simp [hd]))

theorem ready_canon {H : Prop} {fs : FS} (hg : GoodFS fs) {D p} (hp : Canon fs p) (hD : D <+: p) :
    Ready H fs D p := by
  rcases List.eq_nil_or_concat p with rfl | ⟨d, c, rfl⟩
  · exact .self [] rfl (.inl hD)
  · rw [List.concat_eq_append] at hp hD ⊢
    exact .entry d c rfl ⟨hp.pre (List.prefix_append _ _), hp.dirs d (List.prefix_append _ _) (by simp),
      hp.plain c (by simp), hg.names _ hp.node.1 c (by simp), hD⟩

/-! ### The invariant -/

/-- What may be done. `H`: an entry ends with `..`; `Hm`: an entry may set a mode through a link; `Hd`: an
entry with data has the mode of a directory. -/
def EffOK (H Hm Hd : Prop) (n0 : Nat) (D : List Name) : Eff → Prop
  | .name p => Below D p
  | .data p i => Below D p ∧ (n0 ≤ i ∨ Hd)
  | .own p => D <+: p ∨ (p = D.dropLast ∧ H)
  | .mode p => D <+: p ∨ (p = D.dropLast ∧ H) ∨ Hm

structure Inv (H Hm Hd : Prop) (fs0 : FS) (n0 : Nat) (D : List Name) (s : State) : Prop where
  good : GoodFS s.fs
  dir : RealDir s.fs D
  outside : ∀ p, ¬ Below D p → s.fs p = fs0 p
  effs : ∀ e ∈ s.effs, EffOK H Hm Hd n0 D e
  next : n0 ≤ s.next

section
variable {H Hm Hd : Prop} {fs0 : FS} {n0 : Nat} {D : List Name}

theorem Inv.eff {s e} (h : Inv H Hm Hd fs0 n0 D s) (he : EffOK H Hm Hd n0 D e) :
    Inv H Hm Hd fs0 n0 D (s.eff e) :=
  ⟨h.good, h.dir, h.outside, fun x hx => by
    rcases List.mem_cons.mp hx with rfl | hx
    · exact he
    · exact h.effs x hx, h.next⟩

theorem Inv.bump {s} (h : Inv H Hm Hd fs0 n0 D s) : Inv H Hm Hd fs0 n0 D { s with next := s.next + 1 } :=
  ⟨h.good, h.dir, h.outside, h.effs, Nat.le_succ_of_le h.next⟩

theorem Inv.below {s d c} (h : Inv H Hm Hd fs0 n0 D s) (ha : At s.fs D d c)
    (hn : s.fs (d ++ [c]) ≠ some .dir) : Below D (d ++ [c]) :=
  ⟨ha.inside, fun e => hn (by rw [e]; exact h.dir.dirs D (List.prefix_refl D))⟩

theorem Inv.entry {s d c n} (h : Inv H Hm Hd fs0 n0 D s) (ha : At s.fs D d c)
    (hn : s.fs (d ++ [c]) ≠ some .dir) : Inv H Hm Hd fs0 n0 D (s.entry (d ++ [c]) n) := by
  have hb := h.below ha hn
  refine ⟨⟨?_, ?_, ?_⟩, ⟨?_, h.dir.plain⟩, ?_, ?_, h.next⟩
  · show put _ _ _ _ = _
    rw [put, if_neg (by simp)]; exact h.good.root
  · intro p x hx
    have hx' : put s.fs (d ++ [c]) n (p ++ [x]) ≠ none := hx
    show put _ _ _ _ = _
    by_cases e : p ++ [x] = d ++ [c]
    · obtain ⟨h1, h2⟩ := List.append_inj' e rfl
      rw [put, h1, if_neg (by simp)]; exact ha.dir
    · rw [put, if_neg e] at hx'
      have hp := h.good.tree p x hx'
      rw [put, if_neg (fun e' => hn (by rw [← e']; exact hp))]; exact hp
  · intro p hp x hx
    by_cases e : p = d ++ [c]
    · rw [e] at hx
      rcases List.mem_append.mp hx with hx | hx
      · exact h.good.names d (by rw [ha.dir]; simp) x hx
      · rw [List.mem_singleton.mp hx]; exact ha.good
    · exact h.good.names p (fun e' => hp (by show put _ _ _ _ = _; rw [put, if_neg e]; exact e')) x hx
  · intro q hq
    have hq' := h.dir.dirs q hq
    show put _ _ _ _ = _
    rw [put, if_neg (fun e => hn (by rw [← e]; exact hq'))]; exact hq'
  · intro p hp
    show put _ _ _ _ = _
    rw [put, if_neg (fun e : p = d ++ [c] => hp (by rw [e]; exact hb))]; exact h.outside p hp
  · intro x hx
    rcases List.mem_cons.mp hx with rfl | hx
    · exact hb
    · exact h.effs x hx

/-! ### The calls -/

/-- The state is fine and the path too. -/
def Fine (H Hm Hd : Prop) (fs0 : FS) (n0 : Nat) (D P : List Name) (s : State) : Prop :=
  Inv H Hm Hd fs0 n0 D s ∧ Ready H s.fs D P

variable {P : List Name}

theorem make_spec {s n b s'} (h : Fine H Hm Hd fs0 n0 D P s) (e : make s P n = (b, s')) :
    (b = false ∧ s' = s) ∨
    (b = true ∧ Fine H Hm Hd fs0 n0 D P s' ∧ ∃ d c, P = d ++ [c] ∧ At s'.fs D d c ∧ s'.fs P = some n ∧
      s'.next = s.next) := by
  obtain ⟨hi, hr⟩ := h
  unfold make at e
  cases hr with
  | nowhere hl =>
    rcases hl with hl | hl <;> · rw [hl] at e; injection e with e1 e2; exact .inl ⟨e1.symm, e2.symm⟩
  | self q hl hq => rw [hl] at e; injection e with e1 e2; exact .inl ⟨e1.symm, e2.symm⟩
  | entry d c hp ha =>
    subst hp
    rw [ha.locate] at e
    simp only at e
    split at e
    · rename_i hn
      injection e with e1 e2
      subst e1 e2
      have hs : s.fs (d ++ [c]) ≠ some .dir := by rw [hn]; simp
      exact .inr ⟨rfl, ⟨hi.entry ha hs, .entry d c rfl (ha.put _)⟩, d, c, rfl, ha.put _, by
        show put _ _ _ _ = _
        rw [put, if_pos rfl], rfl⟩
    · injection e with e1 e2
      exact .inl ⟨e1.symm, e2.symm⟩

theorem make_fine {s n} (h : Fine H Hm Hd fs0 n0 D P s) : Fine H Hm Hd fs0 n0 D P (make s P n).2 := by
  rcases hm : make s P n with ⟨b, s'⟩
  rcases make_spec h hm with ⟨_, rfl⟩ | ⟨_, hf, _⟩
  · exact h
  · exact hf

theorem unlink_fine {s} (h : Fine H Hm Hd fs0 n0 D P s) : Fine H Hm Hd fs0 n0 D P (unlink s P).2 := by
  obtain ⟨hi, hr⟩ := h
  unfold unlink
  cases hr with
  | nowhere hl => rcases hl with hl | hl <;> · rw [hl]; exact ⟨hi, .nowhere (by simp [hl])⟩
  | self q hl hq => rw [hl]; exact ⟨hi, .self q hl hq⟩
  | entry d c hp ha =>
    subst hp
    rw [ha.locate]
    rcases hn : s.fs (d ++ [c]) with _ | n
    · simp only [hn]; exact ⟨hi, .entry d c rfl ha⟩
    · have hs : n ≠ .dir → s.fs (d ++ [c]) ≠ some .dir := by
        intro h; rw [hn]; simpa using h
      cases n with
      | dir => simp only [hn]; exact ⟨hi, .entry d c rfl ha⟩
      | file i => simp only [hn]; exact ⟨hi.entry ha (hs (by simp)), .entry d c rfl (ha.put _)⟩
      | lnk t => simp only [hn]; exact ⟨hi.entry ha (hs (by simp)), .entry d c rfl (ha.put _)⟩

theorem writeExisting_fine {s} (h : Fine H Hm Hd fs0 n0 D P s)
    (hd : Hd ∨ ∀ i, s.fs P = some (.file i) → n0 ≤ i) :
    Fine H Hm Hd fs0 n0 D P (writeExisting s P).2 ∧
    ((writeExisting s P).1 = true → ∀ t, lstat (writeExisting s P).2.fs P ≠ some (.lnk t)) := by
  obtain ⟨hi, hr⟩ := h
  unfold writeExisting
  cases hr with
  | nowhere hl =>
    rcases hl with hl | hl <;> · rw [hl]; exact ⟨⟨hi, .nowhere (by simp [hl])⟩, by simp⟩
  | self q hl hq => rw [hl]; exact ⟨⟨hi, .self q hl hq⟩, by simp⟩
  | entry d c hp ha =>
    subst hp
    rw [ha.locate]
    rcases hn : s.fs (d ++ [c]) with _ | n
    · simp only [hn]; exact ⟨⟨hi, .entry d c rfl ha⟩, by simp⟩
    · cases n with
      | dir => simp only [hn]; exact ⟨⟨hi, .entry d c rfl ha⟩, by simp⟩
      | lnk t => simp only [hn]; exact ⟨⟨hi, .entry d c rfl ha⟩, by simp⟩
      | file i =>
        simp only [hn]
        refine ⟨⟨hi.eff ⟨hi.below ha (by rw [hn]; simp), ?_⟩, .entry d c rfl ha⟩, fun _ t => ?_⟩
        · rcases hd with hd | hd
          · exact .inr hd
          · exact .inl (hd i hn)
        · show lstat s.fs _ ≠ _
          rw [ha.lstat, hn]; simp

theorem lchown_fine {s} (h : Fine H Hm Hd fs0 n0 D P s) :
    Fine H Hm Hd fs0 n0 D P (lchown s P).2 ∧ (lchown s P).2.fs = s.fs := by
  obtain ⟨hi, hr⟩ := h
  unfold lchown target
  cases hr with
  | nowhere hl =>
    rcases hl with hl | hl <;> · rw [hl]; exact ⟨⟨hi, .nowhere (by simp [hl])⟩, rfl⟩
  | self q hl hq => rw [hl]; exact ⟨⟨hi.eff hq, .self q hl hq⟩, rfl⟩
  | entry d c hp ha =>
    subst hp
    rw [ha.locate]
    simp only
    by_cases hs : (s.fs (d ++ [c])).isSome
    · rw [if_pos hs]; exact ⟨⟨hi.eff (.inl ha.inside), .entry d c rfl ha⟩, rfl⟩
    · rw [if_neg hs]; exact ⟨⟨hi, .entry d c rfl ha⟩, rfl⟩

theorem chmod_fine {s} (h : Fine H Hm Hd fs0 n0 D P s) (hl : Hm ∨ ∀ t, lstat s.fs P ≠ some (.lnk t)) :
    Fine H Hm Hd fs0 n0 D P (chmod s P).2 ∧ (chmod s P).2.fs = s.fs := by
  have key : ∀ q, realpath s.fs P = .ok q → EffOK H Hm Hd n0 D (.mode q) := by
    intro q hq
    rcases hl with hm | hl
    · exact .inr (.inr hm)
    · obtain ⟨hi, hr⟩ := h
      cases hr with
      | nowhere hl =>
        exfalso
        rcases List.eq_nil_or_concat P with rfl | ⟨d, c, rfl⟩
        · simp [locate] at hl
        · rw [List.concat_eq_append] at hl hq
          rw [locate_snoc] at hl
          have hw : ∀ k e, walkR s.fs k e [c] = .ok q → s.fs e = some .dir := by
            intro k e h
            rw [walkR] at h
            split at h
            · assumption
            · exact absurd h (by simp)
          rcases hr : realpath s.fs d with e | _ | _
          · obtain ⟨k, -, hk⟩ := walk_append (b := [c]) ((realpath_walkR _ _).symm.trans hr)
            rw [realpath_walkR] at hq
            rw [hk] at hq
            rw [hr] at hl
            simp only [hw k e hq, if_true] at hl
            by_cases h1 : isStay c
            · simp [h1] at hl
            · by_cases h2 : isUp c
              · simp [h1, h2] at hl
              · simp [h1, h2] at hl
          · have := walk_noent ((realpath_walkR _ _).symm.trans hr) 0 [c]
            rw [realpath_walkR] at hq
            rw [show (40 : Nat) = 40 + 0 from rfl, this] at hq
            exact absurd hq (by simp)
          · have herr : ∀ (fuel : Nat) (cur a : List Name), walkR s.fs fuel cur a = .err →
                walkR s.fs fuel cur (a ++ [c]) = .err := by
              intro fuel cur a
              fun_induction walkR s.fs fuel cur a with
              | case1 => intro h; exact absurd h (by simp)
              | case2 fuel cur c cs hd hs ih =>
                intro h; rw [List.cons_append, walkR, if_pos hd, if_pos hs, ih h]
              | case3 fuel cur c cs hd hs hu ih =>
                intro h; rw [List.cons_append, walkR, if_pos hd, if_neg hs, if_pos hu, ih h]
              | case4 => intro h; exact absurd h (by simp)
              | case5 cur c cs hd hs hu t hn =>
                intro _; rw [List.cons_append, walkR, if_pos hd, if_neg hs, if_neg hu, hn]
              | case6 cur c cs hd hs hu t hn fuel ih =>
                intro h
                rw [List.cons_append, walkR, if_pos hd, if_neg hs, if_neg hu, hn]
                have := ih h
                rw [List.append_assoc] at this
                simpa using this
              | case7 fuel cur c cs hd hs hu hn ih =>
                intro h; rw [List.cons_append, walkR, if_pos hd, if_neg hs, if_neg hu, hn]; exact ih h
              | case8 fuel cur c cs hd hs hu i hn ih =>
                intro h; rw [List.cons_append, walkR, if_pos hd, if_neg hs, if_neg hu, hn]; exact ih h
              | case9 fuel cur c cs hd => intro _; rw [List.cons_append, walkR, if_neg hd]
            have := herr _ _ _ ((realpath_walkR _ _).symm.trans hr)
            rw [realpath_walkR] at hq
            rw [this] at hq
            exact absurd hq (by simp)
      | self r hl hr =>
        rw [locate_self hl] at hq
        injection hq with hq
        rw [← hq]
        rcases hr with hr | hr
        · exact .inl hr
        · exact .inr (.inl hr)
      | entry d c hp ha =>
        subst hp
        rw [ha.lstat] at hl
        rcases hn : s.fs (d ++ [c]) with _ | n
        · rw [realpath_along ha.canon, walkR, if_pos ha.dir, ha.plain.1, ha.plain.2, hn] at hq
          simp at hq
        · have hc : Canon s.fs (d ++ [c]) := ha.canon.snoc ha.dir ha.plain ⟨by rw [hn]; simp, hl⟩
          rw [realpath_canon hc] at hq
          injection hq with hq
          rw [← hq]
          exact .inl ha.inside
  unfold chmod
  rcases hq : realpath s.fs P with q | _ | _
  · exact ⟨⟨h.1.eff (key q hq), h.2⟩, rfl⟩
  · exact ⟨h, rfl⟩
  · exact ⟨h, rfl⟩

theorem attribsSet_fine {s m} (h : Fine H Hm Hd fs0 n0 D P s)
    (hl : m = .lnk ∨ Hm ∨ ∀ t, lstat s.fs P ≠ some (.lnk t)) :
    Fine H Hm Hd fs0 n0 D P (attribsSet s P m) ∧ (attribsSet s P m).fs = s.fs := by
  unfold attribsSet
  have h1 := lchown_fine h
  rcases e1 : lchown s P with ⟨b, s1⟩
  rw [e1] at h1
  cases b with
  | false => exact h1
  | true =>
    simp only
    split
    · have h2 := lchown_fine h1.1
      exact ⟨h2.1, h2.2.trans h1.2⟩
    · rename_i hm
      have h2 := chmod_fine h1.1 (by
        rcases hl with hl | hl | hl
        · exact absurd hl hm
        · exact .inl hl
        · exact .inr (by rw [h1.2]; exact hl))
      rcases e2 : chmod s1 P with ⟨b, s2⟩
      rw [e2] at h2
      cases b with
      | false => exact ⟨h2.1, h2.2.trans h1.2⟩
      | true =>
        have h3 := lchown_fine h2.1
        exact ⟨h3.1, h3.2.trans (h2.2.trans h1.2)⟩

end
end Verif.Confine
