import Verif.Spec.Remove
import Verif.Lemmas.Confine
import Verif.Lemmas.Cache

namespace Verif.Remove
open Verif.Confine

/-! ### Paths -/

theorem not_below_child (a : List Name) (n : Name) : ¬ a ++ [n] <+: a := by
  intro h
  have := h.length_le
  simp at this
  omega

theorem realpath_node {fs : FS} {p d c} (h : locate fs p = .entry d c) (hx : fs (d ++ [c]) ≠ none)
    (hl : ∀ t, fs (d ++ [c]) ≠ some (.lnk t)) : realpath fs p = .ok (d ++ [c]) := by
  rcases List.eq_nil_or_concat p with rfl | ⟨p', c', rfl⟩
  · simp [locate] at h
  · rw [List.concat_eq_append] at h ⊢
    rw [locate_snoc] at h
    split at h
    · exact absurd h (by simp)
    · exact absurd h (by simp)
    · rename_i e he
      split at h
      · rename_i hde
        split at h
        · exact absurd h (by simp)
        · rename_i hs
          split at h
          · exact absurd h (by simp)
          · rename_i hu
            injection h with h1 h2
            subst h1 h2
            obtain ⟨k, -, hk⟩ := walk_append (b := [c']) ((realpath_walkR _ _).symm.trans he)
            rw [realpath_walkR, hk, walkR, if_pos hde, if_neg hs, if_neg hu]
            rcases hd : fs (e ++ [c']) with _ | n
            · exact absurd hd hx
            · cases n with
              | lnk t => exact absurd hd (hl t)
              | dir => simp [walkR]
              | file i => simp [walkR]
      · exact absurd h (by simp)

theorem realpath_entry {fs : FS} {p d c} (h : locate fs p = .entry d c) (hd : fs (d ++ [c]) = some .dir) :
    realpath fs p = .ok (d ++ [c]) := realpath_node h (by rw [hd]; simp) (by rw [hd]; simp)

theorem locate_entry_dir {fs : FS} {p d c} (h : locate fs p = .entry d c) : fs d = some .dir := by
  rcases List.eq_nil_or_concat p with rfl | ⟨p', c', rfl⟩
  · simp [locate] at h
  · rw [List.concat_eq_append, locate_snoc] at h
    split at h
    · exact absurd h (by simp)
    · exact absurd h (by simp)
    · split at h
      · rename_i hde
        split at h
        · exact absurd h (by simp)
        · split at h
          · exact absurd h (by simp)
          · injection h with h1 h2
            exact h1 ▸ hde
      · exact absurd h (by simp)

theorem lstat_entry {fs : FS} {p d c} (h : locate fs p = .entry d c) : Confine.lstat fs p = fs (d ++ [c]) := by
  unfold Confine.lstat target
  rw [h]
  rcases hn : fs (d ++ [c]) with _ | n <;> simp [hn]

theorem Names.now {fs p d c} (h : Names fs p d c) : locate fs p = .entry d c := h fs fun _ _ => rfl

theorem Names.only {fs fs' : FS} {p d c} (h : Names fs p d c) (ho : Only (d ++ [c]) fs fs') : Names fs' p d c :=
  fun f hf => h f fun x hx => (hf x hx).trans (ho x hx)

theorem Names.child {fs : FS} {p d c n} (h : Names fs p d c) (hd : fs (d ++ [c]) = some .dir)
    (hn : isStay n = false ∧ isUp n = false) : Names fs (p ++ [n]) (d ++ [c]) n := by
  intro fs' hs
  have h1 := h fs' fun x hx => hs x fun hp => hx ((List.prefix_append _ _).trans hp)
  have h2 : fs' (d ++ [c]) = some .dir := (hs _ (not_below_child _ _)).trans hd
  rw [locate_snoc, realpath_entry h1 h2]
  simp [h2, hn.1, hn.2]

/-- A path without links is that of its place. -/
theorem names_real {fs : FS} {d c} (hd : RealDir fs d) (hc : isStay c = false ∧ isUp c = false) :
    Names fs (d ++ [c]) d c := by
  intro fs' hs
  have hk : ∀ q, q <+: d → fs' q = some .dir := fun q hq => by
    rw [hs q fun h => not_below_child d c (h.trans hq)]; exact hd.dirs q hq
  exact locate_canon (RealDir.canon ⟨hk, hd.plain⟩) (hk d (List.prefix_refl d)) hc

/-! ### Changes -/

/-- What a step does to the file system. -/
structure Step (w : World) (r : List Name) (s s' : State) : Prop where
  only : Only r s.fs s'.fs
  less : ∀ q, s'.fs q = s.fs q ∨ s'.fs q = none
  effs : ∃ l, s'.effs = l ++ s.effs ∧ ∀ e ∈ l, ∃ x, e = .name x ∧ r <+: x
  fits : Fits w s'.fs

theorem Step.refl {w r s} (h : Fits w s.fs) : Step w r s s :=
  ⟨fun _ _ => rfl, fun _ => .inl rfl, ⟨[], rfl, by simp⟩, h⟩

theorem Step.trans {w r s s' s''} (h : Step w r s s') (h' : Step w r s' s'') : Step w r s s'' := by
  refine ⟨fun q hq => (h'.only q hq).trans (h.only q hq), fun q => ?_, ?_, h'.fits⟩
  · rcases h'.less q with e | e
    · rw [e]; exact h.less q
    · exact .inr e
  · obtain ⟨l, e, hl⟩ := h.effs
    obtain ⟨l', e', hl'⟩ := h'.effs
    refine ⟨l' ++ l, by rw [e', e, List.append_assoc], fun x hx => ?_⟩
    rcases List.mem_append.mp hx with hx | hx
    · exact hl' x hx
    · exact hl x hx

theorem Step.up {w r r' s s'} (h : Step w r s s') (hr : r' <+: r) : Step w r' s s' := by
  refine ⟨fun q hq => h.only q fun hp => hq (hr.trans hp), h.less, ?_, h.fits⟩
  obtain ⟨l, e, hl⟩ := h.effs
  exact ⟨l, e, fun x hx => (hl x hx).imp fun y hy => ⟨hy.1, hr.trans hy.2⟩⟩

theorem prefix_snoc_ne {a b : List Name} {n : Name} (h : a <+: b ++ [n]) (hne : a ≠ b ++ [n]) : a <+: b := by
  rcases List.prefix_concat_iff.mp (by simpa using h) with e | h
  · exact absurd e hne
  · exact h

/-- Removing something that nothing is in. -/
theorem Step.remove {w} {s : State} {x : List Name} (hf : Fits w s.fs) (hx : x ≠ [])
    (he : ∀ n, s.fs (x ++ [n]) = none) : Step w x s (s.entry x none) := by
  have hput : ∀ q, (s.entry x none).fs q = if q = x then none else s.fs q := fun q => rfl
  refine ⟨fun q hq => ?_, fun q => ?_, ⟨[.name x], rfl, by simp⟩, ?_⟩
  · rw [hput, if_neg (fun e : q = x => hq (e ▸ List.prefix_refl _))]
  · rw [hput]
    by_cases e : q = x
    · exact .inr (if_pos e)
    · exact .inl (if_neg e)
  · refine ⟨⟨?_, fun p c h => ?_, fun p h => ?_⟩, fun q n h => ?_, fun q n h => ?_⟩
    · rw [hput, if_neg (Ne.symm hx)]; exact hf.good.root
    · rw [hput] at h ⊢
      by_cases e : p ++ [c] = x
      · exact absurd (if_pos e) h
      · rw [if_neg e] at h
        by_cases e' : p = x
        · rw [e'] at h; exact absurd (he c) h
        · rw [if_neg e']; exact hf.good.tree p c h
    · rw [hput] at h
      by_cases e : p = x
      · exact absurd (if_pos e) h
      · rw [if_neg e] at h; exact hf.good.names p h
    · rw [hput] at h
      by_cases e : q ++ [n] = x
      · exact absurd (if_pos e) h
      · rw [if_neg e] at h; exact hf.plain q n h
    · rw [hput] at h
      by_cases e : q ++ [n] = x
      · exact absurd (if_pos e) h
      · rw [if_neg e] at h; exact hf.covers q n h

/-- Below what is not a directory, there is nothing. -/
theorem Fits.leaf {w fs} (hf : Fits w fs) {x : List Name} (hx : fs x ≠ some .dir) (n : Name) :
    fs (x ++ [n]) = none := by
  cases h : fs (x ++ [n]) with
  | none => rfl
  | some y => exact absurd (hf.good.tree x n (by rw [h]; simp)) hx

theorem Fits.gone {w fs} (hf : Fits w fs) {x : List Name} (hx : fs x = none) : Gone x fs := by
  rintro q ⟨t, rfl⟩
  induction t using Cache.snoc_ind with
  | h0 => simpa using hx
  | h1 t n ih =>
    rw [← List.append_assoc]
    exact hf.leaf (by rw [ih]; simp) n

theorem isEmpty_iff {w fs} (hf : Fits w fs) (q : List Name) :
    isEmpty w fs q = true ↔ ∀ n, fs (q ++ [n]) = none := by
  unfold isEmpty
  rw [List.all_eq_true]
  constructor
  · intro h n
    cases e : fs (q ++ [n]) with
    | none => rfl
    | some y =>
      have := h n (hf.covers q n (by rw [e]; simp))
      simp [e] at this
  · intro h n _
    simp [h n]

theorem mem_entries {w fs} (hf : Fits w fs) {q : List Name} {n : Name} (hn : fs (q ++ [n]) ≠ none) :
    n ∈ entries w fs q := by
  unfold entries
  refine List.mem_cons_of_mem _ (List.mem_cons_of_mem _ (List.mem_filter.mpr ⟨hf.covers q n hn, ?_⟩))
  cases h : fs (q ++ [n]) with
  | none => exact absurd h hn
  | some y => rfl

theorem entries_plain {w fs} (hf : Fits w fs) {q : List Name} :
    ∀ n ∈ entries w fs q, n = [dot] ∨ n = [dot, dot] ∨ (isStay n = false ∧ isUp n = false) := by
  intro n hn
  unfold entries at hn
  rcases List.mem_cons.mp hn with h | hn
  · exact .inl h
  · rcases List.mem_cons.mp hn with h | hn
    · exact .inr (.inl h)
    · refine .inr (.inr (hf.plain q n fun h => ?_))
      have := (List.mem_filter.mp hn).2
      rw [h] at this
      exact absurd this (by simp)

/-! ### The calls -/

theorem unlink_step {w s p d c} (hn : Names s.fs p d c) (hf : Fits w s.fs) :
    Step w (d ++ [c]) s (unlink w s p).2 ∧ ((unlink w s p).1 = true → (unlink w s p).2.fs (d ++ [c]) = none) ∧
    (s.fs (d ++ [c]) = some .dir → (unlink w s p).2 = s) := by
  unfold unlink
  split
  · exact ⟨Step.refl hf, fun h => absurd h (by simp), fun _ => rfl⟩
  · unfold Confine.unlink
    rw [hn.now]
    dsimp only
    rcases hx : s.fs (d ++ [c]) with _ | n
    · exact ⟨Step.refl hf, fun h => absurd h (by simp), fun _ => rfl⟩
    · have key : s.fs (d ++ [c]) ≠ some .dir → Step w (d ++ [c]) s (s.entry (d ++ [c]) none) := fun h =>
        Step.remove hf (by simp) (hf.leaf h)
      cases n with
      | dir => exact ⟨Step.refl hf, fun h => absurd h (by simp), fun _ => rfl⟩
      | file i => exact ⟨key (by rw [hx]; simp), fun _ => if_pos rfl, fun h => absurd h (by simp)⟩
      | lnk t => exact ⟨key (by rw [hx]; simp), fun _ => if_pos rfl, fun h => absurd h (by simp)⟩

/-- What is there, and not a directory, can be removed. -/
theorem unlink_works {w s p d c} (hr : Reliable w) (hn : Names s.fs p d c) (h1 : s.fs (d ++ [c]) ≠ none)
    (h2 : s.fs (d ++ [c]) ≠ some .dir) : (unlink w s p).1 = true := by
  unfold unlink
  rw [if_neg (by rw [hr.calls]; simp)]
  unfold Confine.unlink
  rw [hn.now]
  dsimp only
  rcases hx : s.fs (d ++ [c]) with _ | n
  · exact absurd hx h1
  · cases n with
    | dir => exact absurd hx h2
    | file i => rfl
    | lnk t => rfl

theorem rmdir_step {w s s' p d c} (hn : Names s.fs p d c) (hf : Fits w s.fs) (h : rmdir w s p = .ok s') :
    Step w (d ++ [c]) s s' ∧ s' = s.entry (d ++ [c]) none ∧ s.fs (d ++ [c]) = some .dir ∧
      ∀ n, s.fs (d ++ [c] ++ [n]) = none := by
  unfold rmdir at h
  split at h
  · exact absurd h (by simp)
  · rw [hn.now] at h
    dsimp only at h
    split at h
    · rename_i hd
      split at h
      · rename_i he
        injection h with h
        have hem := (isEmpty_iff hf _).mp he
        subst h
        exact ⟨Step.remove hf (by simp) hem, rfl, hd, hem⟩
      · exact absurd h (by simp)
    · exact absurd h (by simp)

/-- What a recursive call has to do. -/
def RecStep (w : World) (rec : State → List Name → Ret × State) : Prop :=
  ∀ s p d c, Names s.fs p d c → Fits w s.fs → (∀ t, s.fs (d ++ [c]) ≠ some (.lnk t)) → Step w (d ++ [c]) s (rec s p).2

theorem Step.keeps {w q n s s'} (h : Step w (q ++ [n]) s s') : s'.fs q = s.fs q := h.only q (not_below_child q n)

/-- What is taken for a directory is one. -/
theorem isDir_dir {w : World} {fs : FS} {p q n} (hn : Names fs (p ++ [n]) q n) (h : isDir w fs p q n = true) :
    fs (q ++ [n]) = some .dir := by
  unfold isDir at h
  split at h
  · exact of_decide_eq_true h
  · rw [Bool.and_eq_true, lstat_entry hn.now] at h
    exact of_decide_eq_true h.2

theorem isDir_works {w : World} {fs : FS} {p q n} (hr : Reliable w) (hn : Names fs (p ++ [n]) q n) :
    isDir w fs p q n = decide (fs (q ++ [n]) = some .dir) := by
  unfold isDir
  split
  · rfl
  · rw [lstat_entry hn.now, hr.calls]; rfl

theorem loop_cons {w delfiles rec p q err n ns ret s} (h : err ≠ some 0) :
    loop w delfiles rec p q err (n :: ns) ret s =
      if n = [dot] ∨ n = [dot, dot] then loop w delfiles rec p q (err.map (· - 1)) ns ret s
      else if isDir w s.fs p q n then
        match rec s (p ++ [n]) with
        | (.error, s) => ((ret, false), s)
        | (.remaining, s) => loop w delfiles rec p q (err.map (· - 1)) ns .remaining s
        | (.ok, s) => loop w delfiles rec p q (err.map (· - 1)) ns ret s
      else if delfiles then
        match unlink w s (p ++ [n]) with
        | (true, s) => loop w delfiles rec p q (err.map (· - 1)) ns ret s
        | (false, s) => loop w delfiles rec p q (err.map (· - 1)) ns .remaining s
      else loop w delfiles rec p q (err.map (· - 1)) ns .remaining s := by
  rcases err with _ | _ | k
  · rfl
  · exact absurd rfl h
  · rfl

/-- A loop that is left early says so. -/
theorem loop_not_ok {w delfiles rec p q s'} :
    ∀ err ns s {ret}, ret ≠ .ok → loop w delfiles rec p q err ns ret s ≠ ((.ok, false), s') := by
  intro err ns
  induction ns generalizing err with
  | nil =>
    intro s ret hr h
    rcases err with _ | _ | k
    · simp [loop] at h
    · simp [loop] at h
      exact hr h.1
    · simp [loop] at h
  | cons n ns ih =>
    intro s ret hr h
    by_cases herr : err = some 0
    · subst herr
      simp [loop] at h
      exact hr h.1
    · rw [loop_cons herr] at h
      split at h
      · exact ih _ _ hr h
      · split at h
        · split at h
          · simp at h
            exact hr h.1
          · exact ih _ _ (by simp) h
          · exact ih _ _ hr h
        · split at h
          · split at h
            · exact ih _ _ hr h
            · exact ih _ _ (by simp) h
          · exact ih _ _ (by simp) h

theorem loop_step {w delfiles rec p d c} (hrec : RecStep w rec) :
    ∀ err ns ret s, Names s.fs p d c → s.fs (d ++ [c]) = some .dir → Fits w s.fs →
      (∀ n ∈ ns, n = [dot] ∨ n = [dot, dot] ∨ (isStay n = false ∧ isUp n = false)) →
      Step w (d ++ [c]) s (loop w delfiles rec p (d ++ [c]) err ns ret s).2 ∧
        (loop w delfiles rec p (d ++ [c]) err ns ret s).2.fs (d ++ [c]) = some .dir := by
  intro err ns
  induction ns generalizing err with
  | nil =>
    intro ret s hn hd hf _
    rcases err with _ | _ | k <;> exact ⟨Step.refl hf, hd⟩
  | cons n ns ih =>
    intro ret s hn hd hf hp
    have go : ∀ err ret s', Step w (d ++ [c] ++ [n]) s s' →
        Step w (d ++ [c]) s (loop w delfiles rec p (d ++ [c]) err ns ret s').2 ∧
        (loop w delfiles rec p (d ++ [c]) err ns ret s').2.fs (d ++ [c]) = some .dir := by
      intro err ret s' hs
      have hs' := hs.up (List.prefix_append (d ++ [c]) [n])
      have := ih err ret s' (hn.only hs'.only) (by rw [hs.keeps]; exact hd) hs.fits
        fun m hm => hp m (List.mem_cons_of_mem _ hm)
      exact ⟨hs'.trans this.1, this.2⟩
    have stop : ∀ s', Step w (d ++ [c] ++ [n]) s s' → Step w (d ++ [c]) s s' ∧ s'.fs (d ++ [c]) = some .dir :=
      fun s' hs => ⟨hs.up (List.prefix_append (d ++ [c]) [n]), by rw [hs.keeps]; exact hd⟩
    have main : ∀ err : Option Nat, err ≠ some 0 →
        Step w (d ++ [c]) s (loop w delfiles rec p (d ++ [c]) err (n :: ns) ret s).2 ∧
        (loop w delfiles rec p (d ++ [c]) err (n :: ns) ret s).2.fs (d ++ [c]) = some .dir := by
      intro err herr
      rw [loop_cons herr]
      · split
        · exact go _ _ _ (Step.refl hf)
        · rename_i hdots
          have hpl := (hp n (by simp)).resolve_left (fun h => hdots (.inl h)) |>.resolve_left
            (fun h => hdots (.inr h))
          have hnc := hn.child hd hpl
          split
          · rename_i hid
            have hst := hrec s (p ++ [n]) (d ++ [c]) n hnc hf (by rw [isDir_dir hnc hid]; simp)
            generalize rec s (p ++ [n]) = o at hst ⊢
            obtain ⟨r, s'⟩ := o
            cases r
            · exact stop _ hst
            · exact go _ _ _ hst
            · exact go _ _ _ hst
          · split
            · have hst := (unlink_step hnc hf).1
              generalize unlink w s (p ++ [n]) = o at hst ⊢
              obtain ⟨b, s'⟩ := o
              cases b
              · exact go _ _ _ hst
              · exact go _ _ _ hst
            · exact go _ _ _ (Step.refl hf)
    by_cases herr : err = some 0
    · subst herr
      exact ⟨Step.refl hf, hd⟩
    · exact main err herr

theorem opendir_names {w : World} {fs : FS} {p d c q} (hn : Names fs p d c) (h : opendir w fs p = some q)
    (hx : fs (d ++ [c]) ≠ none) (hl : ∀ t, fs (d ++ [c]) ≠ some (.lnk t)) :
    q = d ++ [c] ∧ fs (d ++ [c]) = some .dir := by
  unfold opendir at h
  split at h
  · exact absurd h (by simp)
  · rw [realpath_node hn.now hx hl] at h
    dsimp only at h
    split at h
    · rename_i hd
      injection h with h
      exact ⟨h.symm, hd⟩
    · exact absurd h (by simp)

theorem opendir_works {w : World} {fs : FS} {p d c} (hr : Reliable w) (hn : Names fs p d c)
    (hd : fs (d ++ [c]) = some .dir) : opendir w fs p = some (d ++ [c]) := by
  unfold opendir
  rw [if_neg (by rw [hr.calls]; simp), realpath_entry hn.now hd]
  simp [hd]

/-- `do_recursive_delete` changes nothing else. -/
theorem del_step (w : World) (delfiles ignore : Bool) (depth : Nat) :
    RecStep w (del w delfiles ignore depth) := by
  induction depth with
  | zero => intro s p d c _ hf _; exact Step.refl hf
  | succ depth ih =>
    intro s p d c hn hf hl
    rw [del]
    split
    · exact Step.refl hf
    · rename_i hst
      split
      · exact Step.refl hf
      · rename_i q hq
        have hx : s.fs (d ++ [c]) ≠ none := by
          intro h
          exact hst (.inr (by rw [lstat_entry hn.now, h]))
        obtain ⟨rfl, hd⟩ := opendir_names hn hq hx hl
        have h1 := loop_step (delfiles := delfiles) ih (w.readErr p) (entries w s.fs (d ++ [c])) .error s hn hd hf
          (entries_plain hf)
        split
        · rename_i ret s' he
          rw [he] at h1
          exact h1.1
        · rename_i ret s' he
          rw [he] at h1
          split
          · split
            · rename_i s'' hrm
              exact h1.1.trans (rmdir_step (hn.only h1.1.only) h1.1.fits hrm).1
            · exact h1.1
            · exact h1.1
          · exact h1.1

/-- When `do_recursive_delete` says that all is well, what was to be deleted is gone. -/
theorem del_ok {w : World} {delfiles : Bool} {depth s p d c} (hn : Names s.fs p d c) (hf : Fits w s.fs)
    (hl : ∀ t, s.fs (d ++ [c]) ≠ some (.lnk t)) (hst : w.fails .lstat p = false)
    (h : (del w delfiles false depth s p).1 = .ok) : (del w delfiles false depth s p).2.fs (d ++ [c]) = none := by
  cases depth with
  | zero => exact absurd h (by simp [del])
  | succ depth =>
    rw [del] at h ⊢
    split
    · rename_i hc
      rw [hst, lstat_entry hn.now] at hc
      simpa using hc
    · rename_i hc
      rw [if_neg hc] at h
      split
      · rename_i ho
        rw [ho] at h
        exact absurd h (by simp)
      · rename_i q hq
        rw [hq] at h
        dsimp only at h
        have hx : s.fs (d ++ [c]) ≠ none := by
          intro h
          exact hc (.inr (by rw [lstat_entry hn.now, h]))
        obtain ⟨rfl, hd⟩ := opendir_names hn hq hx hl
        have h1 := loop_step (delfiles := delfiles) (del_step w delfiles false depth) (w.readErr p)
          (entries w s.fs (d ++ [c])) .error s hn hd hf (entries_plain hf)
        split
        · rename_i ret s' he
          rw [he] at h
          dsimp only at h
          subst h
          exact absurd he (loop_not_ok _ _ _ (by simp))
        · rename_i ret s' he
          rw [he] at h h1
          dsimp only at h
          split
          · rename_i hro
            rw [if_pos hro] at h
            split
            · rename_i s'' hrm
              rw [(rmdir_step (hn.only h1.1.only) h1.1.fits hrm).2.1]
              exact if_pos rfl
            · rename_i hrm
              rw [hrm] at h
              exact absurd h (by simp)
            · rename_i hrm
              rw [hrm] at h
              exact absurd h (by simp)
          · rename_i hro
            rw [if_neg hro] at h
            exact absurd h hro

/-! ### When nothing fails -/

theorem loop_all {w : World} {rec p d c K} (hr : Reliable w) (hrec : RecStep w rec)
    (hall : ∀ n s, (isStay n = false ∧ isUp n = false) → Names s.fs (p ++ [n]) (d ++ [c]) n → Fits w s.fs →
      s.fs (d ++ [c] ++ [n]) = some .dir → Shallow K s.fs →
      (rec s (p ++ [n])).1 = .ok ∧ (rec s (p ++ [n])).2.fs (d ++ [c] ++ [n]) = none) :
    ∀ ns ret s, Names s.fs p d c → s.fs (d ++ [c]) = some .dir → Fits w s.fs → Shallow K s.fs →
      (∀ n ∈ ns, n = [dot] ∨ n = [dot, dot] ∨ (isStay n = false ∧ isUp n = false)) →
      ∃ s', loop w true rec p (d ++ [c]) none ns ret s = ((.ok, true), s') ∧
        ∀ n, isStay n = false ∧ isUp n = false → (n ∈ ns ∨ s.fs (d ++ [c] ++ [n]) = none) →
          s'.fs (d ++ [c] ++ [n]) = none := by
  intro ns
  induction ns with
  | nil => exact fun ret s _ _ _ _ _ => ⟨s, rfl, fun n _ h => h.resolve_left (by simp)⟩
  | cons n ns ih =>
    intro ret s hn hd hf hk hp
    have go : ∀ ret s', Step w (d ++ [c] ++ [n]) s s' →
        (isStay n = false ∧ isUp n = false → s'.fs (d ++ [c] ++ [n]) = none) →
        ∃ s'', loop w true rec p (d ++ [c]) none ns ret s' = ((.ok, true), s'') ∧
        ∀ m, isStay m = false ∧ isUp m = false → (m ∈ n :: ns ∨ s.fs (d ++ [c] ++ [m]) = none) →
          s''.fs (d ++ [c] ++ [m]) = none := by
      intro ret s' hs hgone
      have hs' := hs.up (List.prefix_append (d ++ [c]) [n])
      obtain ⟨s'', h1, h2⟩ := ih ret s' (hn.only hs'.only) (by rw [hs.keeps]; exact hd) hs.fits
        (fun x hx => hk x fun h => hx ((hs.less x).elim (fun e => e.trans h) id))
        fun m hm => hp m (List.mem_cons_of_mem _ hm)
      refine ⟨s'', h1, fun m hm h => h2 m hm ?_⟩
      rcases h with h | h
      · rcases List.mem_cons.mp h with rfl | h
        · exact .inr (hgone hm)
        · exact .inl h
      · exact .inr ((hs.less _).elim (fun e => e.trans h) id)
    rw [loop_cons (by simp)]
    split
    · rename_i hdots
      refine go _ _ (Step.refl hf) fun h => ?_
      rcases hdots with e | e
      · rw [e] at h; exact absurd h.1 (by decide)
      · rw [e] at h; exact absurd h.2 (by decide)
    · rename_i hdots
      have hpl := (hp n (by simp)).resolve_left (fun h => hdots (.inl h)) |>.resolve_left
        (fun h => hdots (.inr h))
      have hnc := hn.child hd hpl
      rw [isDir_works hr hnc]
      split
      · rename_i hid
        have hid := of_decide_eq_true hid
        have hst := hrec s (p ++ [n]) (d ++ [c]) n hnc hf (by rw [hid]; simp)
        have hal := hall n s hpl hnc hf hid hk
        generalize rec s (p ++ [n]) = o at hst hal ⊢
        obtain ⟨r, s'⟩ := o
        have : r = .ok := hal.1
        subst this
        exact go _ _ hst fun _ => hal.2
      · rename_i hid
        have hid : s.fs (d ++ [c] ++ [n]) ≠ some .dir := fun e => hid (decide_eq_true e)
        rw [if_pos rfl]
        have hst := unlink_step (w := w) hnc hf
        have hw := fun h => unlink_works hr hnc h hid
        generalize unlink w s (p ++ [n]) = o at hst hw ⊢
        obtain ⟨b, s'⟩ := o
        cases b with
        | true => exact go _ _ hst.1 fun _ => hst.2.1 rfl
        | false =>
          refine go _ _ hst.1 fun _ => ?_
          cases hx : s.fs (d ++ [c] ++ [n]) with
          | none => exact (hst.1.less _).elim (fun e => e.trans hx) id
          | some y => exact absurd (hw (by rw [hx]; simp)) (by simp)

theorem plain_of_exists {w fs} (hf : Fits w fs) {q : List Name} {n : Name} (h : fs (q ++ [n]) ≠ none) :
    isStay n = false ∧ isUp n = false := hf.plain q n h

theorem del_all {w : World} (hr : Reliable w) {K : Nat} (depth : Nat) :
    ∀ s p d c, Names s.fs p d c → Fits w s.fs → s.fs (d ++ [c]) = some .dir → Shallow K s.fs →
      K ≤ depth + (d ++ [c]).length → (del w true false depth s p).1 = .ok := by
  induction depth with
  | zero =>
    intro s p d c hn hf hd hk hle
    have := hk (d ++ [c]) (by rw [hd]; simp)
    omega
  | succ depth ih =>
    intro s p d c hn hf hd hk hle
    rw [del]
    rw [if_neg (by rw [hr.calls, lstat_entry hn.now, hd]; simp), opendir_works hr hn hd]
    dsimp only
    have hst := loop_step (delfiles := true) (del_step w true false depth) (w.readErr p)
      (entries w s.fs (d ++ [c])) .error s hn hd hf (entries_plain hf)
    obtain ⟨s', he, hgone⟩ := loop_all (p := p) (d := d) (c := c) (K := K) hr (del_step w true false depth) (fun n s hpl hnc hf hd hk => by
      have h1 := ih s (p ++ [n]) (d ++ [c]) n hnc hf hd hk (by simp only [List.length_append, List.length_singleton] at hle ⊢; omega)
      exact ⟨h1, del_ok hnc hf (by rw [hd]; simp) (hr.calls _ _) h1⟩)
      (entries w s.fs (d ++ [c])) .error s hn hd hf hk (entries_plain hf)
    rw [hr.reads] at hst ⊢
    rw [he] at hst ⊢
    dsimp only
    rw [if_pos rfl]
    have hem : ∀ n, s'.fs (d ++ [c] ++ [n]) = none := by
      intro n
      cases hx : s.fs (d ++ [c] ++ [n]) with
      | none => exact (hst.1.less _).elim (fun e => e.trans hx) id
      | some y =>
        have hy : s.fs (d ++ [c] ++ [n]) ≠ none := by rw [hx]; simp
        exact hgone n (plain_of_exists hf hy) (.inl (mem_entries hf hy))
    unfold rmdir
    rw [if_neg (by rw [hr.calls]; simp), (hn.only hst.1.only).now]
    dsimp only
    rw [if_pos hst.2, if_pos ((isEmpty_iff hst.1.fits _).mpr hem)]

/-! ### Only directories -/

/-- Nothing but directories has been removed. -/
def Kept (s s' : State) : Prop := ∀ x, s.fs x ≠ some .dir → s'.fs x = s.fs x

theorem Kept.trans {s s' s''} (h : Kept s s') (h' : Kept s' s'') : Kept s s'' := fun x hx => by
  have := h x hx
  rw [h' x (by rw [this]; exact hx), this]

theorem loop_kept {w rec p q} (hrec : ∀ s p, Kept s (rec s p).2) :
    ∀ err ns ret s, Kept s (loop w false rec p q err ns ret s).2 := by
  intro err ns
  induction ns generalizing err with
  | nil =>
    intro ret s
    rcases err with _ | _ | k <;> exact fun _ _ => rfl
  | cons n ns ih =>
    intro ret s
    by_cases herr : err = some 0
    · subst herr
      exact fun _ _ => rfl
    · rw [loop_cons herr]
      split
      · exact ih _ _ _
      · split
        · have h := hrec s (p ++ [n])
          generalize rec s (p ++ [n]) = o at h ⊢
          obtain ⟨r, s'⟩ := o
          cases r
          · exact h
          · exact h.trans (ih _ _ _)
          · exact h.trans (ih _ _ _)
        · rw [if_neg (by simp)]
          exact ih _ _ _

theorem del_kept (w : World) (ignore : Bool) (depth : Nat) : ∀ s p, Kept s (del w false ignore depth s p).2 := by
  induction depth with
  | zero => exact fun s p _ _ => rfl
  | succ depth ih =>
    intro s p
    rw [del]
    split
    · exact fun _ _ => rfl
    · split
      · exact fun _ _ => rfl
      · rename_i q hq
        have h1 := loop_kept (w := w) (p := p) (q := q) ih (w.readErr p) (entries w s.fs q) .error s
        split
        · rename_i ret s' he
          rw [he] at h1
          exact h1
        · rename_i ret s' he
          rw [he] at h1
          split
          · split
            · rename_i s'' hrm
              refine h1.trans fun x hx => ?_
              unfold rmdir at hrm
              split at hrm
              · exact absurd hrm (by simp)
              · split at hrm
                · split at hrm
                  · rename_i hd
                    split at hrm
                    · injection hrm with hrm
                      subst hrm
                      exact if_neg fun e => hx (by rw [e]; exact hd)
                    · exact absurd hrm (by simp)
                  · exact absurd hrm (by simp)
                · exact absurd hrm (by simp)
            · exact h1
            · exact h1
          · exact h1

/-! ### Empty directories -/

/-- At and below a place, exactly those directories have gone that had nothing but directories in them. -/
def Pruned (r : List Name) (fs fs' : FS) : Prop :=
  ∀ x, r <+: x → (fs x = some .dir → Bare fs x → fs' x = none) ∧ (¬ (fs x = some .dir ∧ Bare fs x) → fs' x = fs x)

theorem Pruned.bare {r : List Name} {fs fs' : FS} (h : Pruned r fs fs') {x : List Name} (hx : r <+: x)
    (hd : fs x = some .dir) : fs' x = none ↔ Bare fs x := by
  constructor
  · intro hn
    refine Classical.byContradiction fun hb => ?_
    have := (h x hx).2 fun h => hb h.2
    rw [hn, hd] at this
    exact absurd this (by simp)
  · exact (h x hx).1 hd

theorem Pruned.congr {r : List Name} {f g fs' : FS} (h : Pruned r f fs') (he : ∀ x, r <+: x → f x = g x) :
    Pruned r g fs' := by
  intro x hx
  have hb : Bare f x ↔ Bare g x := by
    unfold Bare
    exact forall_congr' fun y => forall_congr' fun hy => by rw [he y (hx.trans hy)]
  have := h x hx
  rw [he x hx, hb] at this
  exact this

theorem Pruned.congr' {r : List Name} {f g h : FS} (hp : Pruned r f g) (he : ∀ x, r <+: x → h x = g x) :
    Pruned r f h := by
  intro x hx
  rw [he x hx]
  exact hp x hx

theorem snoc_inj {q x : List Name} {n m : Name} (h : q ++ [n] <+: x) (h' : q ++ [m] <+: x) : n = m := by
  have := List.prefix_of_prefix_length_le h h' (by simp)
  have := this.eq_of_length_le (by simp)
  simpa using this

theorem Pruned.leaf {w fs} (hf : Fits w fs) {r : List Name} (hr : fs r ≠ some .dir) : Pruned r fs fs := by
  rintro x ⟨t, rfl⟩
  refine ⟨fun hd _ => ?_, fun _ => rfl⟩
  rcases t with _ | ⟨a, t⟩
  · exact absurd (by simpa using hd) hr
  · have : fs (r ++ [a]) = none := hf.leaf hr a
    rw [hf.gone this (r ++ a :: t) ⟨t, by simp⟩]

theorem loop_prune {w : World} {rec p d c K} (hr : Reliable w) (hrec : RecStep w rec)
    (hall : ∀ n s, (isStay n = false ∧ isUp n = false) → Names s.fs (p ++ [n]) (d ++ [c]) n → Fits w s.fs →
      s.fs (d ++ [c] ++ [n]) = some .dir → Shallow K s.fs →
      (rec s (p ++ [n])).1 = .ok ∧ Pruned (d ++ [c] ++ [n]) s.fs (rec s (p ++ [n])).2.fs) :
    ∀ ns ret s, Names s.fs p d c → s.fs (d ++ [c]) = some .dir → Fits w s.fs → Shallow K s.fs → ns.Nodup →
      (∀ n ∈ ns, n = [dot] ∨ n = [dot, dot] ∨ (isStay n = false ∧ isUp n = false)) →
      ∃ s', loop w false rec p (d ++ [c]) none ns ret s = ((.ok, true), s') ∧
        (∀ n ∈ ns, isStay n = false ∧ isUp n = false → Pruned (d ++ [c] ++ [n]) s.fs s'.fs) ∧
        ∀ x, (∀ n ∈ ns, ¬ d ++ [c] ++ [n] <+: x) → s'.fs x = s.fs x := by
  intro ns
  induction ns with
  | nil => exact fun ret s _ _ _ _ _ _ => ⟨s, rfl, by simp, fun _ _ => rfl⟩
  | cons n ns ih =>
    intro ret s hn hd hf hk hnd hp
    obtain ⟨hnn, hnd⟩ := List.nodup_cons.mp hnd
    have go : ∀ ret s', Step w (d ++ [c] ++ [n]) s s' →
        (isStay n = false ∧ isUp n = false → Pruned (d ++ [c] ++ [n]) s.fs s'.fs) →
        ∃ s'', loop w false rec p (d ++ [c]) none ns ret s' = ((.ok, true), s'') ∧
          (∀ m ∈ n :: ns, isStay m = false ∧ isUp m = false → Pruned (d ++ [c] ++ [m]) s.fs s''.fs) ∧
          ∀ x, (∀ m ∈ n :: ns, ¬ d ++ [c] ++ [m] <+: x) → s''.fs x = s.fs x := by
      intro ret s' hs hpr
      have hs' := hs.up (List.prefix_append (d ++ [c]) [n])
      obtain ⟨s'', h1, h2, h3⟩ := ih ret s' (hn.only hs'.only) (by rw [hs.keeps]; exact hd) hs.fits
        (fun x hx => hk x fun h => hx ((hs.less x).elim (fun e => e.trans h) id)) hnd
        fun m hm => hp m (List.mem_cons_of_mem _ hm)
      refine ⟨s'', h1, fun m hm hpl => ?_, fun x hx => ?_⟩
      · rcases List.mem_cons.mp hm with rfl | hm
        · exact (hpr hpl).congr' fun x hx => h3 x fun k hk hkx => hnn (by rw [snoc_inj hx hkx]; exact hk)
        · exact (h2 m hm hpl).congr fun x hx => hs.only x fun hnx => hnn (by rw [snoc_inj hnx hx]; exact hm)
      · rw [h3 x fun m hm => hx m (List.mem_cons_of_mem _ hm), hs.only x (hx n (by simp))]
    rw [loop_cons (by simp)]
    split
    · rename_i hdots
      refine go _ _ (Step.refl hf) fun h => ?_
      rcases hdots with e | e
      · rw [e] at h; exact absurd h.1 (by decide)
      · rw [e] at h; exact absurd h.2 (by decide)
    · rename_i hdots
      have hpl := (hp n (by simp)).resolve_left (fun h => hdots (.inl h)) |>.resolve_left
        (fun h => hdots (.inr h))
      have hnc := hn.child hd hpl
      rw [isDir_works hr hnc]
      split
      · rename_i hid
        have hid := of_decide_eq_true hid
        have hst := hrec s (p ++ [n]) (d ++ [c]) n hnc hf (by rw [hid]; simp)
        have hal := hall n s hpl hnc hf hid hk
        generalize rec s (p ++ [n]) = o at hst hal ⊢
        obtain ⟨r, s'⟩ := o
        have : r = .ok := hal.1
        subst this
        exact go _ _ hst fun _ => hal.2
      · rename_i hid
        have hid : s.fs (d ++ [c] ++ [n]) ≠ some .dir := fun e => hid (decide_eq_true e)
        rw [if_neg (by simp)]
        exact go _ _ (Step.refl hf) fun _ => Pruned.leaf hf hid

theorem entries_nodup {w fs} (hf : Fits w fs) {q : List Name} (h : (w.names q).Nodup) :
    (entries w fs q).Nodup := by
  have key : ∀ n ∈ (w.names q).filter (fun n => (fs (q ++ [n])).isSome), isStay n = false ∧ isUp n = false := by
    intro n hn
    refine hf.plain q n fun e => ?_
    have := (List.mem_filter.mp hn).2
    rw [e] at this
    exact absurd this (by simp)
  unfold entries
  refine List.nodup_cons.mpr ⟨fun h => ?_, List.nodup_cons.mpr ⟨fun h => ?_, h.sublist List.filter_sublist⟩⟩
  · rcases List.mem_cons.mp h with h | h
    · exact absurd h (by decide)
    · exact absurd (key _ h).1 (by decide)
  · exact absurd (key _ h).2 (by decide)

theorem del_prune {w : World} (hr : Reliable w) (hu : ∀ q, (w.names q).Nodup) {K : Nat} (depth : Nat) :
    ∀ s p d c, Names s.fs p d c → Fits w s.fs → s.fs (d ++ [c]) = some .dir → Shallow K s.fs →
      K ≤ depth + (d ++ [c]).length → (del w false true depth s p).1 = .ok ∧
        Pruned (d ++ [c]) s.fs (del w false true depth s p).2.fs := by
  induction depth with
  | zero =>
    intro s p d c hn hf hd hk hle
    have := hk (d ++ [c]) (by rw [hd]; simp)
    omega
  | succ depth ih =>
    intro s p d c hn hf hd hk hle
    rw [del]
    rw [if_neg (by rw [hr.calls, lstat_entry hn.now, hd]; simp), opendir_works hr hn hd]
    dsimp only
    have hst := loop_step (delfiles := false) (del_step w false true depth) (w.readErr p)
      (entries w s.fs (d ++ [c])) .error s hn hd hf (entries_plain hf)
    obtain ⟨s', he, hpr, hsame⟩ := loop_prune (p := p) (d := d) (c := c) (K := K) hr
      (del_step w false true depth) (fun n s hpl hnc hf hd hk =>
        ih s (p ++ [n]) (d ++ [c]) n hnc hf hd hk
          (by simp only [List.length_append, List.length_singleton] at hle ⊢; omega))
      (entries w s.fs (d ++ [c])) .error s hn hd hf hk (entries_nodup hf (hu _)) (entries_plain hf)
    rw [hr.reads] at hst ⊢
    rw [he] at hst ⊢
    dsimp only
    rw [if_pos rfl]
    -- what is below, with the name of the entry on the way
    have below : ∀ n t, s'.fs (d ++ [c] ++ n :: t) = s.fs (d ++ [c] ++ n :: t) ∧
        s.fs (d ++ [c] ++ n :: t) = none ∨ Pruned (d ++ [c] ++ [n]) s.fs s'.fs := by
      intro n t
      cases hx : s.fs (d ++ [c] ++ [n]) with
      | none =>
        left
        have h0 := hf.gone hx (d ++ [c] ++ n :: t) ⟨t, by simp⟩
        exact ⟨by rcases hst.1.less (d ++ [c] ++ n :: t) with e | e; exact e; rw [e, h0], h0⟩
      | some y =>
        have hy : s.fs (d ++ [c] ++ [n]) ≠ none := by rw [hx]; simp
        exact .inr (hpr n (mem_entries hf hy) (plain_of_exists hf hy))
    have pr : ∀ fs' : FS, (∀ x, x ≠ d ++ [c] → fs' x = s'.fs x) →
        (Bare s.fs (d ++ [c]) → fs' (d ++ [c]) = none) → (¬ Bare s.fs (d ++ [c]) → fs' (d ++ [c]) = some .dir) →
        Pruned (d ++ [c]) s.fs fs' := by
      rintro fs' h1 h2 h3 x ⟨t, rfl⟩
      rcases t with _ | ⟨n, t⟩
      · simp only [List.append_nil]
        exact ⟨fun _ hb => h2 hb, fun h => (h3 fun hb => h ⟨hd, hb⟩).trans hd.symm⟩
      · rw [h1 _ (by
          intro e
          have := congrArg List.length e
          simp at this)]
        rcases below n t with ⟨e, e'⟩ | hp
        · exact ⟨fun h => absurd (e'.symm.trans h) (by simp), fun _ => e⟩
        · exact hp _ ⟨t, by simp⟩
    have hbare : (∀ n, s'.fs (d ++ [c] ++ [n]) = none) ↔ Bare s.fs (d ++ [c]) := by
      constructor
      · rintro h x ⟨t, rfl⟩
        rcases t with _ | ⟨n, t⟩
        · right; simpa using hd
        · cases hx : s.fs (d ++ [c] ++ [n]) with
          | none => left; exact hf.gone hx _ ⟨t, by simp⟩
          | some y =>
            have hy : s.fs (d ++ [c] ++ [n]) ≠ none := by rw [hx]; simp
            have hp := hpr n (mem_entries hf hy) (plain_of_exists hf hy)
            refine Classical.byContradiction fun hc => ?_
            have := (hp (d ++ [c] ++ [n]) (List.prefix_refl _)).2 fun hh => hc (hh.2 _ ⟨t, by simp⟩)
            rw [h n] at this
            exact hy this.symm
      · intro hb n
        cases hx : s.fs (d ++ [c] ++ [n]) with
        | none => exact (hst.1.less _).elim (fun e => e.trans hx) id
        | some y =>
          have hy : s.fs (d ++ [c] ++ [n]) ≠ none := by rw [hx]; simp
          have hp := hpr n (mem_entries hf hy) (plain_of_exists hf hy)
          have hdn := (hb (d ++ [c] ++ [n]) (List.prefix_append _ _)).resolve_left hy
          exact (hp _ (List.prefix_refl _)).1 hdn fun z hz => hb z ((List.prefix_append _ _).trans hz)
    unfold rmdir
    rw [if_neg (by rw [hr.calls]; simp), (hn.only hst.1.only).now]
    dsimp only
    rw [if_pos hst.2]
    by_cases hem : isEmpty w s'.fs (d ++ [c]) = true
    · rw [if_pos hem]
      have hb := hbare.mp ((isEmpty_iff hst.1.fits _).mp hem)
      exact ⟨rfl, pr _ (fun x hx => if_neg hx) (fun _ => if_pos rfl) fun h => absurd hb h⟩
    · rw [if_neg hem]
      have hb : ¬ Bare s.fs (d ++ [c]) := fun h => hem ((isEmpty_iff hst.1.fits _).mpr (hbare.mpr h))
      exact ⟨rfl, pr _ (fun x hx => rfl) (fun h => absurd h hb) fun _ => hst.2⟩

end Verif.Remove
