import Verif.Lemmas.Phase1Walk

/-!
# What the walk of the first phase does, and that it leaves nothing out
-/

namespace Verif.Phase1
open Verif.Strlist Verif.Attribs Verif.Find

theorem mem_insertName (x y : Str) (l : List Str) : y ∈ Scan.insertName x l ↔ y = x ∨ y ∈ l := by
  induction l with
  | nil => simp [Scan.insertName]
  | cons z zs ih =>
    unfold Scan.insertName
    split
    · simp
    · simp only [List.mem_cons, ih]
      constructor
      · rintro (h | h | h)
        · exact Or.inr (Or.inl h)
        · exact Or.inl h
        · exact Or.inr (Or.inr h)
      · rintro (h | h | h)
        · exact Or.inr (Or.inl h)
        · exact Or.inl h
        · exact Or.inr (Or.inr h)

theorem mem_sorted (y : Str) (l : List Str) : y ∈ Scan.alphasort l ↔ y ∈ l := by
  induction l with
  | nil => simp [Scan.alphasort]
  | cons x xs ih => simp [Scan.alphasort, mem_insertName, ih]

/-- What a file is taken for, and with what attributes. -/
inductive TypeFor (c : Cfg) (w : World) (f : Str) (a : Attr) : Attr → FType → Prop where
  | reg : kindOf a.mode = some .reg → TypeFor c w f a a .reg
  | device : kindOf a.mode = some .lnk → f ∈ c.blockdevs →
      TypeFor c w f a { a with mode := blockMode a.mode } .raw
  | link : kindOf a.mode = some .lnk → f ∉ c.blockdevs → TypeFor c w f a a (linkType w f)
  | dir : kindOf a.mode = some .dir → TypeFor c w f a a .dir
  | noFsChange : kindOf a.mode = some .dir → TypeFor c w f a a .noFsChange
  | noOpen : kindOf a.mode = some .dir → TypeFor c w f a a .noOpen
  | other : kindOf a.mode ≠ some .reg → kindOf a.mode ≠ some .lnk → kindOf a.mode ≠ some .dir →
      TypeFor c w f a a (otherType c f (kindOf a.mode))

def CallOk (c : Cfg) (w : World) (starts : List Elem) : Call → Prop
  | .send (some a') f ty top => ∃ par a, Reached c w starts f par top ∧ w.lstat f = some a ∧ TypeFor c w f a a' ty
  | .send none f ty top => (∃ par, Reached c w starts f par top) ∧ w.lstat f = none ∧ ty = .noStat
  | .say o => ∀ e ∈ o, ∃ pr p, e = .warn pr p ∧ (pr = .statfs ∨ pr = .skipped) ∧ ∃ par top, Reached c w starts p par top
  | .stop _ => True

theorem nobackup_false {c : Cfg} {w : World} {f : Str} :
    nobackupDir c w f = false ↔ ∀ n ∈ c.nobackup, w.lstat (Prepend.prependS (some f) n) = none := by
  unfold nobackupDir
  rw [List.any_eq_false]
  constructor
  · intro h n hn
    have := h n hn
    cases hl : w.lstat (Prepend.prependS (some f) n) with
    | none => rfl
    | some a => rw [hl] at this; exact absurd rfl this
  · intro h n hn
    rw [h n hn]
    simp

theorem fsSkip_false {c : Cfg} {w : World} {f : Str} {o : List Ev} :
    fsSkip c w f = (o, false) ↔
      o = [] ∧ ∃ t, w.fstype f = some t ∧ t ∉ c.excfs ∧ (c.incfs = [] ∨ t ∈ c.incfs) := by
  unfold fsSkip fstypeMatches
  cases ht : w.fstype f with
  | none =>
    constructor
    · intro h; cases h
    · rintro ⟨_, t, h, _⟩; cases h
  | some t =>
    dsimp only
    cases he : c.excfs.contains t
    · have he' : t ∉ c.excfs := by
        intro h
        rw [List.contains_iff_mem.mpr h] at he
        cases he
      dsimp only
      split
      · next hi =>
        constructor
        · intro h; cases h; exact ⟨rfl, t, rfl, he', Or.inl hi⟩
        · rintro ⟨rfl, _⟩; rfl
      · next hi =>
        constructor
        · intro h
          have h1 := (Prod.mk.inj h).1
          have h2 := (Prod.mk.inj h).2
          refine ⟨h1.symm, t, rfl, he', Or.inr ?_⟩
          cases hc : c.incfs.contains t
          · rw [hc] at h2; cases h2
          · exact List.contains_iff_mem.mp hc
        · rintro ⟨rfl, t', ht', _, h⟩
          cases ht'
          rcases h with h | h
          · exact absurd h hi
          · rw [List.contains_iff_mem.mpr h]; rfl
    · constructor
      · intro h; cases h
      · rintro ⟨_, t', ht', hn, _⟩
        cases ht'
        exact absurd (List.contains_iff_mem.mp he) hn

theorem fsSkip_says {c : Cfg} {w : World} {f : Str} : ∀ e ∈ (fsSkip c w f).1, e = .warn .statfs f := by
  unfold fsSkip fstypeMatches
  cases w.fstype f with
  | none => intro e he; simpa using he
  | some t =>
    dsimp only
    cases c.excfs.contains t
    · dsimp only
      split
      · intro e he; cases he
      · intro e he; cases he
    · intro e he; cases he

theorem allowed_iff {c : Cfg} {f : Str} : fsChangeAllowed c f = true ↔ c.crossAll = true ∨ f ∈ c.fschgdir := by
  unfold fsChangeAllowed
  rw [Bool.or_eq_true, List.contains_iff_mem]

theorem other_blk {c : Cfg} {f : Str} (h : f ∈ c.blockdevs) : otherType c f (some .blk) = .raw := by
  have h' : readBlockdev c f = true := by
    unfold readBlockdev
    rw [List.contains_iff_mem.mpr h, Bool.or_true]
  unfold otherType
  rw [h']
  rfl

/-! ### Everything that the walk does is about what is reached -/

section sound
variable {c : Cfg} {w : World} {starts : List Elem} {find : Str → List Call}

theorem walkIncluded_sound {link : Str} {l : List Elem} (P : Call → Prop)
    (h : ∀ x ∈ l, x.flag ≠ 0 → PathCmp.isSubdir link x.path ≠ 0 → ∀ k ∈ find x.path, P k) :
    ∀ k ∈ walkIncluded find link l, P k := by
  induction l with
  | nil => intro k hk; cases hk
  | cons x xs ih =>
    intro k hk
    unfold walkIncluded at hk
    have ih' := ih (fun y hy => h y (List.mem_cons_of_mem _ hy))
    split at hk
    · next hc =>
      simp only [Bool.and_eq_true, decide_eq_true_eq] at hc
      rcases List.mem_append.mp hk with hk | hk
      · exact h x (List.mem_cons_self ..) hc.1 hc.2 k hk
      · exact ih' k hk
    · exact ih' k hk

theorem walkEntries_sound {pre : Str} {l : List Str} (P : Call → Prop)
    (h : ∀ n ∈ l, ∀ q, Leads c (pre ++ n) q → ∀ k ∈ find q, P k) :
    ∀ k ∈ walkEntries find c pre l, P k := by
  induction l with
  | nil => intro k hk; cases hk
  | cons n ns ih =>
    intro k hk
    unfold walkEntries at hk
    rcases List.mem_append.mp hk with hk | hk
    · unfold walkEntry at hk
      split at hk
      · next hi => exact h n (List.mem_cons_self ..) _ (Or.inl ⟨hi, rfl⟩) k hk
      · next hi =>
        exact walkIncluded_sound P (fun x hx hf hs => h n (List.mem_cons_self ..) _
          (Or.inr ⟨by simpa using hi, x, hx, hf, hs, rfl⟩)) k hk
    · exact ih (fun m hm => h m (List.mem_cons_of_mem _ hm)) k hk

theorem walk_sound (n : Nat) : ∀ (f : Str) (par : Int) (top : Bool), Reached c w starts f par top →
    ∀ k ∈ walk c w n f par top, CallOk c w starts k := by
  induction n with
  | zero =>
    intro f par top _ k hk
    rw [walk, List.mem_singleton] at hk
    subst hk
    trivial
  | succ n ih =>
    intro f par top hr k hk
    unfold walk at hk
    cases hl : w.lstat f with
    | none =>
      rw [hl] at hk
      have hk := List.mem_singleton.mp hk
      subst hk
      exact ⟨⟨par, hr⟩, hl, rfl⟩
    | some a =>
      rw [hl] at hk
      dsimp only at hk
      have ok : ∀ a' ty, TypeFor c w f a a' ty → CallOk c w starts (.send (some a') f ty top) :=
        fun a' ty ht => ⟨par, a, hr, hl, ht⟩
      have other : kindOf a.mode ≠ some .reg → kindOf a.mode ≠ some .lnk → kindOf a.mode ≠ some .dir →
          k ∈ [Call.send (some a) f (otherType c f (kindOf a.mode)) top] → CallOk c w starts k := by
        intro h1 h2 h3 hk
        have hk := List.mem_singleton.mp hk
        subst hk
        exact ok _ _ (.other h1 h2 h3)
      have dir : kindOf a.mode = some .dir →
          k ∈ walkDir (fun f => walk c w n f a.dev false) c w f par top a → CallOk c w starts k := by
        intro hd hk
        unfold walkDir at hk
        rcases List.mem_cons.mp hk with rfl | hk
        · exact ok _ _ (.dir hd)
        · split at hk
          · cases hk
          · next hnb =>
            have hnb := nobackup_false.mp (by simpa using hnb)
            have read : Entered c w f par top a →
                k ∈ walkRead (fun f => walk c w n f a.dev false) c w f top a → CallOk c w starts k := by
              intro hent hk
              unfold walkRead at hk
              cases he : w.entries f with
              | names l =>
                rw [he] at hk
                exact walkEntries_sound (CallOk c w starts) (fun m hm q hq k hk =>
                  ih q a.dev false (.child hr hl hd hent he ((mem_sorted m l).mp hm) hq) k hk) k hk
              | noOpen =>
                rw [he] at hk
                have hk := List.mem_singleton.mp hk
                subst hk
                exact ok _ _ (.noOpen hd)
              | bad =>
                rw [he] at hk
                have hk := List.mem_singleton.mp hk
                subst hk
                trivial
            unfold walkEnter at hk
            split at hk
            · next hdev =>
              have says : ∀ e ∈ (fsSkip c w f).1, ∃ pr p, e = .warn pr p ∧ (pr = .statfs ∨ pr = .skipped) ∧
                  ∃ par top, Reached c w starts p par top :=
                fun e he => ⟨_, _, fsSkip_says e he, Or.inl rfl, par, top, hr⟩
              cases hfs : fsSkip c w f with
              | mk o b =>
                rw [hfs] at hk says
                cases b
                · rcases List.mem_cons.mp hk with rfl | hk
                  · exact says
                  · split at hk
                    · have hk := List.mem_singleton.mp hk
                      subst hk
                      exact ok _ _ (.noFsChange hd)
                    · next hal =>
                      refine read ⟨hnb, fun _ => ⟨(fsSkip_false.mp hfs).2, ?_⟩⟩ hk
                      cases top
                      · right
                        refine allowed_iff.mp ?_
                        cases hx : fsChangeAllowed c f
                        · rw [hx] at hal; exact absurd rfl hal
                        · rfl
                      · exact Or.inl rfl
                · rcases List.mem_cons.mp hk with rfl | hk
                  · intro e he
                    rcases List.mem_append.mp he with he | he
                    · exact says e he
                    · split at he
                      · exact ⟨_, _, List.mem_singleton.mp he, Or.inr rfl, par, top, hr⟩
                      · cases he
                  · have hk := List.mem_singleton.mp hk
                    subst hk
                    exact ok _ _ (.dir hd)
            · next hdev =>
              refine read ⟨hnb, fun h => absurd ?_ hdev⟩ hk
              rw [Bool.or_eq_true, decide_eq_true_eq]
              exact h
      cases hk' : kindOf a.mode with
      | none =>
        rw [hk'] at hk
        rw [hk'] at other
        exact other (by simp) (by simp) (by simp) hk
      | some kd =>
        rw [hk'] at hk
        cases kd
        case reg =>
          have hk := List.mem_singleton.mp hk
          subst hk
          exact ok _ _ (.reg hk')
        case lnk =>
          dsimp only at hk
          split at hk
          · next hb =>
            have hb := List.contains_iff_mem.mp hb
            have hk := List.mem_singleton.mp hk
            subst hk
            rw [other_blk hb]
            exact ok _ _ (.device hk' hb)
          · next hb =>
            have hk := List.mem_singleton.mp hk
            subst hk
            exact ok _ _ (.link hk' (fun h => hb (List.contains_iff_mem.mpr h)))
        case dir => exact dir hk' hk
        all_goals
          rw [hk'] at other
          exact other (by simp) (by simp) (by simp) hk

theorem walkAll_sound (fuel : Nat) : ∀ k ∈ walkAll c w fuel starts, CallOk c w starts k := by
  have key : ∀ l, (∀ s ∈ l, s ∈ starts) → ∀ k ∈ walkAll c w fuel l, CallOk c w starts k := by
    intro l
    induction l with
    | nil => intro _ k hk; cases hk
    | cons s ss ih =>
      intro hs k hk
      have ih' := ih (fun x hx => hs x (List.mem_cons_of_mem _ hx))
      unfold walkAll at hk
      split at hk
      · next hf =>
        rcases List.mem_append.mp hk with hk | hk
        · exact walk_sound fuel _ _ _ (.start (hs s (List.mem_cons_self ..)) hf) k hk
        · exact ih' k hk
      · exact ih' k hk
  exact key starts (fun _ h => h)

/-! ### Everything that is reached is walked through -/

theorem walkIncluded_complete {link : Str} {l : List Elem} {x : Elem} (hx : x ∈ l) (hf : x.flag ≠ 0)
    (hs : PathCmp.isSubdir link x.path ≠ 0) : ∀ k ∈ find x.path, k ∈ walkIncluded find link l := by
  induction l with
  | nil => cases hx
  | cons y ys ih =>
    intro k hk
    unfold walkIncluded
    rcases List.mem_cons.mp hx with rfl | hx
    · rw [if_pos (by simp [hf, hs])]
      exact List.mem_append_left _ hk
    · split
      · exact List.mem_append_right _ (ih hx k hk)
      · exact ih hx k hk

theorem walkEntries_complete {pre : Str} {l : List Str} {n q : Str} (hn : n ∈ l) (hq : Leads c (pre ++ n) q) :
    ∀ k ∈ find q, k ∈ walkEntries find c pre l := by
  induction l with
  | nil => cases hn
  | cons m ms ih =>
    intro k hk
    unfold walkEntries
    rcases List.mem_cons.mp hn with rfl | hn
    · refine List.mem_append_left _ ?_
      unfold walkEntry
      rcases hq with ⟨hi, rfl⟩ | ⟨hi, x, hx, hf, hs, rfl⟩
      · rw [if_pos hi]; exact hk
      · rw [if_neg (by simp [hi])]
        exact walkIncluded_complete hx hf hs k hk
    · exact List.mem_append_right _ (ih hn k hk)

/-- What is done in a directory that is gone into. -/
theorem walkDir_read {f : Str} {par : Int} {top : Bool} {a : Attr} (h : Entered c w f par top a) :
    ∀ k ∈ walkRead find c w f top a, k ∈ walkDir find c w f par top a := by
  intro k hk
  unfold walkDir
  refine List.mem_cons_of_mem _ ?_
  rw [if_neg (by rw [nobackup_false.mpr h.1]; simp)]
  unfold walkEnter
  split
  · next hd =>
    rw [Bool.or_eq_true, decide_eq_true_eq] at hd
    obtain ⟨h1, h2⟩ := h.2 hd
    rw [fsSkip_false.mpr ⟨rfl, h1⟩]
    refine List.mem_cons_of_mem _ ?_
    rw [if_neg]
    · exact hk
    · rcases h2 with h2 | h2
      · simp [h2]
      · rw [allowed_iff.mpr h2]; simp
  · exact hk

theorem walkAll_start (fuel : Nat) {s : Elem} (hs : s ∈ starts) (hf : s.flag ≠ 0) :
    ∀ k ∈ walk c w fuel s.path (-1) true, k ∈ walkAll c w fuel starts := by
  induction starts with
  | nil => cases hs
  | cons x xs ih =>
    intro k hk
    unfold walkAll
    rcases List.mem_cons.mp hs with rfl | hs
    · rw [if_pos hf]; exact List.mem_append_left _ hk
    · split
      · exact List.mem_append_right _ (ih hs k hk)
      · exact ih hs k hk

theorem walkAll_complete {fuel : Nat} (hstop : Call.stop .deep ∉ walkAll c w fuel starts) {p : Str} {par : Int}
    {top : Bool} (h : Reached c w starts p par top) :
    ∃ m, ∀ k ∈ walk c w (m + 1) p par top, k ∈ walkAll c w fuel starts := by
  have pos : ∀ {p par top}, (∃ m, ∀ k ∈ walk c w m p par top, k ∈ walkAll c w fuel starts) →
      ∃ m, ∀ k ∈ walk c w (m + 1) p par top, k ∈ walkAll c w fuel starts := by
    rintro p par top ⟨m, hm⟩
    cases m with
    | zero => exact absurd (hm (.stop .deep) (List.mem_singleton.mpr rfl)) hstop
    | succ m => exact ⟨m, hm⟩
  induction h with
  | start hs hf => exact pos ⟨fuel, walkAll_start fuel hs hf⟩
  | child _ hl hd hent he hn hq ih =>
    rename_i a l n q _
    obtain ⟨m, hm⟩ := ih
    refine pos ⟨m, fun k hk => hm k ?_⟩
    unfold walk
    rw [hl]
    dsimp only
    rw [hd]
    refine walkDir_read hent k ?_
    unfold walkRead
    rw [he]
    exact walkEntries_complete (find := fun f => walk c w m f _ false) ((mem_sorted _ _).mpr hn) hq k hk

/-- The first thing that is done with a file. -/
theorem walk_first {m : Nat} {p : Str} {par : Int} {top : Bool} {a : Attr} (hl : w.lstat p = some a) :
    ∃ a' ty, TypeFor c w p a a' ty ∧ ty ≠ .noFsChange ∧ ty ≠ .noOpen ∧
      Call.send (some a') p ty top ∈ walk c w (m + 1) p par top := by
  have link : linkType w p ≠ .noFsChange ∧ linkType w p ≠ .noOpen := by
    unfold linkType
    cases w.readlink p <;> simp
  have oth : ∀ k, otherType c p k ≠ .noFsChange ∧ otherType c p k ≠ .noOpen := by
    intro k
    unfold otherType
    split
    · simp
    · split <;> simp
  unfold walk
  rw [hl]
  dsimp only
  cases hk : kindOf a.mode with
  | none => exact ⟨_, _, .other (by simp [hk]) (by simp [hk]) (by simp [hk]), (oth _).1, (oth _).2, by simp [hk]⟩
  | some kd =>
    cases kd
    case reg => exact ⟨_, _, .reg hk, by simp, by simp, List.mem_singleton.mpr rfl⟩
    case lnk =>
      dsimp only
      split
      · next hb =>
        have hb := List.contains_iff_mem.mp hb
        exact ⟨_, _, .device hk hb, by simp, by simp, by rw [other_blk hb]; exact List.mem_singleton.mpr rfl⟩
      · next hb =>
        exact ⟨_, _, .link hk (fun h => hb (List.contains_iff_mem.mpr h)), link.1, link.2,
          List.mem_singleton.mpr rfl⟩
    case dir => exact ⟨_, _, .dir hk, by simp, by simp, List.mem_cons_self ..⟩
    all_goals
      exact ⟨_, _, .other (by simp [hk]) (by simp [hk]) (by simp [hk]), (oth _).1, (oth _).2, by simp [hk]⟩

end sound
end Verif.Phase1
