import Verif.Lemmas.Phase1Calls

/-!
# What is told, and what is remembered of it
-/

namespace Verif.Phase1
open Verif.Strlist Verif.Attribs Verif.Find

/-- The first name of a file that can have several. -/
def firstShare (out : List Ev) (d i : Nat) : Option Str :=
  (out.find? (fun e => match e with
    | .entry cmd a _ _ =>
      decide (cmd ≠ .hardLink) && decide (cmd ≠ .metadata) && decide (cmd ≠ .encMetadata) &&
        (decide ((statOf a).nlink > 1) && linkableKind (statOf a).kind) &&
        (decide ((statOf a).dev = d) && decide ((statOf a).ino = i))
    | .warn _ _ => false)).map Ev.path

/-- The table holds the first names. -/
def HashFor (out : List Ev) (h : LinkHash) : Prop :=
  ∀ d i, (linkSearch h d i).map (fun l => l.name) = firstShare out d i

theorem linkSearch_linkAdd' (h : LinkHash) (fname : Str) (dev ino d i : Nat) :
    linkSearch (linkAdd h fname dev ino) d i =
      if d = dev ∧ i = ino then some ⟨fname, ino, dev⟩ else linkSearch h d i := by
  unfold linkSearch linkAdd
  by_cases hb : getHash d i = getHash dev ino
  · simp only [hb, if_true]
    rw [List.find?_cons]
    by_cases hc : d = dev ∧ i = ino
    · obtain ⟨rfl, rfl⟩ := hc
      simp
    · rw [if_neg hc]
      have : (decide (ino = i) && decide (dev = d)) = false := by
        rw [Bool.and_eq_false_iff, decide_eq_false_iff_not, decide_eq_false_iff_not]
        by_cases h1 : ino = i
        · exact Or.inr (fun h2 => hc ⟨h2.symm, h1.symm⟩)
        · exact Or.inl h1
      rw [this]
  · simp only [hb, if_false]
    rw [if_neg]
    rintro ⟨rfl, rfl⟩
    exact hb rfl

theorem firstShare_append (o o' : List Ev) (d i : Nat) :
    firstShare (o ++ o') d i = (firstShare o d i).or (firstShare o' d i) := by
  unfold firstShare
  rw [List.find?_append]
  generalize List.find? _ o = x
  cases x <;> rfl

theorem statOf_sent (c : Cfg) (a : Attr) (n : Nat) : statOf (sentAttr c a n) = statOf a := rfl

/-- No file that can have several names is first told of. -/
theorem firstShare_none {o : List Ev} (d i : Nat)
    (h : ∀ e ∈ o, ∀ cmd a p l, e = .entry cmd a p l → cmd = .hardLink ∨ cmd = .metadata ∨ cmd = .encMetadata ∨
      ¬ ((statOf a).nlink > 1 ∧ linkableKind (statOf a).kind = true)) : firstShare o d i = none := by
  unfold firstShare
  rw [Option.map_eq_none_iff, List.find?_eq_none]
  intro e he
  cases e with
  | warn _ _ => simp
  | entry cmd a p l =>
    rcases h _ he _ _ _ _ rfl with rfl | rfl | rfl | hn
    · simp
    · simp
    · simp
    · simp only [Bool.and_eq_true, decide_eq_true_eq]
      rintro ⟨⟨_, h⟩, _⟩
      exact hn h

theorem metaSymbol_ne (c : Cfg) : metaSymbol c = .metadata ∨ metaSymbol c = .encMetadata := by
  unfold metaSymbol
  cases c.encrypted <;> simp

/-- The entries of a file. -/
theorem mem_doToServer {c : Cfg} {w : World} {a : Attr} {f : Str} {cmd : Cmd} {l : Option Str} {n : Nat} {e : Ev}
    (h : e ∈ doToServer c w a f cmd l n) :
    e = .entry cmd (sentAttr c a n) f l ∨ e = .entry (metaSymbol c) (sentAttr c a n) f none := by
  unfold doToServer at h
  rcases List.mem_cons.mp h with h | h
  · exact Or.inl h
  · split at h
    · exact Or.inr (List.mem_singleton.mp h)
    · cases h

/-- Is an entry told of for it? -/
def FType.told (c : Cfg) : FType → Option (Cmd × Option Str)
  | .reg | .raw | .fifo => some (fileSymbol c, none)
  | .dir => some (.directory, none)
  | .softLink t => some (.softLink, some t)
  | .hardLink t => some (.hardLink, some t)
  | .spec => some (.special, none)
  | _ => none

def FType.comp (c : Cfg) (f : Str) : FType → Nat
  | .reg | .raw | .fifo => inExcludeComp c.excom f c.compression
  | _ => c.compression

def FType.problem : FType → Problem
  | .noFsChange => .noFsChange
  | .noFollow => .noFollow
  | .noOpen => .noOpen
  | _ => .noStat

theorem mySendFile_eq (c : Cfg) (w : World) (a : Attr) (f : Str) (ty : FType) :
    mySendFile c w a f ty = match ty.told c with
      | some (cmd, l) => (true, doToServer c w a f cmd l (ty.comp c f))
      | none => (!c.raises, [.warn ty.problem f]) := by
  cases ty <;> rfl

theorem fileSymbol_ne (c : Cfg) : fileSymbol c ≠ .hardLink ∧ fileSymbol c ≠ .metadata ∧ fileSymbol c ≠ .encMetadata ∧
    fileSymbol c ≠ .directory := by
  unfold fileSymbol
  cases c.encrypted <;> simp

theorem told_main {c : Cfg} {ty : FType} {cmd : Cmd} {l : Option Str} (h : ty.told c = some (cmd, l)) :
    cmd ≠ .metadata ∧ cmd ≠ .encMetadata := by
  have := fileSymbol_ne c
  cases ty <;> cases h <;> simp_all

/-- Files that can have several names are told of by an entry. -/
theorem typeFor_linkable {c : Cfg} {w : World} {f : Str} {a a' : Attr} {ty : FType} (h : TypeFor c w f a a' ty)
    (hk : linkableKind (statOf a').kind = true) :
    ∃ cmd, ty.told c = some (cmd, none) ∧ cmd ≠ .hardLink := by
  have fs := fileSymbol_ne c
  cases h with
  | reg => exact ⟨_, rfl, fs.1⟩
  | device => exact ⟨_, rfl, fs.1⟩
  | link h1 =>
    unfold statOf at hk
    rw [h1] at hk
    cases hk
  | dir h1 =>
    unfold statOf at hk
    rw [h1] at hk
    cases hk
  | noFsChange h1 =>
    unfold statOf at hk
    rw [h1] at hk
    cases hk
  | noOpen h1 =>
    unfold statOf at hk
    rw [h1] at hk
    cases hk
  | other =>
    unfold otherType
    split
    · exact ⟨_, rfl, fs.1⟩
    · split
      · exact ⟨_, rfl, fs.1⟩
      · exact ⟨_, rfl, by simp⟩

/-! ### `sendFile` -/

theorem sendFile_cases (c : Conf) (logic : Str → Stat → Bool) (h : LinkHash) (f : Str) (st : Stat) (top : Bool) :
    (sendFile c logic h f st top = (h, .not) ∧
      (isIncluded c f top = false ∨ logic f st = true ∨ (st.kind = .reg ∧ sizeMatch c st.size = false) ∨
        ∃ lp, linkSearch h st.dev st.ino = some lp ∧ lp.name = f ∧ st.nlink > 1 ∧ linkableKind st.kind = true)) ∨
    (isIncluded c f top = true ∧ logic f st = false ∧ (st.kind = .reg → sizeMatch c st.size = true) ∧
      ((st.nlink > 1 ∧ linkableKind st.kind = true ∧
        ((∃ lp, linkSearch h st.dev st.ino = some lp ∧ lp.name ≠ f ∧
            sendFile c logic h f st top = (h, .hardlink lp.name)) ∨
         (linkSearch h st.dev st.ino = none ∧
            sendFile c logic h f st top = (linkAdd h f st.dev st.ino, .plain)))) ∨
       (¬ (st.nlink > 1 ∧ linkableKind st.kind = true) ∧ sendFile c logic h f st top = (h, .plain)))) := by
  unfold sendFile
  split
  · next h1 =>
    left
    refine ⟨rfl, ?_⟩
    rw [Bool.or_eq_true] at h1
    rcases h1 with h1 | h1
    · left; simpa using h1
    · exact Or.inr (Or.inl h1)
  · next h1 =>
    rw [Bool.or_eq_true] at h1
    have hi : isIncluded c f top = true := by
      cases hx : isIncluded c f top
      · exact absurd (Or.inl (by simp [hx])) h1
      · rfl
    have hl : logic f st = false := by
      cases hx : logic f st
      · rfl
      · exact absurd (Or.inr hx) h1
    split
    · next h2 =>
      left
      rw [Bool.and_eq_true, decide_eq_true_eq] at h2
      refine ⟨rfl, Or.inr (Or.inr (Or.inl ⟨h2.1, by simpa using h2.2⟩))⟩
    · next h2 =>
      have hs : st.kind = .reg → sizeMatch c st.size = true := by
        intro hk
        rw [Bool.and_eq_true, decide_eq_true_eq] at h2
        cases hx : sizeMatch c st.size
        · exact absurd ⟨hk, by simp [hx]⟩ h2
        · rfl
      split
      · next h3 =>
        rw [Bool.and_eq_true, decide_eq_true_eq] at h3
        cases hx : linkSearch h st.dev st.ino with
        | none =>
          exact Or.inr ⟨hi, hl, hs, Or.inl ⟨h3.1, h3.2, Or.inr ⟨rfl, rfl⟩⟩⟩
        | some lp =>
          dsimp only
          split
          · next hn => exact Or.inl ⟨rfl, Or.inr (Or.inr (Or.inr ⟨lp, rfl, hn, h3.1, h3.2⟩))⟩
          · next hn => exact Or.inr ⟨hi, hl, hs, Or.inl ⟨h3.1, h3.2, Or.inl ⟨lp, rfl, hn, rfl⟩⟩⟩
      · next h3 =>
        rw [Bool.and_eq_true, decide_eq_true_eq] at h3
        exact Or.inr ⟨hi, hl, hs, Or.inr ⟨h3, rfl⟩⟩

/-- Where a call of `my_send_file_w` may end. -/
inductive Sends (c : Cfg) (w : World) (f : Str) (top : Bool) (out : List Ev) (st : St) (ty : FType) (r : Res) : Prop where
  | none : r = ⟨.ok, st, []⟩ →
      (isIncluded c.find f top = false ∨ c.logic f st.statp = true ∨
        ((statOf st.statp).kind = .reg ∧ sizeMatch c.find (statOf st.statp).size = false) ∨
        (firstShare out (statOf st.statp).dev (statOf st.statp).ino = some f)) → Sends c w f top out st ty r
  | link {t : Str} : firstShare out (statOf st.statp).dev (statOf st.statp).ino = some t → t ≠ f →
      isIncluded c.find f top = true → c.logic f st.statp = false →
      ((statOf st.statp).kind = .reg → sizeMatch c.find (statOf st.statp).size = true) →
      (statOf st.statp).nlink > 1 → linkableKind (statOf st.statp).kind = true →
      r = ⟨.ok, st, doToServer c w st.statp f .hardLink (some t) c.compression⟩ → Sends c w f top out st ty r
  | told {cmd : Cmd} {l : Option Str} {h : LinkHash} : ty.told c = some (cmd, l) →
      isIncluded c.find f top = true → c.logic f st.statp = false →
      ((statOf st.statp).kind = .reg → sizeMatch c.find (statOf st.statp).size = true) →
      ((statOf st.statp).nlink > 1 ∧ linkableKind (statOf st.statp).kind = true →
        firstShare out (statOf st.statp).dev (statOf st.statp).ino = Option.none) →
      r = ⟨.ok, { st with hash := h }, doToServer c w st.statp f cmd l (ty.comp c f)⟩ → Sends c w f top out st ty r
  | warned {h : LinkHash} : ty.told c = Option.none →
      isIncluded c.find f top = true → c.logic f st.statp = false →
      r = ⟨if c.raises then .fail else .ok, { st with hash := h }, [.warn ty.problem f]⟩ → Sends c w f top out st ty r

/-- `my_send_file_w` -/
theorem sendW_cases {c : Cfg} {w : World} {f : Str} {top : Bool} {out : List Ev} {st : St} {ty : FType}
    (hh : HashFor out st.hash)
    (hty : linkableKind (statOf st.statp).kind = true → ∃ cmd, ty.told c = some (cmd, none) ∧ cmd ≠ .hardLink) :
    Sends c w f top out st ty (sendW c w st f ty top) ∧
      HashFor (out ++ (sendW c w st f ty top).out) (sendW c w st f ty top).st.hash := by
  have search := hh (statOf st.statp).dev (statOf st.statp).ino
  have plain : ∀ h, mySendFile c w st.statp f ty = (match ty.told c with
      | some (cmd, l) => (true, doToServer c w st.statp f cmd l (ty.comp c f))
      | none => (!c.raises, [.warn ty.problem f])) →
      (∃ cmd l, ty.told c = some (cmd, l) ∧ sent { st with hash := h } (mySendFile c w st.statp f ty) =
        ⟨.ok, { st with hash := h }, doToServer c w st.statp f cmd l (ty.comp c f)⟩) ∨
      (ty.told c = none ∧ sent { st with hash := h } (mySendFile c w st.statp f ty) =
        ⟨if c.raises then .fail else .ok, { st with hash := h }, [.warn ty.problem f]⟩) := by
    intro h e
    rw [e]
    cases hx : ty.told c with
    | none =>
      refine Or.inr ⟨rfl, ?_⟩
      cases c.raises <;> rfl
    | some x => exact Or.inl ⟨x.1, x.2, rfl, rfl⟩
  have same : ∀ {o : List Ev}, (∀ d i, firstShare o d i = none) → HashFor (out ++ o) st.hash := by
    intro o ho d i
    rw [firstShare_append, ho, Option.or_none]
    exact hh d i
  unfold sendW
  rcases sendFile_cases c.find (fun g _ => c.logic g st.statp) st.hash f (statOf st.statp) top with
    ⟨e, hwhy⟩ | ⟨hi, hlog, hsz, ⟨hn, hk, ⟨lp, hlp, hne, e⟩ | ⟨hnone, e⟩⟩ | ⟨hnl, e⟩⟩
  · rw [e]
    refine ⟨.none rfl ?_, same (fun _ _ => rfl)⟩
    rcases hwhy with h | h | h | ⟨lp, h1, h2, _⟩
    · exact Or.inl h
    · exact Or.inr (Or.inl h)
    · exact Or.inr (Or.inr (Or.inl h))
    · refine Or.inr (Or.inr (Or.inr ?_))
      rw [← search, h1, ← h2]
      rfl
  · rw [e]
    have hfs : firstShare out (statOf st.statp).dev (statOf st.statp).ino = some lp.name := by
      rw [← search, hlp]
      rfl
    refine ⟨.link hfs hne hi hlog hsz hn hk rfl, same (fun d i => firstShare_none d i ?_)⟩
    intro x hx cmd a p l hxe
    rcases mem_doToServer (show x ∈ doToServer c w st.statp f .hardLink (some lp.name) c.compression from hx)
      with h | h
    · rw [hxe] at h; cases h; exact Or.inl rfl
    · rw [hxe] at h
      cases h
      rcases metaSymbol_ne c with h | h
      · exact Or.inr (Or.inl h)
      · exact Or.inr (Or.inr (Or.inl h))
  · rw [e]
    dsimp only
    obtain ⟨cmd, ht, hnh⟩ := hty hk
    have hfs : firstShare out (statOf st.statp).dev (statOf st.statp).ino = none := by
      rw [← search, hnone]
      rfl
    rcases plain (linkAdd st.hash f (statOf st.statp).dev (statOf st.statp).ino) (mySendFile_eq ..) with
      ⟨cmd', l', ht', hr⟩ | ⟨ht', _⟩
    · rw [ht] at ht'
      cases ht'
      rw [hr]
      refine ⟨.told ht hi hlog hsz (fun _ => hfs) rfl, ?_⟩
      intro d i
      dsimp only
      rw [linkSearch_linkAdd', firstShare_append]
      have hfirst : firstShare (doToServer c w st.statp f cmd none (ty.comp c f)) d i =
          if d = (statOf st.statp).dev ∧ i = (statOf st.statp).ino then some f else none := by
        obtain ⟨m1, m2⟩ := told_main ht
        split
        · next hdi =>
          obtain ⟨rfl, rfl⟩ := hdi
          unfold firstShare doToServer
          rw [List.find?_cons]
          simp only [statOf_sent, hn, hk, hnh, m1, m2, decide_true, Bool.and_true, ne_eq, not_false_eq_true]
          rfl
        · next hdi =>
          unfold firstShare
          rw [Option.map_eq_none_iff, List.find?_eq_none]
          intro x hx
          rcases mem_doToServer hx with rfl | rfl
          · simp only [statOf_sent, Bool.and_eq_true, decide_eq_true_eq]
            rintro ⟨_, h1, h2⟩
            exact hdi ⟨(of_decide_eq_true h1).symm, (of_decide_eq_true h2).symm⟩
          · rcases metaSymbol_ne c with h | h <;> simp [h]
      rw [hfirst]
      split
      · next hdi =>
        obtain ⟨rfl, rfl⟩ := hdi
        rw [hfs]
        rfl
      · rw [Option.or_none]; exact hh d i
    · rw [ht] at ht'; cases ht'
  · rw [e]
    dsimp only
    rcases plain st.hash (mySendFile_eq ..) with ⟨cmd, l, ht, hr⟩ | ⟨ht, hr⟩
    · rw [hr]
      refine ⟨.told ht hi hlog hsz (fun h => absurd h hnl) rfl, same (fun d i => firstShare_none d i ?_)⟩
      intro x hx cmd' a p l' hxe
      rcases mem_doToServer (show x ∈ doToServer c w st.statp f cmd l (ty.comp c f) from hx) with h | h
      · rw [hxe] at h
        cases h
        exact Or.inr (Or.inr (Or.inr hnl))
      · rw [hxe] at h
        cases h
        rcases metaSymbol_ne c with h | h
        · exact Or.inr (Or.inl h)
        · exact Or.inr (Or.inr (Or.inl h))
    · rw [hr]
      refine ⟨.warned ht hi hlog rfl, same (fun d i => firstShare_none d i ?_)⟩
      intro x hx cmd' a p l' hxe
      have hx := List.mem_singleton.mp hx
      rw [hxe] at hx
      cases hx

end Verif.Phase1
