import Verif.Lemmas.Phase1Told

/-!
# All that is told in the first phase
-/

namespace Verif.Phase1
open Verif.Strlist Verif.Attribs Verif.Find

/-- A call that has attributes of its own. -/
def CallGood (c : Cfg) (w : World) (starts : List Elem) (k : Call) : Prop :=
  CallOk c w starts k ∧ ∀ f ty top, k ≠ .send none f ty top

theorem walkAll_good {c : Cfg} {w : World} {starts : List Elem} (hp : Present c w starts) (fuel : Nat) :
    ∀ k ∈ walkAll c w fuel starts, CallGood c w starts k := by
  intro k hk
  have h := walkAll_sound fuel k hk
  refine ⟨h, fun f ty top e => ?_⟩
  subst e
  obtain ⟨⟨par, hr⟩, hn, _⟩ := h
  exact hp _ _ _ hr hn

theorem say_none {c : Cfg} {w : World} {starts : List Elem} {o : List Ev} (h : CallOk c w starts (.say o)) (d i : Nat) :
    firstShare o d i = none := by
  refine firstShare_none d i (fun e he cmd a p l hx => ?_)
  obtain ⟨pr, q, he', _⟩ := h e he
  rw [hx] at he'
  cases he'

/-- What one call does. -/
theorem call_cases {c : Cfg} {w : World} {starts : List Elem} {k : Call} {out : List Ev} {st : St}
    (hk : CallGood c w starts k) (hh : HashFor out st.hash) :
    HashFor (out ++ (k.exec c w st).out) (k.exec c w st).st.hash ∧
    ((∃ a a' f ty top par, k = .send (some a') f ty top ∧ Reached c w starts f par top ∧ w.lstat f = some a ∧
        TypeFor c w f a a' ty ∧ Sends c w f top out { st with statp := a' } ty (k.exec c w st)) ∨
      (∃ o, k = .say o ∧ k.exec c w st = ⟨.ok, st, o⟩ ∧ ∀ e ∈ o, ∃ pr p, e = .warn pr p ∧
        (pr = .statfs ∨ pr = .skipped) ∧ ∃ par top, Reached c w starts p par top) ∨
      ∃ r, k = .stop r ∧ k.exec c w st = ⟨r, st, []⟩) := by
  obtain ⟨ho, hg⟩ := hk
  cases k with
  | send own f ty top =>
    cases own with
    | none => exact absurd rfl (hg f ty top)
    | some a' =>
      obtain ⟨par, a, hr, hl, ht⟩ := ho
      obtain ⟨h1, h2⟩ := sendW_cases (c := c) (w := w) (f := f) (top := top) (out := out)
        (st := { st with statp := a' }) (ty := ty) hh (fun h => typeFor_linkable ht h)
      exact ⟨h2, Or.inl ⟨a, a', f, ty, top, par, rfl, hr, hl, ht, h1⟩⟩
  | say o =>
    refine ⟨?_, Or.inr (Or.inl ⟨o, rfl, rfl, ho⟩)⟩
    intro d i
    show (linkSearch st.hash d i).map _ = firstShare (out ++ o) d i
    rw [firstShare_append, say_none ho, Option.or_none]
    exact hh d i
  | stop r =>
    refine ⟨?_, Or.inr (Or.inr ⟨r, rfl, rfl⟩)⟩
    show HashFor (out ++ []) st.hash
    rw [List.append_nil]
    exact hh

theorem exec_inv {c : Cfg} {w : World} {starts : List Elem} (P : List Ev → Prop) (l : List Call)
    (step : ∀ out st k, CallGood c w starts k → HashFor out st.hash → P out → P (out ++ (k.exec c w st).out))
    (hl : ∀ k ∈ l, CallGood c w starts k) : ∀ out st, HashFor out st.hash → P out →
    P (out ++ (exec c w l st).out) ∧ HashFor (out ++ (exec c w l st).out) (exec c w l st).st.hash := by
  induction l with
  | nil =>
    intro out st hh hP
    show P (out ++ []) ∧ HashFor (out ++ []) st.hash
    rw [List.append_nil]
    exact ⟨hP, hh⟩
  | cons k ks ih =>
    intro out st hh hP
    have hk := hl k (List.mem_cons_self ..)
    have h1 := step out st k hk hh hP
    have h2 := (call_cases hk hh).1
    rw [exec]
    generalize k.exec c w st = r at h1 h2
    obtain ⟨ret, st', o⟩ := r
    cases ret
    · rw [andThen_ok]
      dsimp only at h1 h2 ⊢
      rw [← List.append_assoc]
      exact ih (fun k hk => hl k (List.mem_cons_of_mem _ hk)) _ _ h2 h1
    · exact ⟨h1, h2⟩
    · exact ⟨h1, h2⟩

theorem hash_init : HashFor [] St.init.hash := fun _ _ => rfl

/-! ### Metadata -/

theorem told_append {c : Cfg} {w : World} {l l' : List Ev} (h : Told c w l) (h' : Told c w l') : Told c w (l ++ l') := by
  induction h with
  | nil => exact h'
  | warn _ ih => exact .warn ih
  | plain h1 h2 _ ih => exact .plain h1 h2 ih
  | withMeta h1 h2 _ ih => exact .withMeta h1 h2 ih

theorem told_doToServer {c : Cfg} {w : World} {a : Attr} {f : Str} {cmd : Cmd} {l : Option Str} {n : Nat}
    (h : cmd ≠ .metadata ∧ cmd ≠ .encMetadata) : Told c w (doToServer c w a f cmd l n) := by
  unfold doToServer
  split
  · next hx => exact .withMeta h hx .nil
  · next hx => exact .plain h (by simpa using hx) .nil

theorem sendW_told {c : Cfg} {w : World} {st : St} {f : Str} {ty : FType} {top : Bool} :
    Told c w (sendW c w st f ty top).out := by
  have key : ∀ st ty, Told c w (sent st (mySendFile c w st.statp f ty)).out := by
    intro st ty
    rw [mySendFile_eq]
    cases hx : ty.told c with
    | none => exact .warn .nil
    | some x => exact told_doToServer (told_main (cmd := x.1) (l := x.2) hx)
  unfold sendW
  split
  · exact .nil
  · next h _ => exact key { st with hash := h } ty
  · next h t _ => exact key { st with hash := h } (.hardLink t)

theorem exec_told {c : Cfg} {w : World} {starts : List Elem} (l : List Call)
    (hl : ∀ k ∈ l, CallOk c w starts k) : ∀ st, Told c w (exec c w l st).out := by
  induction l with
  | nil => intro st; exact .nil
  | cons k ks ih =>
    intro st
    have h1 : Told c w (k.exec c w st).out := by
      cases k with
      | send own f ty top => exact sendW_told
      | say o =>
        have hk := hl _ (List.mem_cons_self ..)
        have : ∀ o : List Ev, (∀ e ∈ o, ∃ pr p, e = .warn pr p) → Told c w o := by
          intro o
          induction o with
          | nil => intro _; exact .nil
          | cons e es ihe =>
            intro he
            obtain ⟨pr, p, rfl⟩ := he e (List.mem_cons_self ..)
            exact .warn (ihe (fun x hx => he x (List.mem_cons_of_mem _ hx)))
        refine this o (fun e he => ?_)
        obtain ⟨pr, p, h, _⟩ := hk e he
        exact ⟨pr, p, h⟩
      | stop r => exact .nil
    rw [exec]
    generalize k.exec c w st = r at h1
    obtain ⟨ret, st', o⟩ := r
    cases ret
    · exact told_append h1 (ih (fun k hk => hl k (List.mem_cons_of_mem _ hk)) st')
    · exact h1
    · exact h1

/-! ### What is told is about what is reached -/

theorem sendW_path {c : Cfg} {w : World} {st : St} {f : Str} {ty : FType} {top : Bool} :
    ∀ e ∈ (sendW c w st f ty top).out, e.path = f := by
  have key : ∀ st ty, ∀ e ∈ (sent st (mySendFile c w st.statp f ty)).out, e.path = f := by
    intro st ty e he
    rw [mySendFile_eq] at he
    cases hx : ty.told c with
    | none =>
      rw [hx] at he
      rw [List.mem_singleton.mp he]
      rfl
    | some x =>
      rw [hx] at he
      rcases mem_doToServer he with rfl | rfl <;> rfl
  unfold sendW
  split
  · intro e he; cases he
  · next h _ => exact key { st with hash := h } ty
  · next h t _ => exact key { st with hash := h } (.hardLink t)

theorem exec_mem {c : Cfg} {w : World} (l : List Call) : ∀ st, ∀ e ∈ (exec c w l st).out,
    ∃ k ∈ l, ∃ st', e ∈ (k.exec c w st').out := by
  induction l with
  | nil => intro st e he; cases he
  | cons k ks ih =>
    intro st e he
    rw [exec] at he
    have key : ∀ r : Res, e ∈ (r.andThen (exec c w ks)).out → e ∈ r.out ∨ ∃ st', e ∈ (exec c w ks st').out := by
      rintro ⟨ret, st', o⟩ h
      cases ret
      · rcases List.mem_append.mp h with h | h
        · exact Or.inl h
        · exact Or.inr ⟨_, h⟩
      · exact Or.inl h
      · exact Or.inl h
    rcases key _ he with h | ⟨st', h⟩
    · exact ⟨k, List.mem_cons_self .., st, h⟩
    · obtain ⟨k', hk', st'', h'⟩ := ih st' e h
      exact ⟨k', List.mem_cons_of_mem _ hk', st'', h'⟩

theorem call_path {c : Cfg} {w : World} {starts : List Elem} {k : Call} (hk : CallOk c w starts k) {st : St} {e : Ev}
    (he : e ∈ (k.exec c w st).out) : ∃ par top, Reached c w starts e.path par top := by
  cases k with
  | send own f ty top =>
    rw [sendW_path e he]
    cases own with
    | none =>
      obtain ⟨⟨par, h⟩, _⟩ := hk
      exact ⟨par, top, h⟩
    | some a =>
      obtain ⟨par, _, h, _⟩ := hk
      exact ⟨par, top, h⟩
  | say o =>
    obtain ⟨pr, p, rfl, _, h⟩ := hk e he
    exact h
  | stop r => cases he

/-! ### Problems raise errors -/

theorem call_serious {c : Cfg} {w : World} {starts : List Elem} (hr : c.raises = true) {k : Call} (hk : CallOk c w starts k)
    {st : St} {e : Ev} (he : e ∈ (k.exec c w st).out) (hs : Serious e) : (k.exec c w st).ret = .fail := by
  have key : ∀ f ty st, e ∈ (sent st (mySendFile c w st.statp f ty)).out →
      (sent st (mySendFile c w st.statp f ty)).ret = .fail := by
    intro f ty st he
    rw [mySendFile_eq] at he ⊢
    cases hx : ty.told c with
    | none => simp [sent, hr]
    | some x =>
      rw [hx] at he
      rcases mem_doToServer he with rfl | rfl <;> cases hs
  cases k with
  | send own f ty top =>
    simp only [Call.exec, sendW] at he ⊢
    generalize hx : sendFile _ _ _ _ _ _ = x at *
    obtain ⟨h, s⟩ := x
    cases s with
    | not => cases he
    | plain => exact key f ty { statp := own.getD st.statp, hash := h } he
    | hardlink t => exact key f (.hardLink t) { statp := own.getD st.statp, hash := h } he
  | say o =>
    obtain ⟨pr, p, rfl, h | h, _⟩ := hk e he
    · subst h; rcases hs with h | h | h | h <;> cases h
    · subst h; rcases hs with h | h | h | h <;> cases h
  | stop r => cases he

theorem exec_serious {c : Cfg} {w : World} {starts : List Elem} (hr : c.raises = true) (l : List Call)
    (hl : ∀ k ∈ l, CallOk c w starts k) : ∀ st, ∀ e ∈ (exec c w l st).out, Serious e → (exec c w l st).ret = .fail := by
  induction l with
  | nil => intro st e he; cases he
  | cons k ks ih =>
    intro st e he hs
    have hk := fun h => call_serious (e := e) (st := st) hr (hl k (List.mem_cons_self ..)) h hs
    rw [exec] at he ⊢
    generalize k.exec c w st = r at *
    obtain ⟨ret, st', o⟩ := r
    cases ret
    · rw [andThen_ok] at he ⊢
      rcases List.mem_append.mp he with h | h
      · cases hk h
      · exact ih (fun k hk => hl k (List.mem_cons_of_mem _ hk)) st' e h hs
    · rfl
    · cases hk he

/-! ### A run without error -/

/-- A run without error goes through all calls. -/
theorem exec_split {c : Cfg} {w : World} {l l' : List Call} {k : Call} {st : St}
    (h : (exec c w (l ++ k :: l') st).ret = .ok) :
    (exec c w l st).ret = .ok ∧ (k.exec c w (exec c w l st).st).ret = .ok ∧
      ∃ post, (exec c w (l ++ k :: l') st).out =
        (exec c w l st).out ++ ((k.exec c w (exec c w l st).st).out ++ post) := by
  rw [exec_append] at h ⊢
  generalize exec c w l st = r at *
  obtain ⟨ret, st', o⟩ := r
  cases ret
  · rw [andThen_ok] at h ⊢
    dsimp only at h ⊢
    rw [exec] at h ⊢
    generalize k.exec c w st' = r' at *
    obtain ⟨ret', st'', o'⟩ := r'
    cases ret'
    · exact ⟨rfl, rfl, _, rfl⟩
    · cases h
    · cases h
  · cases h
  · cases h

theorem exec_noStop {c : Cfg} {w : World} {l : List Call} {st : St} (h : (exec c w l st).ret = .ok) :
    ∀ r, r ≠ .ok → Call.stop r ∉ l := by
  intro r hr hm
  obtain ⟨l1, l2, rfl⟩ := List.append_of_mem hm
  exact hr (exec_split h).2.1

end Verif.Phase1
