import Verif.Spec.Confs

/-!
# Lemmas about settings
-/

namespace Verif.Confs
open Verif.Strlist Verif.ConfLine Verif.BackupNumber

theorem mem_all (o : Opt) : o ∈ Opt.all := by
  cases o <;> decide +kernel

theorem find_field (o : Opt) (h : o.info.field ≠ []) :
    Opt.all.find? (fun p => p.info.field = o.info.field) = some o := by
  have key : Opt.all.all (fun o => decide (o.info.field = []) ||
      decide (Opt.all.find? (fun p => p.info.field = o.info.field) = some o)) = true := by decide +kernel
  have := List.all_eq_true.mp key o (mem_all o)
  simpa [h] using this

theorem field_inj {o p : Opt} (h : o.info.field ≠ []) (e : o.info.field = p.info.field) : o = p := by
  have h1 := find_field o h
  have h2 := find_field p (e ▸ h)
  rw [e] at h1
  exact Option.some.inj (h1.symm.trans h2)

theorem fieldOf_ne {f g : Str} {r : Bool} (h : fieldOf f = some (g, r)) : g ≠ [] := by
  unfold fieldOf at h
  split at h
  · cases h
  · rename_i hn
    injection h with h
    injection h with h _
    intro e
    subst e
    apply hn
    have : f.reverse.dropWhile isSpaceColon = [] := by simpa using h
    rw [List.all_eq_true]
    intro x hx
    by_cases hx2 : isSpaceColon x = true
    · exact hx2
    · exfalso
      have hx3 : x ∈ f.reverse := by simpa using hx
      obtain ⟨a, b, hab⟩ := List.append_of_mem hx3
      rw [hab] at this
      clear hab hx3
      induction a with
      | nil => simp [List.dropWhile, hx2] at this
      | cons y a ih =>
        rw [List.cons_append, List.dropWhile_cons] at this
        split at this
        · exact ih this
        · cases this

theorem getPair_ne {l f v : Str} {r : Bool} (h : getPair l = .pair f v r) : f ≠ [] := by
  unfold getPair at h
  split at h
  · cases h
  · split at h
    · cases h
    · split at h
      · cases h
      · split at h
        · cases h
        · rename_i e
          split at h
          · split at h
            · cases h
            · injection h with h1 h2 h3
              subst h1
              exact fieldOf_ne e
          · cases h

theorem Says.ne {ls : List Str} {ss : List Setting} (h : Says ls ss) : ∀ s ∈ ss, s.field ≠ [] := by
  induction h with
  | nil => intro s hs; cases hs
  | blank _ _ ih => exact ih
  | pair e _ ih =>
    intro s hs
    cases hs with
    | head => exact getPair_ne e
    | tail _ hs => exact ih s hs

theorem Says.append {a b : List Str} {s t : List Setting} (h : Says a s) (k : Says b t) : Says (a ++ b) (s ++ t) := by
  induction h with
  | nil => exact k
  | blank e _ ih => exact .blank e ih
  | pair e _ ih => exact .pair e ih

/-- What is said, one after the other. -/
def applyAll (env : Env) (c : Confs) : List Setting → Option Confs
  | [] => some c
  | s :: ss => (loadField env c s.field s.value s.reset).bind (fun c => applyAll env c ss)

theorem applyAll_append (env : Env) (c : Confs) (s t : List Setting) :
    applyAll env c (s ++ t) = (applyAll env c s).bind (fun c => applyAll env c t) := by
  induction s generalizing c with
  | nil => rfl
  | cons x s ih =>
    simp only [List.cons_append, applyAll]
    cases loadField env c x.field x.value x.reset with
    | none => rfl
    | some c => exact ih c

theorem Out.bind_ok {r : Out} {f : Confs → Out} {c : Confs} (h : r.bind f = .ok c) : ∃ d, r = .ok d ∧ f d = .ok c := by
  cases r with
  | undefined => cases h
  | error => cases h
  | ok d => exact ⟨d, rfl, h⟩

theorem parsePairs_ok {env : Env} {c c' : Confs} {ls : List Str} (h : parsePairs env c ls = .ok c') :
    ∃ ss, Says ls ss ∧ applyAll env c ss = some c' := by
  induction ls generalizing c with
  | nil => cases h; exact ⟨[], .nil, rfl⟩
  | cons l ls ih =>
    obtain ⟨d, h1, h2⟩ := Out.bind_ok h
    obtain ⟨ss, hs, ha⟩ := ih h2
    unfold parsePair at h1
    split at h1
    · cases h1
    · cases h1
    · rename_i e
      cases h1
      exact ⟨ss, .blank e hs, ha⟩
    · rename_i f v r e
      split at h1
      · cases h1
      · rename_i d' e'
        cases h1
        exact ⟨⟨f, v, r⟩ :: ss, .pair e hs, by simp only [applyAll, e']; exact ha⟩

theorem loadLines_ok {env : Env} {c c' : Confs} {ls : List Str} (h : loadLines env c ls = .ok c') :
    ∃ ss, Said env ls ss ∧ applyAll env c ss = some c' := by
  induction ls generalizing c with
  | nil => cases h; exact ⟨[], ⟨[], rfl, .nil⟩, rfl⟩
  | cons l ls ih =>
    obtain ⟨d, h1, h2⟩ := Out.bind_ok h
    obtain ⟨ss, ⟨xs, hx, hs⟩, ha⟩ := ih h2
    unfold parseLine at h1
    split at h1
    · rename_i hp
      split at h1
      · cases h1
      · rename_i ys e
        obtain ⟨ts, ht, hb⟩ := parsePairs_ok h1
        refine ⟨ts ++ ss, ⟨ys ++ xs, ?_, ht.append hs⟩, ?_⟩
        · simp only [expand, hp, if_true, e, hx, Option.bind_some, Option.map_some]
        · rw [applyAll_append, hb]; exact ha
    · rename_i hp
      have h1' : parsePairs env c [l] = .ok d := by
        simp only [parsePairs, h1, Out.bind]
      obtain ⟨ts, ht, hb⟩ := parsePairs_ok h1'
      refine ⟨ts ++ ss, ⟨[l] ++ xs, ?_, ht.append hs⟩, ?_⟩
      · simp only [expand, hp, hx, Option.map_some]; rfl
      · rw [applyAll_append, hb]; exact ha

theorem Said.ne {env : Env} {ls : List Str} {ss : List Setting} (h : Said env ls ss) : ∀ s ∈ ss, s.field ≠ [] := by
  obtain ⟨_, _, h⟩ := h
  exact h.ne

/-! ### One setting -/

theorem set_same (c : Confs) (o : Opt) (v : Val) : set c o v o = v := by simp [set]

theorem set_ne (c : Confs) {o p : Opt} (v : Val) (h : p ≠ o) : set c o v p = c p := by simp [set, h]

theorem atoi_digit {d : Byte} (h : isDigit d = true) : Cntr.atoi [d] = (d.toNat : Int) - 48 := by
  have key : ∀ n < 256, isDigit (UInt8.ofNat n) = true → Cntr.atoi [UInt8.ofNat n] = (n : Int) - 48 := by
    decide +kernel
  have := key d.toNat d.toNat_lt
  rw [UInt8.ofNat_toNat] at this
  exact this h

theorem getCompression_level {v : Str} {n : Int} (h : getCompression v = some n) : Level v n := by
  unfold getCompression at h
  simp only at h
  split at h
  · rename_i d e
    split at h
    · rename_i hd
      injection h with h
      refine ⟨d, hd, ?_, ?_⟩
      · split at e
        · rename_i hp
          simp only [Bool.or_eq_true, List.isPrefixOf_iff_prefix] at hp
          rcases hp with hp | hp
          · obtain ⟨t, rfl⟩ := hp
            right; left
            rw [show (4 : Nat) = (bytes "gzip").length by decide, List.drop_left] at e
            rw [e]
          · obtain ⟨t, rfl⟩ := hp
            right; right
            rw [show (4 : Nat) = (bytes "zlib").length by decide, List.drop_left] at e
            rw [e]
        · exact Or.inl e
      · rw [← h, ← atoi_digit hd]
        exact congrArg Cntr.atoi e
    · cases h
  · cases h

theorem SameKind.lst {v : Val} {l : List Elem} (h : SameKind v (.lst l)) : ∃ k, v = .lst k := by
  cases v <;> first | exact ⟨_, rfl⟩ | cases h

theorem default_lst (o : Opt) : o.isList ∨ ∀ l, o.info.default ≠ .lst l := by
  have key : Opt.all.all (fun o => decide (o.info.default = .lst []) ||
      match o.info.default with | .lst _ => false | _ => true) = true := by decide +kernel
  have := List.all_eq_true.mp key o (mem_all o)
  simp only [Bool.or_eq_true, decide_eq_true_eq] at this
  rcases this with h | h
  · exact Or.inl h
  · exact Or.inr (fun l e => by rw [e] at h; cases h)

theorem field_include (o : Opt) : (o.info.field = bytes "include") ↔ o = .INCLUDE := by
  constructor
  · intro h
    exact field_inj (p := .INCLUDE) (by rw [h]; decide) h
  · rintro rfl; rfl

theorem newVal_spec {env : Env} {o : Opt} {old x : Val} {v : Str} {r : Bool} (hk : SameKind old o.info.default)
    (h : newVal o old v r = some x)
    (h1 : o ≠ .COMPRESSION) (h2 : o ≠ .SSL_COMPRESSION) (h3 : o ≠ .RATELIMIT) (hf : o.info.field ≠ []) :
    SameKind x o.info.default ∧ (¬ o.isList → Means env o v x) ∧
    (∀ l, old = .lst l → x = .lst (addTo o (if r then [] else l) ⟨v, if o = .INCLUDE then 1 else 0⟩)) := by
  have hm : Means env o v x ↔ (match o.info.default with
    | .str _ => x = .str (some v)
    | .int _ => x = .int (Cntr.atoi v)
    | .size _ => ∃ n, getFileSize v = some n ∧ x = .size n
    | .flt _ => x = .flt (some v)
    | .perm _ => x = .perm (octal v)
    | .mode _ => x = .mode (strToMode v)
    | .recovery _ => x = .recovery (strToRecovery v)
    | .lst _ | .rshash _ | .cntr => False) := by
    simp only [Means, h1, h2, h3, or_self, if_false]
    cases o.info.default <;> exact Iff.rfl
  rw [hm]
  have hn : o.info.default ≠ .cntr ∧ ∀ h, o.info.default ≠ .rshash h := by
    have key : Opt.all.all (fun o => decide (o.info.field = []) ||
        match o.info.default with | .cntr => false | .rshash _ => false | _ => true) = true := by decide +kernel
    have := List.all_eq_true.mp key o (mem_all o)
    simp only [hf, decide_false, Bool.false_or] at this
    constructor
    · intro e
      rw [e] at this
      cases this
    · intro k e
      rw [e] at this
      cases this
  have hl := default_lst o
  cases hd : o.info.default <;> rw [hd] at hk <;> cases old <;> try (exact hk.elim)
  all_goals simp only [newVal] at h
  case str.str => injection h with h; subst h; exact ⟨trivial, fun _ => rfl, fun l e => by cases e⟩
  case int.int => injection h with h; subst h; exact ⟨trivial, fun _ => rfl, fun l e => by cases e⟩
  case size.size =>
    cases hg : getFileSize v with
    | none => rw [hg] at h; cases h
    | some n =>
      rw [hg] at h
      injection h with h; subst h
      exact ⟨trivial, fun _ => ⟨n, rfl, rfl⟩, fun l e => by cases e⟩
  case lst.lst =>
    injection h with h; subst h
    refine ⟨trivial, fun hx => ?_, fun l e => ?_⟩
    · rcases hl with hl | hl
      · exact absurd hl hx
      · exact absurd hd (hl _)
    · injection e with e; subst e
      by_cases hi : o = .INCLUDE
      · subst hi; rfl
      · have : ¬ o.info.field = bytes "include" := fun e => hi ((field_include o).mp e)
        simp only [hi, this, if_false]
  case flt.flt => injection h with h; subst h; exact ⟨trivial, fun _ => rfl, fun l e => by cases e⟩
  case perm.perm => injection h with h; subst h; exact ⟨trivial, fun _ => rfl, fun l e => by cases e⟩
  case mode.mode => injection h with h; subst h; exact ⟨trivial, fun _ => rfl, fun l e => by cases e⟩
  case recovery.recovery => injection h with h; subst h; exact ⟨trivial, fun _ => rfl, fun l e => by cases e⟩
  case rshash.rshash => exact absurd hd (hn.2 _)
  case cntr.cntr => exact absurd hd hn.1

/-- What one setting does to all of them. -/
theorem loadField_spec {env : Env} {c c' : Confs} {f v : Str} {r : Bool} (hf : f ≠ []) (hk : WellKinded c)
    (h : loadField env c f v r = some c') :
    WellKinded c' ∧ ∀ o : Opt, (o.info.field ≠ f → c' o = c o) ∧
      (o.info.field = f → ¬ o.isList → Means env o v (c' o)) ∧
      (o.info.field = f → o.isList →
        c' o = .lst (addTo o (if r then [] else getLst c o) ⟨v, if o = .INCLUDE then 1 else 0⟩)) := by
  have special : ∀ (p : Opt) (x : Val), p.info.field = f → SameKind x p.info.default → ¬ p.isList → Means env p v x →
      c' = set c p x → WellKinded c' ∧ ∀ o : Opt, (o.info.field ≠ f → c' o = c o) ∧
      (o.info.field = f → ¬ o.isList → Means env o v (c' o)) ∧
      (o.info.field = f → o.isList →
        c' o = .lst (addTo o (if r then [] else getLst c o) ⟨v, if o = .INCLUDE then 1 else 0⟩)) := by
    intro p x hp hx hl hm e
    subst e
    refine ⟨fun o => ?_, fun o => ⟨fun ho => ?_, fun ho _ => ?_, fun ho hl' => ?_⟩⟩
    · by_cases e : o = p
      · subst e; rw [set_same]; exact hx
      · rw [set_ne _ _ e]; exact hk o
    · exact set_ne _ _ (fun e => ho (e ▸ hp))
    · have e : o = p := field_inj (ho ▸ hf) (ho.trans hp.symm)
      subst e; rw [set_same]; exact hm
    · have e : o = p := field_inj (ho ▸ hf) (ho.trans hp.symm)
      subst e; exact absurd hl' hl
  unfold loadField at h
  split at h
  · rename_i e
    cases hg : getCompression v with
    | none => rw [hg] at h; cases h
    | some n =>
      rw [hg] at h; injection h with h
      exact special .COMPRESSION (.int n) e.symm trivial (by decide)
        (by simp only [Means, true_or, if_true]; exact ⟨n, getCompression_level hg, rfl⟩) h.symm
  · rename_i n1
    split at h
    · rename_i e
      cases hg : getCompression v with
      | none => rw [hg] at h; cases h
      | some n =>
        rw [hg] at h; injection h with h
        exact special .SSL_COMPRESSION (.int n) e.symm trivial (by decide)
          (by simp only [Means, or_true, if_true]; exact ⟨n, getCompression_level hg, rfl⟩) h.symm
    · rename_i n2
      split at h
      · rename_i e
        split at h
        · cases h
        · rename_i hz
          injection h with h
          refine special .RATELIMIT (.flt (some v)) e.symm trivial (by decide) ?_ h.symm
          simp only [Means, reduceCtorEq, or_self, if_false, if_true]
          exact ⟨by simpa using hz, trivial⟩
      · rename_i n3
        split at h
        · rename_i e
          injection h with h
          subst h
          refine ⟨hk, fun o => ⟨fun _ => rfl, fun ho => ?_, fun ho => ?_⟩⟩ <;>
          · exfalso
            subst ho
            rw [find_field o hf] at e
            cases e
        · rename_i p e
          have hp : p.info.field = f := by simpa using List.find?_some e
          cases hn : newVal p (c p) v r with
          | none => rw [hn] at h; cases h
          | some x =>
            rw [hn] at h; injection h with h
            replace h : set c p x = c' := h
            subst h
            obtain ⟨hx, hm, hl⟩ := newVal_spec (env := env) (hk p) hn (by rintro rfl; exact n1 hp.symm)
              (by rintro rfl; exact n2 hp.symm) (by rintro rfl; exact n3 hp.symm) (hp ▸ hf)
            refine ⟨fun o => ?_, fun o => ⟨fun ho => ?_, fun ho hnl => ?_, fun ho hl' => ?_⟩⟩
            · by_cases e : o = p
              · subst e; rw [set_same]; exact hx
              · rw [set_ne _ _ e]; exact hk o
            · exact set_ne _ _ (fun e => ho (e ▸ hp))
            · have e : o = p := field_inj (ho ▸ hf) (ho.trans hp.symm)
              subst e; rw [set_same]; exact hm hnl
            · have e : o = p := field_inj (ho ▸ hf) (ho.trans hp.symm)
              subst e; rw [set_same]
              have := hk o
              rw [show o.info.default = .lst [] from hl'] at this
              obtain ⟨k, hk'⟩ := this.lst
              rw [hl k hk']
              simp only [getLst, hk']

/-! ### Many settings -/

theorem lastFor_cons (f : Str) (s : Setting) (ss : List Setting) :
    lastFor f (s :: ss) = match lastFor f ss with
      | some v => some v
      | none => if s.field = f then some s.value else none := by
  unfold lastFor
  by_cases h : s.field = f
  · simp only [List.filter_cons, h, decide_true, if_true]
    cases ss.filter (fun s => decide (s.field = f)) with
    | nil => rfl
    | cons a l => 
      rw [List.getLast?_cons_cons]
      cases hl : (a :: l).getLast? with
      | none => simp at hl
      | some x => rfl
  · simp only [List.filter_cons, h, decide_false, if_false, Bool.false_eq_true]
    cases (ss.filter (fun s => decide (s.field = f))).getLast? <;> rfl

theorem lastFor_append (f : Str) (s t : List Setting) :
    lastFor f (s ++ t) = match lastFor f t with
      | some v => some v
      | none => lastFor f s := by
  induction s with
  | nil => rw [List.nil_append]; cases lastFor f t <;> rfl
  | cons x s ih =>
    rw [List.cons_append, lastFor_cons, ih, lastFor_cons]
    cases lastFor f t <;> rfl

theorem lastFor_nil {ss : List Setting} (h : ∀ s ∈ ss, s.field ≠ []) : lastFor [] ss = none := by
  induction ss with
  | nil => rfl
  | cons s ss ih =>
    rw [lastFor_cons, ih (fun t ht => h t (List.mem_cons_of_mem _ ht))]
    simp [h s (List.mem_cons_self ..)]

theorem applyAll_kind {env : Env} {c c' : Confs} {ss : List Setting} (hn : ∀ s ∈ ss, s.field ≠ []) (hk : WellKinded c)
    (h : applyAll env c ss = some c') : WellKinded c' := by
  induction ss generalizing c with
  | nil => cases h; exact hk
  | cons s ss ih =>
    simp only [applyAll] at h
    cases e : loadField env c s.field s.value s.reset with
    | none => rw [e] at h; cases h
    | some d =>
      rw [e] at h
      exact ih (fun t ht => hn t (List.mem_cons_of_mem _ ht))
        (loadField_spec (hn s (List.mem_cons_self ..)) hk e).1 h

theorem applyAll_scalar {env : Env} {c c' : Confs} {ss : List Setting} (hn : ∀ s ∈ ss, s.field ≠ [])
    (hk : WellKinded c) (h : applyAll env c ss = some c') (o : Opt) (ho : ¬ o.isList) :
    match lastFor o.info.field ss with
    | some v => Means env o v (c' o)
    | none => c' o = c o := by
  induction ss generalizing c with
  | nil => cases h; rfl
  | cons s ss ih =>
    simp only [applyAll] at h
    cases e : loadField env c s.field s.value s.reset with
    | none => rw [e] at h; cases h
    | some d =>
      rw [e] at h
      obtain ⟨hk', hs⟩ := loadField_spec (hn s (List.mem_cons_self ..)) hk e
      have := ih (fun t ht => hn t (List.mem_cons_of_mem _ ht)) hk' h
      rw [lastFor_cons]
      cases hl : lastFor o.info.field ss with
      | some v => rw [hl] at this; exact this
      | none =>
        rw [hl] at this
        simp only at this ⊢
        by_cases hf : s.field = o.info.field
        · simp only [hf, if_true]
          rw [this]
          exact (hs o).2.1 hf.symm ho
        · simp only [hf, if_false]
          rw [this]
          exact (hs o).1 (fun e => hf e.symm)

end Verif.Confs
