import Verif.Spec.ConfCheck
import Verif.Lemmas.Confs

/-! Lemmas for the checks of the configuration. -/

namespace Verif.ConfCheck

open Verif.Confs

theorem isSome_iff (c : Confs) (o : Opt) : (getStr c o).isSome = true ↔ IsSet c o := Option.isSome_iff_exists

theorem getStr_congr {c d : Confs} {o : Opt} (h : c o = d o) : getStr c o = getStr d o := by unfold getStr; rw [h]

theorem setStr_ne (c : Confs) {o p : Opt} (s : Str) (h : p ≠ o) : setStr c o s p = c p := set_ne _ _ h

theorem getStr_setStr_ne (c : Confs) {o p : Opt} (s : Str) (h : p ≠ o) : getStr (setStr c o s) p = getStr c p :=
  getStr_congr (setStr_ne c s h)

theorem getStr_setStr (c : Confs) (o : Opt) (s : Str) : getStr (setStr c o s) o = some s := by
  simp [getStr, setStr, Confs.set]

/-- Settings are filled in only where there is nothing. -/
structure Fills (c d : Confs) : Prop where
  same : ∀ o, o ∉ filled → d o = c o
  kept : ∀ o s, getStr c o = some s → getStr d o = some s

theorem Fills.refl (c : Confs) : Fills c c := ⟨fun _ _ => rfl, fun _ _ h => h⟩

theorem Fills.trans {c d e : Confs} (h : Fills c d) (g : Fills d e) : Fills c e :=
  ⟨fun o ho => (g.same o ho).trans (h.same o ho), fun o s hs => g.kept o s (h.kept o s hs)⟩

theorem Fills.str {c d : Confs} (h : Fills c d) {o : Opt} (ho : o ∉ filled) : getStr d o = getStr c o :=
  getStr_congr (h.same o ho)

theorem fills_set {c : Confs} {o : Opt} (s : Str) (ho : o ∈ filled) (hn : getStr c o = none) :
    Fills c (setStr c o s) := by
  refine ⟨fun p hp => setStr_ne _ _ (fun e => hp (e ▸ ho)), fun p t hp => ?_⟩
  by_cases e : p = o
  · subst e; rw [hn] at hp; cases hp
  · rw [getStr_setStr_ne _ _ e]; exact hp

theorem fills_default (c : Confs) {o : Opt} (s : Str) (ho : o ∈ filled) :
    Fills c (if (getStr c o).isNone then setStr c o s else c) := by
  by_cases h : (getStr c o).isNone = true
  · rw [if_pos h]
    exact fills_set s ho (Option.isNone_iff_eq_none.1 h)
  · rw [if_neg h]; exact .refl c

theorem default_value (c : Confs) (o : Opt) (s : Str) :
    getStr (if (getStr c o).isNone then setStr c o s else c) o = some ((getStr c o).getD s) := by
  cases h : getStr c o with
  | none => simp [getStr_setStr]
  | some t => simp [h]

theorem fills_peerCn (c : Confs) : Fills c (peerCn c) := by
  unfold peerCn
  split
  · exact .refl c
  · rename_i h
    split
    · exact .refl c
    · exact fills_set _ (by decide) (by simpa using h)

theorem dotdot_iff (s : Str) : dotdot s = true ↔ TwoDots s := by
  have e : bytes ".." = [46, 46] := by decide
  induction s with
  | nil =>
    simp only [dotdot, Bool.false_eq_true, TwoDots, false_iff, not_exists]
    intro a b h
    rw [e] at h
    simp at h
  | cons x xs ih =>
    simp only [dotdot, Bool.or_eq_true, List.isPrefixOf_iff_prefix, ih, TwoDots]
    constructor
    · rintro (⟨t, ht⟩ | ⟨a, b, h⟩)
      · exact ⟨[], t, by rw [List.nil_append]; exact ht.symm⟩
      · exact ⟨x :: a, b, by rw [h]; rfl⟩
    · rintro ⟨a, b, h⟩
      cases a with
      | nil => exact .inl ⟨b, by rw [h]; rfl⟩
      | cons y ys =>
        simp only [List.cons_append] at h
        injection h with h1 h2
        exact .inr ⟨ys, b, h2⟩

theorem wanted_mangle (c : Confs) (full n : Str) : Wanted c full n ↔ n = mangle c full := by
  have key : ∀ s : Str, Short c full s ↔
      s = if getInt c .CNAME_FQDN = 0 then full.takeWhile (fun b => b ≠ 46) else full := by
    intro s
    unfold Short
    by_cases h : getInt c .CNAME_FQDN = 0
    · rw [if_pos h]
      have : ∀ full s : Str, (46 ∉ s ∧ (s = full ∨ ∃ rest, full = s ++ 46 :: rest)) ↔
          s = full.takeWhile (fun b => decide (b ≠ 46)) := by
        intro full
        induction full with
        | nil =>
          intro s
          simp only [List.takeWhile_nil]
          constructor
          · rintro ⟨-, h | ⟨r, h⟩⟩
            · exact h
            · simp at h
          · rintro rfl; simp
        | cons x xs ih =>
          intro s
          by_cases hx : x = 46
          · subst hx
            rw [List.takeWhile_cons_of_neg (by decide)]
            constructor
            · rintro ⟨h1, rfl | ⟨r, h2⟩⟩
              · exact absurd (by simp) h1
              · cases s with
                | nil => rfl
                | cons y ys =>
                  simp only [List.cons_append] at h2
                  injection h2 with h2 _
                  exact absurd (by simp [← h2]) h1
            · rintro rfl
              exact ⟨by simp, .inr ⟨xs, rfl⟩⟩
          · rw [List.takeWhile_cons_of_pos (by simpa using hx)]
            cases s with
            | nil =>
              simp only [List.not_mem_nil, not_false_eq_true, true_and, List.nil_append]
              constructor
              · rintro (h | ⟨r, h⟩)
                · cases h
                · injection h with h _; exact absurd h hx
              · intro h; cases h
            | cons y ys =>
              have := ih ys
              constructor
              · rintro ⟨h1, h2⟩
                have hy : y = x ∧ (ys = xs ∨ ∃ r, xs = ys ++ 46 :: r) := by
                  rcases h2 with h2 | ⟨r, h2⟩
                  · injection h2 with h2 h3; exact ⟨h2, .inl h3⟩
                  · simp only [List.cons_append] at h2
                    injection h2 with h2 h3; exact ⟨h2.symm, .inr ⟨r, h3⟩⟩
                rw [hy.1, ← this.1 ⟨fun m => h1 (by simp [m]), hy.2⟩]
              · intro h2
                injection h2 with h2 h3
                obtain ⟨h4, h5⟩ := this.2 h3
                refine ⟨?_, ?_⟩
                · simp only [List.mem_cons, not_or]
                  exact ⟨fun e => hx (by rw [← h2, e]), h4⟩
                · rw [h2]
                  rcases h5 with h5 | ⟨r, h5⟩
                  · exact .inl (by rw [h5])
                  · exact .inr ⟨r, by rw [h5]; rfl⟩
      rw [← this]
      simp [h]
    · rw [if_neg h]
      simp [h]
  unfold Wanted mangle
  simp only [key]
  by_cases h : getInt c .CNAME_LOWERCASE = 0
  · simp [h]
  · simp [h]

/-- What the name comes to. -/
theorem clientName_some {h : Host} {c d : Confs} (hc : IsSet c .SSL_CERT) (e : clientName h c = some d) :
    Fills c d ∧ ∃ n, getStr d .CNAME = some n ∧ NameOf h c n := by
  unfold clientName at e
  split at e
  · rename_i hn
    injection e with e
    subst e
    obtain ⟨n, hn⟩ := (isSome_iff _ _).1 hn
    exact ⟨.refl c, n, hn, .given hn⟩
  · rename_i hn
    have hn : getStr c .CNAME = none := by simpa using hn
    obtain ⟨p, hp⟩ := hc
    unfold cnameFromCert at e
    rw [hp] at e
    cases hce : h.cert p with
    | missing =>
      simp only [hce, Option.bind_some, hn, Option.isSome_none, Bool.false_eq_true, if_false] at e
      unfold cnameFromHost at e
      obtain ⟨full, hf, rfl⟩ := Option.map_eq_some_iff.1 e
      exact ⟨fills_set _ (by decide) hn, _, getStr_setStr _ _ _,
        .host hn hp hce hf ((wanted_mangle c full _).2 rfl)⟩
    | bad => simp [hce] at e
    | named cn =>
      simp only [hce, Option.bind_some, getStr_setStr, Option.isSome_some, if_true] at e
      injection e with e
      subst e
      exact ⟨fills_set _ (by decide) hn, _, getStr_setStr _ _ _, .cert hn hp hce ((wanted_mangle c cn _).2 rfl)⟩

theorem clientName_exists {h : Host} {c : Confs} {n : Str} (hn : NameOf h c n) :
    ∃ d, clientName h c = some d := by
  unfold clientName
  cases hn with
  | given e => exact ⟨c, by simp [e]⟩
  | cert e1 e2 e3 _ =>
    simp only [e1, Option.isSome_none, Bool.false_eq_true, if_false, cnameFromCert, e2, e3, Option.bind_some,
      getStr_setStr, Option.isSome_some, if_true]
    exact ⟨_, rfl⟩
  | host e1 e2 e3 e4 _ =>
    simp only [e1, Option.isSome_none, Bool.false_eq_true, if_false, cnameFromCert, e2, e3, Option.bind_some,
      cnameFromHost, e4, Option.map_some]
    exact ⟨_, rfl⟩

theorem getInt_congr {c d : Confs} {o : Opt} (h : c o = d o) : getInt c o = getInt d o := by unfold getInt; rw [h]

theorem getMode_congr {c d : Confs} (h : c .BURP_MODE = d .BURP_MODE) : getMode c = getMode d := by
  unfold getMode; rw [h]

theorem isSet_fills {c d : Confs} (h : Fills c d) {o : Opt} (ho : o ∉ filled) : IsSet d o ↔ IsSet c o := by
  unfold IsSet; rw [h.str ho]

theorem Common.fills {c d : Confs} (h : Fills c d) : Common d ↔ Common c := by
  constructor
  · rintro ⟨h1, h2, h3⟩
    rw [isSet_fills h (by decide), isSet_fills h (by decide)] at h1
    rw [isSet_fills h (by decide)] at h2 h3
    exact ⟨h1, h2, h3⟩
  · rintro ⟨h1, h2, h3⟩
    rw [← isSet_fills h (by decide), ← isSet_fills h (o := .PIDFILE) (by decide)] at h1
    rw [← isSet_fills h (by decide)] at h2 h3
    exact ⟨h1, h2, h3⟩

theorem general_iff (c : Confs) : general c = true ↔ Common c := by
  unfold general lockfile
  simp only [Bool.and_eq_true, isSome_iff]
  constructor
  · rintro ⟨⟨h1, h2⟩, h3⟩
    refine ⟨?_, h2, h3⟩
    cases hl : getStr c .LOCKFILE with
    | some l => exact .inl ⟨l, hl⟩
    | none =>
      rw [hl] at h1
      exact .inr ((isSome_iff _ _).1 h1)
  · rintro ⟨h1, h2, h3⟩
    refine ⟨⟨?_, h2⟩, h3⟩
    cases hl : getStr c .LOCKFILE with
    | some l => rfl
    | none =>
      rcases h1 with ⟨l, h1⟩ | h1
      · rw [hl] at h1; cases h1
      · exact (isSome_iff _ _).2 h1

theorem getRecovery_iff (c : Confs) : getRecovery c ≠ .unset ↔
    c .WORKING_DIR_RECOVERY_METHOD = .recovery .delete ∨ c .WORKING_DIR_RECOVERY_METHOD = .recovery .resume := by
  unfold getRecovery
  split
  · rename_i r h
    rw [h]
    cases r <;> simp
  · rename_i h
    simp only [ne_eq, not_true, false_iff, not_or]
    exact ⟨h _, h _⟩

theorem ServerComplete.fills {c d : Confs} (h : Fills c d) : ServerComplete d ↔ ServerComplete c := by
  have e : ∀ o, o ∉ filled → c o = d o := fun o ho => (h.same o ho).symm
  have l : ∀ o, o ∉ filled → getLst c o = getLst d o := fun o ho => by unfold getLst; rw [e o ho]
  have s : ∀ o, o ∉ filled → getStr c o = getStr d o := fun o ho => getStr_congr (e o ho)
  have i : ∀ o, o ∉ filled → (IsSet c o ↔ IsSet d o) := fun o ho => (isSet_fills h ho).symm
  constructor
  · rintro ⟨h0, h1, h2, h3, h4, h5, h6, h7, h8, h9, h10, h11⟩
    refine ⟨(Common.fills h).1 h0, (i _ (by decide)).2 h1, (i _ (by decide)).2 h2, (i _ (by decide)).2 h3, ?_,
      (i _ (by decide)).2 h5, ?_, ?_, ?_, ?_, ?_, ?_⟩
    · rw [e _ (by decide)]; exact h4
    · rw [s _ (by decide)]; exact h6
    · rw [l _ (by decide)]; exact h7
    · rw [getInt_congr (e _ (by decide))]; exact h8
    · rw [getInt_congr (e _ (by decide))]; exact h9
    · rw [i .CA_CONF (by decide), i .CA_NAME (by decide), i .CA_SERVER_NAME (by decide), s .CA_NAME (by decide),
        s .CA_SERVER_NAME (by decide), i .CA_BURP_CA (by decide), i .SSL_KEY (by decide)]
      exact h10
    · rw [s _ (by decide)]; exact h11
  · rintro ⟨h0, h1, h2, h3, h4, h5, h6, h7, h8, h9, h10, h11⟩
    refine ⟨(Common.fills h).2 h0, (i _ (by decide)).1 h1, (i _ (by decide)).1 h2, (i _ (by decide)).1 h3, ?_,
      (i _ (by decide)).1 h5, ?_, ?_, ?_, ?_, ?_, ?_⟩
    · rw [← e _ (by decide)]; exact h4
    · rw [← s _ (by decide)]; exact h6
    · rw [← l _ (by decide)]; exact h7
    · rw [← getInt_congr (e _ (by decide))]; exact h8
    · rw [← getInt_congr (e _ (by decide))]; exact h9
    · rw [← i .CA_CONF (by decide), ← i .CA_NAME (by decide), ← i .CA_SERVER_NAME (by decide),
        ← s .CA_NAME (by decide), ← s .CA_SERVER_NAME (by decide), ← i .CA_BURP_CA (by decide),
        ← i .SSL_KEY (by decide)]
      exact h10
    · rw [← s _ (by decide)]; exact h11

theorem serverCa_iff {c : Confs} (h1 : IsSet c .SSL_DHFILE) (h2 : IsSet c .SSL_CERT_CA) (h3 : IsSet c .SSL_CERT) :
    serverCa c = true ↔ (IsSet c .CA_CONF → IsSet c .CA_NAME ∧ IsSet c .CA_SERVER_NAME ∧
      getStr c .CA_NAME ≠ getStr c .CA_SERVER_NAME ∧ IsSet c .CA_BURP_CA ∧ IsSet c .SSL_KEY) := by
  unfold serverCa
  split
  · rename_i hc
    simp only [Bool.and_eq_true, isSome_iff, h1, h2, h3, and_true, (isSome_iff _ _).1 hc, forall_const]
    constructor
    · rintro ⟨⟨⟨⟨a, b⟩, x⟩, d⟩, k⟩
      refine ⟨a, b, ?_, d, k⟩
      obtain ⟨u, hu⟩ := a
      obtain ⟨v, hv⟩ := b
      rw [hu, hv] at x ⊢
      simpa using x
    · rintro ⟨a, b, x, d, k⟩
      refine ⟨⟨⟨⟨a, b⟩, ?_⟩, d⟩, k⟩
      obtain ⟨u, hu⟩ := a
      obtain ⟨v, hv⟩ := b
      rw [hu, hv] at x ⊢
      simpa using x
  · rename_i hc
    simp only [true_iff]
    intro h
    exact absurd ((isSome_iff _ _).2 h) hc

theorem server_iff {c : Confs} (hg : Common c) : (server c).1 = true ↔ ServerComplete c := by
  have hf : Fills c (server c).2 := fills_default c _ (by decide)
  have hf' : Fills c (if (getStr c .TIMESTAMP_FORMAT).isNone then setStr c .TIMESTAMP_FORMAT timestampFormat else c) :=
    hf
  unfold server
  simp only
  generalize (if (getStr c .TIMESTAMP_FORMAT).isNone then setStr c .TIMESTAMP_FORMAT timestampFormat else c) = d at hf'
  simp only [Bool.and_eq_true, decide_eq_true_eq, isSome_iff, Option.isNone_iff_eq_none]
  rw [hf'.str (o := .MANUAL_DELETE) (by decide)]
  constructor
  · rintro ⟨⟨⟨⟨⟨⟨⟨⟨⟨⟨h1, h2⟩, h3⟩, h4⟩, h5⟩, h6⟩, h7⟩, h8⟩, h9⟩, h10⟩, h11⟩
    refine ⟨hg, h1, h2, h3, (getRecovery_iff c).1 h4, h5, h6, h7, h8, by omega, ?_, ?_⟩
    · have := (serverCa_iff ((isSet_fills hf' (by decide)).2 h5) ((isSet_fills hf' (by decide)).2 hg.ca)
        ((isSet_fills hf' (by decide)).2 hg.cert)).1 h10
      rwa [isSet_fills hf' (by decide), isSet_fills hf' (o := .CA_NAME) (by decide),
        isSet_fills hf' (o := .CA_SERVER_NAME) (by decide), isSet_fills hf' (o := .CA_BURP_CA) (by decide),
        isSet_fills hf' (o := .SSL_KEY) (by decide), hf'.str (by decide), hf'.str (by decide)] at this
    · intro p hp
      rw [hp] at h11
      exact h11
  · intro h
    refine ⟨⟨⟨⟨⟨⟨⟨⟨⟨⟨h.directory, h.dedupGroup⟩, h.clientconfdir⟩, (getRecovery_iff c).2 h.recovery⟩, h.dhfile⟩,
      h.secret⟩, h.keep⟩, h.hardlinks⟩, by have := h.subdirs; omega⟩, ?_⟩, ?_⟩
    · rw [serverCa_iff ((isSet_fills hf' (by decide)).2 h.dhfile) ((isSet_fills hf' (by decide)).2 hg.ca)
        ((isSet_fills hf' (by decide)).2 hg.cert)]
      rw [isSet_fills hf' (by decide), isSet_fills hf' (o := .CA_NAME) (by decide),
        isSet_fills hf' (o := .CA_SERVER_NAME) (by decide), isSet_fills hf' (o := .CA_BURP_CA) (by decide),
        isSet_fills hf' (o := .SSL_KEY) (by decide), hf'.str (by decide), hf'.str (by decide)]
      exact h.authority
    · cases hp : getStr c .MANUAL_DELETE with
      | none => rfl
      | some p => exact h.manualDelete p hp

end Verif.ConfCheck
