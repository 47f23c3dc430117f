import Verif.Spec.CaServer

/-! Helper lemmas for `Verif/Props/CaServer.lean`. -/

namespace Verif.CaServer
open Verif

theorem runAll_append (fs : FS) (a b : List Op) : runAll fs (a ++ b) = runAll (runAll fs a) b := by
  unfold runAll; rw [List.foldl_append]

theorem runAll_cons (fs : FS) (o : Op) (b : List Op) : runAll fs (o :: b) = runAll (o.run fs) b := rfl

theorem next_ok {fs : FS} {r : Res} {k : FS → Res} (h : (next fs r k).2 = true) :
    r.2 = true ∧ (k (runAll fs r.1)).2 = true
      ∧ runAll fs (next fs r k).1 = runAll (runAll fs r.1) (k (runAll fs r.1)).1 := by
  unfold next at h ⊢
  by_cases hr : r.2 = true
  · rw [if_pos hr] at h ⊢
    exact ⟨hr, h, runAll_append _ _ _⟩
  · rw [if_neg hr] at h
    exact absurd h hr

theorem next_of_ok {fs : FS} {r : Res} {k : FS → Res} (hr : r.2 = true) :
    next fs r k = (r.1 ++ (k (runAll fs r.1)).1, (k (runAll fs r.1)).2) := by
  unfold next; rw [if_pos hr]

theorem next_of_fail {fs : FS} {r : Res} {k : FS → Res} (hr : r.2 = false) : next fs r k = r := by
  unfold next; rw [hr]; rfl

theorem within_next {P : Str → Prop} {fs : FS} {r : Res} {k : FS → Res} (h : Within P r.1)
    (hk : ∀ fs, Within P (k fs).1) : Within P (next fs r k).1 := by
  unfold next
  split
  · intro o ho
    rcases List.mem_append.1 ho with ho | ho
    · exact h o ho
    · exact hk _ o ho
  · exact h

theorem within_nil {P : Str → Prop} : Within P [] := by intro o ho; cases ho

theorem within_mono {P Q : Str → Prop} {ops : List Op} (h : Within P ops) (hpq : ∀ p, P p → Q p) :
    Within Q ops := fun o ho => hpq _ (h o ho)

/-- What puts do not go to stays. -/
theorem puts_outside {ops : List Op} {q : Str} :
    ∀ {fs : FS}, (∀ o ∈ ops, ∃ p n, o = .put p n) → (∀ o ∈ ops, o.path ≠ q) → runAll fs ops q = fs q := by
  induction ops with
  | nil => intro fs _ _; rfl
  | cons o ops ih =>
    intro fs h h'
    rw [runAll_cons, ih (fun x hx => h x (List.mem_cons_of_mem _ hx))
      (fun x hx => h' x (List.mem_cons_of_mem _ hx))]
    obtain ⟨p, n, rfl⟩ := h o (List.mem_cons_self ..)
    have := h' _ (List.mem_cons_self ..)
    simp only [Op.run]
    rw [if_neg (fun h => this h.symm)]

/-- What is there stays there when things are only created. -/
theorem puts_keep {ops : List Op} {q : Str} :
    ∀ {fs : FS}, (∀ o ∈ ops, ∃ p n, o = .put p n) → fs q ≠ none → runAll fs ops q ≠ none := by
  induction ops with
  | nil => intro fs _ h; exact h
  | cons o ops ih =>
    intro fs h hq
    rw [runAll_cons]
    apply ih (fun x hx => h x (List.mem_cons_of_mem _ hx))
    obtain ⟨p, n, rfl⟩ := h o (List.mem_cons_self ..)
    simp only [Op.run]
    split
    · simp
    · exact hq

/-- The directory stays one. -/
theorem puts_dir {ops : List Op} {d : Str} :
    ∀ {fs : FS}, (∀ o ∈ ops, ∃ p n, o = .put p n) → (∀ n, Op.put d n ∈ ops → n = .dir) →
      fs d = some .dir → runAll fs ops d = some .dir := by
  induction ops with
  | nil => intro fs _ _ h; exact h
  | cons o ops ih =>
    intro fs h hd hq
    rw [runAll_cons]
    apply ih (fun x hx => h x (List.mem_cons_of_mem _ hx))
      (fun n hn => hd n (List.mem_cons_of_mem _ hn))
    obtain ⟨p, n, rfl⟩ := h o (List.mem_cons_self ..)
    simp only [Op.run]
    split
    · next he => subst he; rw [hd n (List.mem_cons_self ..)]
    · exact hq

theorem below_self (d : Str) : below d d = true := by simp [below]

theorem below_slash (d x : Str) : below d (d ++ [slash] ++ x) = true := by
  have : (d ++ [slash]).isPrefixOf (d ++ [slash] ++ x) = true :=
    List.isPrefixOf_iff_prefix.2 (List.prefix_append _ _)
  unfold below
  rw [this, Bool.or_true]

theorem relink_ok {t p : Str} {fs : FS} (hn : t ≠ p) (h : (relink t p fs).2 = true) :
    fs t ≠ none ∧ ∀ q, runAll fs (relink t p fs).1 q = if q = p then some (.link t) else fs q := by
  unfold relink at h ⊢
  rw [if_neg hn] at h ⊢
  obtain ⟨_, h2, h3⟩ := next_ok h
  rw [h3]
  have hdel : ∀ q, runAll fs [Op.del p] q = if q = p ∧ fs p ≠ some .dir then none else fs q := fun _ => rfl
  unfold symlink at h2 ⊢
  split at h2
  · cases h2
  · next ht =>
    rw [if_neg ht]
    split at h2
    · cases h2
    · next hp =>
      rw [if_neg hp]
      refine ⟨?_, ?_⟩
      · intro h0
        apply ht
        rw [hdel, h0]
        simp
      · intro q
        show (if q = p then some (Node.link t) else runAll fs [Op.del p] q) = _
        by_cases hq : q = p
        · rw [if_pos hq, if_pos hq]
        · rw [if_neg hq, if_neg hq, hdel, if_neg (fun h => hq h.1)]

theorem within_relink {t p : Str} {fs : FS} : Within (· = p) (relink t p fs).1 := by
  unfold relink
  split
  · exact within_nil
  · apply within_next
    · intro o ho; cases List.mem_singleton.1 ho; rfl
    · intro fs
      unfold symlink
      split
      · exact within_nil
      · split
        · exact within_nil
        · intro o ho; cases List.mem_singleton.1 ho; rfl

theorem setup_eq {k : Conf} {w : World} {fs : FS} {d : Str} (hd : caDir k = some d) :
    setup k w fs = setupIn k w d fs := by
  unfold setup
  cases hc : k.caConf with
  | none => simp [caDir, hc] at hd
  | some x => simp [hd]

/-! Where the changes are. -/

def Places (k : Conf) (d p : Str) : Prop :=
  below d p = true ∨ p = k.sslCertCa ∨ p = k.sslCert ∨ p = k.sslKey ∨ p = k.dhfile

theorem within_init {k : Conf} {w : World} {d : Str} (hw : WorldOk k d w) (fs : FS) :
    Within (Places k d) (init k w d fs).1 := by
  have hs : ∀ s fs, s ≠ .dhfile → Within (Places k d) (w s fs).1 := fun s fs h =>
    within_mono (hw.in_dir s fs h) (fun p hp => Or.inl hp)
  unfold init
  split
  · exact within_nil
  · refine within_next (hs _ _ (by decide)) fun fs => ?_
    refine within_next (hs _ _ (by decide)) fun fs => ?_
    refine within_next (hs _ _ (by decide)) fun fs => ?_
    refine within_next (within_mono within_relink fun p hp => Or.inr (Or.inl hp)) fun fs => ?_
    refine within_next (within_mono within_relink fun p hp => Or.inr (Or.inr (Or.inl hp))) fun fs => ?_
    exact within_mono within_relink fun p hp => Or.inr (Or.inr (Or.inr (Or.inl hp)))

theorem within_wipe {k : Conf} {d : Str} (fs : FS) : Within (Places k d) (wipe d fs) := by
  unfold wipe
  split <;> (intro o ho; cases List.mem_singleton.1 ho; exact Or.inl (below_self d))

theorem within_setup {k : Conf} {w : World} {d : Str} (hw : WorldOk k d w) (fs : FS) :
    Within (Places k d) (setupIn k w d fs).1 := by
  unfold setupIn
  refine within_next ?_ fun fs => within_next ?_ fun fs => ?_
  · unfold dhfile
    split
    · exact within_nil
    · exact within_mono (hw.dh_only fs) fun p hp => Or.inr (Or.inr (Or.inr (Or.inr hp)))
  · unfold initOrWipe
    split
    · exact within_init hw fs
    · intro o ho
      rcases List.mem_append.1 ho with ho | ho
      · exact within_init hw fs o ho
      · exact within_wipe _ o ho
  · unfold crl
    split
    · exact within_nil
    · split
      · exact within_nil
      · exact within_mono (hw.in_dir _ fs (by decide)) fun p hp => Or.inl hp

/-- The only directory that is taken away is that of the authority. -/
theorem wipes_only {k : Conf} {w : World} {d : Str} (hw : WorldOk k d w) (fs : FS) :
    ∀ e, Op.delAll e ∈ (setupIn k w d fs).1 → e = d := by
  have hs : ∀ s fs e, Op.delAll e ∉ (w s fs).1 := by
    intro s fs e h
    obtain ⟨p, n, h⟩ := hw.creates s fs _ h
    cases h
  have hnext : ∀ {fs : FS} {r : Res} {k : FS → Res} {e : Str}, Op.delAll e ∈ (next fs r k).1 →
      Op.delAll e ∈ r.1 ∨ ∃ fs, Op.delAll e ∈ (k fs).1 := by
    intro fs r k e h
    unfold next at h
    split at h
    · rcases List.mem_append.1 h with h | h
      · exact Or.inl h
      · exact Or.inr ⟨_, h⟩
    · exact Or.inl h
  have hrel : ∀ t p (fs : FS) e, Op.delAll e ∉ (relink t p fs).1 := by
    intro t p fs e h
    unfold relink at h
    split at h
    · cases h
    · rcases hnext h with h | ⟨fs, h⟩
      · cases List.mem_singleton.1 h
      · unfold symlink at h
        split at h
        · cases h
        · split at h
          · cases h
          · cases List.mem_singleton.1 h
  have hinit : ∀ fs e, Op.delAll e ∉ (init k w d fs).1 := by
    intro fs e h
    unfold init at h
    split at h
    · cases h
    · rcases hnext h with h | ⟨_, h⟩
      · exact hs _ _ _ h
      rcases hnext h with h | ⟨_, h⟩
      · exact hs _ _ _ h
      rcases hnext h with h | ⟨_, h⟩
      · exact hs _ _ _ h
      rcases hnext h with h | ⟨_, h⟩
      · exact hrel _ _ _ _ h
      rcases hnext h with h | ⟨_, h⟩
      · exact hrel _ _ _ _ h
      exact hrel _ _ _ _ h
  intro e h
  unfold setupIn at h
  rcases hnext h with h | ⟨fs, h⟩
  · unfold dhfile at h
    split at h
    · cases h
    · exact absurd h (hs _ _ _)
  rcases hnext h with h | ⟨fs, h⟩
  · unfold initOrWipe at h
    split at h
    · exact absurd h (hinit _ _)
    · rcases List.mem_append.1 h with h | h
      · exact absurd h (hinit _ _)
      · unfold wipe at h
        split at h
        · cases List.mem_singleton.1 h; rfl
        · cases List.mem_singleton.1 h
  · unfold crl at h
    split at h
    · cases h
    · split at h
      · cases h
      · exact absurd h (hs _ _ _)

/-- What no change is made to, and is in no directory that is taken away, stays. -/
theorem run_elsewhere {ops : List Op} {q : Str} :
    ∀ {fs : FS}, (∀ o ∈ ops, o.path ≠ q) → (∀ e, Op.delAll e ∈ ops → below e q = false) →
      runAll fs ops q = fs q := by
  induction ops with
  | nil => intro fs _ _; rfl
  | cons o ops ih =>
    intro fs h hb
    rw [runAll_cons, ih (fun x hx => h x (List.mem_cons_of_mem _ hx))
      (fun x hx => hb x (List.mem_cons_of_mem _ hx))]
    have h1 := h o (List.mem_cons_self ..)
    cases o with
    | put p n => simp only [Op.run]; rw [if_neg (fun h => h1 h.symm)]
    | del p => simp only [Op.run]; rw [if_neg (fun h => h1 h.1.symm)]
    | delAll d => simp only [Op.run]; rw [hb d (List.mem_cons_self ..)]; rfl

/-! What a success comes to. -/

theorem targets {k : Conf} {d : Str} (ha : Apart k d) :
    caCrt k d = d ++ bytes "/CA_" ++ k.caName ++ bytes ".crt"
    ∧ serverCrt k d = d ++ bytes "/" ++ k.serverName ++ bytes ".crt"
    ∧ serverKey k d = d ++ bytes "/" ++ k.serverName ++ bytes ".key" := by
  refine ⟨?_, ?_, ?_⟩
  · unfold caCrt; exact List.take_of_length_le (by have := ha.fits.1; omega)
  · unfold serverCrt; exact List.take_of_length_le (by have := ha.fits.2; omega)
  · unfold serverKey
    apply List.take_of_length_le
    have := ha.fits.2
    have h4 : (bytes ".crt").length = (bytes ".key").length := by decide
    rw [List.length_append] at this ⊢
    omega

theorem below_targets {k : Conf} {d : Str} (ha : Apart k d) :
    below d (caCrt k d) = true ∧ below d (serverCrt k d) = true ∧ below d (serverKey k d) = true := by
  obtain ⟨h1, h2, h3⟩ := targets ha
  have e1 : bytes "/CA_" = [slash] ++ bytes "CA_" := by decide
  have e2 : bytes "/" = [slash] := by decide
  rw [h1, h2, h3, e1, e2]
  refine ⟨?_, ?_, ?_⟩
  · rw [show d ++ ([slash] ++ bytes "CA_") ++ k.caName ++ bytes ".crt"
      = d ++ [slash] ++ (bytes "CA_" ++ k.caName ++ bytes ".crt") by simp [List.append_assoc]]
    exact below_slash _ _
  · rw [show d ++ [slash] ++ k.serverName ++ bytes ".crt"
      = d ++ [slash] ++ (k.serverName ++ bytes ".crt") by simp [List.append_assoc]]
    exact below_slash _ _
  · rw [show d ++ [slash] ++ k.serverName ++ bytes ".key"
      = d ++ [slash] ++ (k.serverName ++ bytes ".key") by simp [List.append_assoc]]
    exact below_slash _ _

theorem ne_of_below {d a b : Str} (ha : below d a = true) (hb : below d b = false) : a ≠ b := by
  rintro rfl; rw [ha] at hb; cases hb

/-- After `ca_init` has succeeded where there was no directory. -/
theorem init_ready {k : Conf} {w : World} {d : Str} {fs : FS} (hw : WorldOk k d w) (ha : Apart k d)
    (hd : fs d ≠ some .dir) (hdh : fs k.dhfile ≠ none) (h : (init k w d fs).2 = true) :
    Ready k d (runAll fs (init k w d fs).1) := by
  obtain ⟨t1, t2, t3⟩ := targets ha
  obtain ⟨b1, b2, b3⟩ := below_targets ha
  have o1 := ha.outside k.sslCertCa (by simp)
  have o2 := ha.outside k.sslCert (by simp)
  have o3 := ha.outside k.sslKey (by simp)
  have o4 := ha.outside k.dhfile (by simp)
  have hnd := ha.distinct
  simp only [List.nodup_cons, List.mem_cons, List.not_mem_nil, or_false, not_or] at hnd
  obtain ⟨⟨n12, n13, n14⟩, ⟨n23, n24⟩, n34, _⟩ := hnd
  unfold init at h ⊢
  rw [if_neg hd] at h ⊢
  obtain ⟨r1, h, e⟩ := next_ok h
  rw [e]; clear e
  have hd1 := hw.made _ r1
  have hdh1 := puts_keep (hw.creates .init fs) hdh
  revert h hd1 hdh1
  generalize runAll fs (w .init fs).1 = fs1
  intro h hd1 hdh1
  obtain ⟨_, h, e⟩ := next_ok h
  rw [e]; clear e
  have hd2 := puts_dir (hw.creates .request fs1) (hw.dir_kept _ _) hd1
  have hdh2 := puts_keep (hw.creates .request fs1) hdh1
  revert h hd2 hdh2
  generalize runAll fs1 (w .request fs1).1 = fs2
  intro h hd2 hdh2
  obtain ⟨_, h, e⟩ := next_ok h
  rw [e]; clear e
  have hd3 := puts_dir (hw.creates .sign fs2) (hw.dir_kept _ _) hd2
  have hdh3 := puts_keep (hw.creates .sign fs2) hdh2
  revert h hd3 hdh3
  generalize runAll fs2 (w .sign fs2).1 = fs3
  intro h hd3 hdh3
  obtain ⟨r4, h, e⟩ := next_ok h
  rw [e]; clear e
  obtain ⟨x1, f1⟩ := relink_ok (ne_of_below b1 o1) r4
  revert h f1
  generalize runAll fs3 (relink (caCrt k d) k.sslCertCa fs3).1 = fs4
  intro h f1
  obtain ⟨r5, h, e⟩ := next_ok h
  rw [e]; clear e
  obtain ⟨x2, f2⟩ := relink_ok (ne_of_below b2 o2) r5
  revert h f2
  generalize runAll fs4 (relink (serverCrt k d) k.sslCert fs4).1 = fs5
  intro h f2
  obtain ⟨x3, f3⟩ := relink_ok (ne_of_below b3 o3) h
  revert f3
  generalize runAll fs5 (relink (serverKey k d) k.sslKey fs5).1 = fs6
  intro f3
  have self := below_self d
  have in6 : ∀ p, below d p = true → fs6 p = fs3 p := by
    intro p hp
    rw [f3, if_neg (ne_of_below hp o3), f2, if_neg (ne_of_below hp o2), f1, if_neg (ne_of_below hp o1)]
  refine ⟨?_, ?_, ?_, ?_, ?_⟩
  · rw [in6 d self]; exact hd3
  · rw [f3, if_neg (Ne.symm n34), f2, if_neg (Ne.symm n24), f1, if_neg (Ne.symm n14)]; exact hdh3
  · rw [← t1]
    refine ⟨?_, ?_⟩
    · rw [f3, if_neg n13, f2, if_neg n12, f1, if_pos rfl]
    · rw [in6 _ b1]; exact x1
  · rw [← t2]
    refine ⟨?_, ?_⟩
    · rw [f3, if_neg n23, f2, if_pos rfl]
    · rw [in6 _ b2, ← show fs4 (serverCrt k d) = fs3 (serverCrt k d) by
        rw [f1, if_neg (ne_of_below b2 o1)]]
      exact x2
  · rw [← t3]
    refine ⟨?_, ?_⟩
    · rw [f3, if_pos rfl]
    · rw [f3, if_neg (ne_of_below b3 o3)]; exact x3

/-- Things being created spoils nothing. -/
theorem ready_puts {k : Conf} {d : Str} {fs : FS} {ops : List Op} (ha : Apart k d)
    (hr : Ready k d fs) (hc : ∀ o ∈ ops, ∃ p n, o = .put p n)
    (hi : Within (fun p => below d p = true) ops) (hk : ∀ n, Op.put d n ∈ ops → n = .dir) :
    Ready k d (runAll fs ops) := by
  have out : ∀ p ∈ [k.sslCertCa, k.sslCert, k.sslKey, k.dhfile], runAll fs ops p = fs p := by
    intro p hp
    exact puts_outside hc (fun o ho => ne_of_below (hi o ho) (ha.outside p hp))
  refine ⟨puts_dir hc hk hr.dir, puts_keep hc hr.dh, ?_, ?_, ?_⟩
  · exact ⟨by rw [out _ (by simp)]; exact hr.ca.1, puts_keep hc hr.ca.2⟩
  · exact ⟨by rw [out _ (by simp)]; exact hr.cert.1, puts_keep hc hr.cert.2⟩
  · exact ⟨by rw [out _ (by simp)]; exact hr.key.1, puts_keep hc hr.key.2⟩

theorem dhfile_ok {k : Conf} {w : World} {d : Str} {fs : FS} (hw : WorldOk k d w)
    (h : (dhfile k w fs).2 = true) : runAll fs (dhfile k w fs).1 k.dhfile ≠ none := by
  unfold dhfile at h ⊢
  split
  · next hs => intro h0; rw [show runAll fs [] k.dhfile = fs k.dhfile from rfl] at h0; rw [h0] at hs; cases hs
  · next hs => rw [if_neg hs] at h; exact hw.dh _ h

/-- Making the file for Diffie-Hellman does not make the directory. -/
theorem dhfile_dir {k : Conf} {w : World} {d : Str} {fs : FS} (hw : WorldOk k d w) (ha : Apart k d) :
    runAll fs (dhfile k w fs).1 d = fs d := by
  unfold dhfile
  split
  · rfl
  · refine puts_outside (hw.creates _ _) (fun o ho => ?_)
    rw [hw.dh_only fs o ho]
    exact (ne_of_below (below_self d) (ha.outside k.dhfile (by simp))).symm

theorem initOrWipe_ok {k : Conf} {w : World} {d : Str} {fs : FS} (h : (initOrWipe k w d fs).2 = true) :
    (init k w d fs).2 = true ∧ initOrWipe k w d fs = init k w d fs := by
  unfold initOrWipe at h ⊢
  by_cases hi : (init k w d fs).2 = true
  · rw [if_pos hi]; exact ⟨hi, rfl⟩
  · rw [if_neg hi] at h; cases h

theorem wipe_gone (d : Str) (fs : FS) : runAll fs (wipe d fs) d = none := by
  unfold wipe
  split
  · show (Op.delAll d).run fs d = none
    simp [Op.run, below_self]
  · next h =>
    show (Op.del d).run fs d = none
    simp [Op.run, h]

theorem initOrWipe_fail {k : Conf} {w : World} {d : Str} {fs : FS}
    (h : (initOrWipe k w d fs).2 = false) : runAll fs (initOrWipe k w d fs).1 d = none := by
  unfold initOrWipe at h ⊢
  by_cases hi : (init k w d fs).2 = true
  · rw [if_pos hi] at h; rw [hi] at h; cases h
  · rw [if_neg hi, runAll_append]; exact wipe_gone _ _

theorem crl_ready {k : Conf} {w : World} {d : Str} {fs : FS} (hw : WorldOk k d w) (ha : Apart k d)
    (hr : Ready k d fs) : Ready k d (runAll fs (crl k w d fs).1) := by
  unfold crl
  split
  · exact hr
  · split
    · exact hr
    · exact ready_puts ha hr (hw.creates _ _) (hw.in_dir _ _ (by decide)) (hw.dir_kept _ _)

theorem crl_there {k : Conf} {w : World} {d : Str} {fs : FS} (hw : WorldOk k d w) (hn : k.caName ≠ [])
    (hc : k.crl = none) (h : (crl k w d fs).2 = true) :
    runAll fs (crl k w d fs).1 (d ++ [slash] ++ bytes "CA_" ++ k.caName ++ bytes ".crl") ≠ none := by
  have hp : crlPath k d = d ++ [slash] ++ bytes "CA_" ++ k.caName ++ bytes ".crl" := by
    unfold crlPath; rw [hc]
  unfold crl at h ⊢
  rw [if_neg hn, hp] at h ⊢
  split
  · next hs =>
    intro h0
    rw [show ∀ q, runAll fs [] q = fs q from fun _ => rfl] at h0
    rw [h0] at hs; cases hs
  · next hs => rw [if_neg hs] at h; exact hw.crlMade _ h

/-- A directory that is there: nothing but `burp_ca` makes changes. -/
theorem existing_ops {k : Conf} {w : World} {d : Str} {fs : FS} (hw : WorldOk k d w) (ha : Apart k d)
    (hd : fs d = some .dir) :
    Within (fun p => p = k.dhfile ∨ below d p = true) (setupIn k w d fs).1
    ∧ ∀ o ∈ (setupIn k w d fs).1, ∃ p n, o = .put p n := by
  have hdh : Within (fun p => p = k.dhfile ∨ below d p = true) (dhfile k w fs).1
      ∧ ∀ o ∈ (dhfile k w fs).1, ∃ p n, o = .put p n := by
    unfold dhfile
    split
    · exact ⟨within_nil, fun o ho => by cases ho⟩
    · exact ⟨within_mono (hw.dh_only fs) (fun _ h => Or.inl h), hw.creates _ _⟩
  unfold setupIn
  by_cases h1 : (dhfile k w fs).2 = true
  · rw [next_of_ok h1]
    have hd' : runAll fs (dhfile k w fs).1 d = some .dir := by rw [dhfile_dir hw ha]; exact hd
    revert hd'
    generalize runAll fs (dhfile k w fs).1 = fs1
    intro hd'
    have hi : init k w d fs1 = ([], true) := by unfold init; rw [if_pos hd']
    have hiw : initOrWipe k w d fs1 = ([], true) := by unfold initOrWipe; rw [hi]; rfl
    rw [next_of_ok (by rw [hiw]), hiw]
    have hcr : Within (fun p => p = k.dhfile ∨ below d p = true) (crl k w d fs1).1
        ∧ ∀ o ∈ (crl k w d fs1).1, ∃ p n, o = .put p n := by
      unfold crl
      split
      · exact ⟨within_nil, fun o ho => by cases ho⟩
      · split
        · exact ⟨within_nil, fun o ho => by cases ho⟩
        · exact ⟨within_mono (hw.in_dir _ _ (by decide)) (fun _ h => Or.inr h), hw.creates _ _⟩
    refine ⟨?_, ?_⟩
    · intro o ho
      rcases List.mem_append.1 ho with ho | ho
      · exact hdh.1 o ho
      · exact hcr.1 o ho
    · intro o ho
      rcases List.mem_append.1 ho with ho | ho
      · exact hdh.2 o ho
      · exact hcr.2 o ho
  · rw [next_of_fail (by simpa using h1)]
    exact hdh

theorem existing_dir {k : Conf} {w : World} {d : Str} {fs : FS} (hw : WorldOk k d w) (ha : Apart k d)
    (hd : fs d = some .dir) : ∀ n, Op.put d n ∈ (setupIn k w d fs).1 → n = .dir := by
  intro n hn
  have hdh : Op.put d n ∉ (dhfile k w fs).1 := by
    unfold dhfile
    split
    · intro h; cases h
    · intro h
      have := hw.dh_only fs _ h
      exact ne_of_below (below_self d) (ha.outside k.dhfile (by simp)) this
  unfold setupIn at hn
  by_cases h1 : (dhfile k w fs).2 = true
  · rw [next_of_ok h1] at hn
    have hd' : runAll fs (dhfile k w fs).1 d = some .dir := by rw [dhfile_dir hw ha]; exact hd
    revert hd' hn
    generalize runAll fs (dhfile k w fs).1 = fs1
    intro hn hd'
    have hi : init k w d fs1 = ([], true) := by unfold init; rw [if_pos hd']
    have hiw : initOrWipe k w d fs1 = ([], true) := by unfold initOrWipe; rw [hi]; rfl
    rw [next_of_ok (by rw [hiw]), hiw] at hn
    rcases List.mem_append.1 hn with hn | hn
    · exact absurd hn hdh
    · have hn : Op.put d n ∈ (crl k w d fs1).1 := hn
      unfold crl at hn
      split at hn
      · cases hn
      · split at hn
        · cases hn
        · exact hw.dir_kept _ _ _ hn
  · rw [next_of_fail (by simpa using h1)] at hn
    exact absurd hn hdh

end Verif.CaServer
