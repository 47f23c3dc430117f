import Verif.Lemmas.CaServer

/-!
# C114: the certificate authority of the server is set up whole, once, or not at all
-/

namespace Verif
open CaServer

/-- Without `ca_conf` nothing is done. -/
theorem C114_off (k : Conf) (w : World) (fs : FS) (h : k.caConf = none) :
    setup k w fs = ([], true) := by
  unfold setup; rw [h]; rfl

/-- Without a directory in `ca_conf` the server does not start, and nothing is done. -/
theorem C114_no_dir (k : Conf) (w : World) (fs : FS) (h : k.caConf ≠ none) (hd : caDir k = none) :
    setup k w fs = ([], false) := by
  unfold setup
  cases hc : k.caConf with
  | none => exact absurd hc h
  | some x => simp [hd]

/-- The directory is that of the first line of `ca_conf` that sets `CA_DIR`, in capitals or not. -/
theorem C114_ca_dir (ls : List Str) (d : Str) :
    caDirOf ls = some d ↔
      ∃ before l after f r, ls = before ++ l :: after ∧ ConfLine.getPair l = .pair f d r
        ∧ f.map Auth.toLower = (bytes "CA_DIR").map Auth.toLower
        ∧ ∀ x ∈ before, ∀ g v r', ConfLine.getPair x = .pair g v r' →
            g.map Auth.toLower ≠ (bytes "CA_DIR").map Auth.toLower := by
  induction ls with
  | nil => simp [caDirOf]
  | cons x xs ih =>
    have skip : (∀ g v r', ConfLine.getPair x = .pair g v r' →
          g.map Auth.toLower ≠ (bytes "CA_DIR").map Auth.toLower) →
        ((∃ before l after f r, xs = before ++ l :: after ∧ ConfLine.getPair l = .pair f d r
          ∧ f.map Auth.toLower = (bytes "CA_DIR").map Auth.toLower
          ∧ ∀ y ∈ before, ∀ g v r', ConfLine.getPair y = .pair g v r' →
              g.map Auth.toLower ≠ (bytes "CA_DIR").map Auth.toLower) ↔
        (∃ before l after f r, x :: xs = before ++ l :: after ∧ ConfLine.getPair l = .pair f d r
          ∧ f.map Auth.toLower = (bytes "CA_DIR").map Auth.toLower
          ∧ ∀ y ∈ before, ∀ g v r', ConfLine.getPair y = .pair g v r' →
              g.map Auth.toLower ≠ (bytes "CA_DIR").map Auth.toLower)) := by
      intro hx
      constructor
      · rintro ⟨b, l, a, f, r, h1, h2, h3, h4⟩
        refine ⟨x :: b, l, a, f, r, by rw [h1]; rfl, h2, h3, ?_⟩
        intro y hy
        rcases List.mem_cons.1 hy with rfl | hy
        · exact hx
        · exact h4 y hy
      · rintro ⟨b, l, a, f, r, h1, h2, h3, h4⟩
        cases b with
        | nil =>
          injection h1 with h1 _
          subst h1
          exact absurd h3 (hx f d r h2)
        | cons y b =>
          injection h1 with _ h1
          exact ⟨b, l, a, f, r, h1, h2, h3, fun z hz => h4 z (List.mem_cons_of_mem _ hz)⟩
    cases hp : ConfLine.getPair x with
    | pair f v r =>
      by_cases hf : f.map Auth.toLower = (bytes "CA_DIR").map Auth.toLower
      · rw [caDirOf, hp]
        simp only [if_pos hf]
        constructor
        · intro h
          injection h with h
          subst h
          exact ⟨[], x, xs, f, r, rfl, hp, hf, (fun y hy => by cases hy)⟩
        · rintro ⟨b, l, a, f', r', h1, h2, h3, h4⟩
          cases b with
          | nil =>
            injection h1 with h1 _
            subst h1
            rw [hp] at h2
            injection h2 with _ h2 _
            rw [h2]
          | cons y b =>
            injection h1 with h1 _
            subst h1
            exact absurd hf (h4 x (List.mem_cons_self ..) f v r hp)
      · rw [caDirOf, hp]
        simp only [if_neg hf]
        rw [ih]
        apply skip
        intro g v' r' h
        rw [hp] at h
        injection h with h _ _
        rw [← h]
        exact hf
    | error => rw [caDirOf, hp]; simp only; rw [ih]; exact skip (fun g v r h => by rw [hp] at h; cases h)
    | blank => rw [caDirOf, hp]; simp only; rw [ih]; exact skip (fun g v r h => by rw [hp] at h; cases h)
    | undefined => rw [caDirOf, hp]; simp only; rw [ih]; exact skip (fun g v r h => by rw [hp] at h; cases h)

/-- When the server says that it has set up an authority where there was none, all that it needs is
there: the directory, the file for Diffie-Hellman, the certificates and the key; and the list of revoked
certificates, unless it has a path of its own (`C114_crl_violated`). -/
theorem C114_ready (k : Conf) (w : World) (fs : FS) (d : Str) (hc : caDir k = some d)
    (hw : WorldOk k d w) (ha : Apart k d) (hd : fs d ≠ some .dir) (h : (setup k w fs).2 = true) :
    Ready k d (runAll fs (setup k w fs).1)
    ∧ (k.crl = none → k.caName ≠ [] →
      runAll fs (setup k w fs).1 (d ++ bytes "/CA_" ++ k.caName ++ bytes ".crl") ≠ none) := by
  rw [setup_eq hc] at h ⊢
  unfold setupIn at h ⊢
  obtain ⟨r1, h, e⟩ := next_ok h
  rw [e]
  have hdh := dhfile_ok hw r1
  have hd1 := dhfile_dir (fs := fs) hw ha
  revert h hdh hd1
  generalize runAll fs (dhfile k w fs).1 = fs1
  intro h hdh hd1
  obtain ⟨r2, h, e⟩ := next_ok h
  rw [e]
  obtain ⟨i1, i2⟩ := initOrWipe_ok r2
  rw [i2] at h ⊢
  have hr := init_ready hw ha (by rw [hd1]; exact hd) hdh i1
  refine ⟨crl_ready hw ha hr, ?_⟩
  intro h1 h2
  have := crl_there hw h2 h1 h
  have e1 : bytes "/CA_" = [slash] ++ bytes "CA_" := by decide
  rw [e1, ← List.append_assoc d]
  exact this

/-- An authority that is there is left alone: nothing is removed, and nothing is written but the file for
Diffie-Hellman and, by `burp_ca`, in the directory; and if that file and the list of revoked certificates
are there, nothing at all. -/
theorem C114_existing (k : Conf) (w : World) (fs : FS) (d : Str) (hc : caDir k = some d)
    (hw : WorldOk k d w) (ha : Apart k d) (hd : fs d = some .dir) :
    (∀ o ∈ (setup k w fs).1, ∃ p n, o = .put p n ∧ (p = k.dhfile ∨ below d p = true))
    ∧ (fs k.dhfile ≠ none →
        (k.caName = [] ∨ fs (k.crl.getD (d ++ bytes "/CA_" ++ k.caName ++ bytes ".crl")) ≠ none) →
        setup k w fs = ([], true)) := by
  rw [setup_eq hc]
  obtain ⟨h1, h2⟩ := existing_ops hw ha hd
  refine ⟨?_, ?_⟩
  · intro o ho
    obtain ⟨p, n, rfl⟩ := h2 o ho
    exact ⟨p, n, rfl, h1 _ ho⟩
  · intro h3 h4
    have e1 : dhfile k w fs = ([], true) := by
      unfold dhfile
      rw [if_pos (by cases hh : fs k.dhfile with
        | none => exact absurd hh h3
        | some x => rfl)]
    have e2 : initOrWipe k w d fs = ([], true) := by
      unfold initOrWipe init
      rw [if_pos hd]
      rfl
    have e3 : crl k w d fs = ([], true) := by
      unfold crl
      by_cases hn : k.caName = []
      · rw [if_pos hn]
      · rw [if_neg hn]
        have h5 := h4.resolve_left hn
        have hp : crlPath k d = k.crl.getD (d ++ bytes "/CA_" ++ k.caName ++ bytes ".crl") := by
          unfold crlPath
          cases k.crl with
          | some p => rfl
          | none =>
            have e1 : bytes "/CA_" = [slash] ++ bytes "CA_" := by decide
            simp only [Option.getD_none]
            rw [e1, ← List.append_assoc d]
        rw [hp]
        rw [if_pos (by
          revert h5
          generalize fs _ = x
          intro h5
          cases x with
          | none => exact absurd rfl h5
          | some x => rfl)]
    unfold setupIn
    rw [next_of_ok (by rw [e1]), e1]
    show ([] ++ (next fs (initOrWipe k w d fs) _).1, (next fs (initOrWipe k w d fs) _).2) = _
    rw [next_of_ok (by rw [e2]), e2]
    show ([] ++ ([] ++ (crl k w d fs).1), (crl k w d fs).2) = _
    rw [e3]
    rfl

/-- Once it is set up, later starts do nothing, whatever `burp_ca` would do then. -/
theorem C114_once (k : Conf) (w w' : World) (fs : FS) (d : Str) (hc : caDir k = some d)
    (hw : WorldOk k d w) (hw' : WorldOk k d w') (ha : Apart k d) (hd : fs d ≠ some .dir)
    (hcrl : k.crl = none) (h : (setup k w fs).2 = true) :
    setup k w' (runAll fs (setup k w fs).1) = ([], true) := by
  obtain ⟨hr, h2⟩ := C114_ready k w fs d hc hw ha hd h
  refine (C114_existing k w' _ d hc hw' ha hr.dir).2 hr.dh ?_
  by_cases hn : k.caName = []
  · exact Or.inl hn
  · right
    rw [hcrl]
    exact h2 hcrl hn

/-- However a setup ends, if it is not cut, with success or with failure: either there is no directory, so that
the next start begins again, or all is there but perhaps the list of revoked certificates, which the next start
makes. -/
theorem C114_all_or_nothing (k : Conf) (w : World) (fs : FS) (d : Str) (hc : caDir k = some d)
    (hw : WorldOk k d w) (ha : Apart k d) (hd : fs d ≠ some .dir) :
    runAll fs (setup k w fs).1 d ≠ some .dir ∨ Ready k d (runAll fs (setup k w fs).1) := by
  rw [setup_eq hc]
  unfold setupIn
  have hd1 := dhfile_dir (fs := fs) hw ha
  by_cases r1 : (dhfile k w fs).2 = true
  · have hdh := dhfile_ok hw r1
    rw [next_of_ok r1]
    rw [runAll_append]
    revert hdh hd1
    generalize runAll fs (dhfile k w fs).1 = fs1
    intro hd1 hdh
    by_cases r2 : (initOrWipe k w d fs1).2 = true
    · obtain ⟨i1, i2⟩ := initOrWipe_ok r2
      have hr := init_ready hw ha (by rw [hd1]; exact hd) hdh i1
      right
      rw [next_of_ok r2, runAll_append, i2]
      exact crl_ready hw ha hr
    · have r2' : (initOrWipe k w d fs1).2 = false := by simpa using r2
      left
      rw [next_of_fail r2', initOrWipe_fail r2']
      exact (by decide)
  · left
    rw [next_of_fail (by simpa using r1), hd1]
    exact hd

/-- Wherever the setup is cut, nothing outside of the directory has changed but the four files of the
settings. -/
theorem C114_only (k : Conf) (w : World) (fs : FS) (d q : Str) (n : Nat) (hc : caDir k = some d)
    (hw : WorldOk k d w) (hq : below d q = false)
    (ho : q ∉ [k.sslCertCa, k.sslCert, k.sslKey, k.dhfile]) :
    runAll fs ((setup k w fs).1.take n) q = fs q := by
  rw [setup_eq hc]
  simp only [List.mem_cons, List.not_mem_nil, or_false, not_or] at ho
  apply run_elsewhere
  · rintro o h rfl
    rcases within_setup hw fs o (List.mem_of_mem_take h) with h | h | h | h | h
    · rw [h] at hq; cases hq
    · exact ho.1 h
    · exact ho.2.1 h
    · exact ho.2.2.1 h
    · exact ho.2.2.2 h
  · intro e h
    rw [wipes_only hw fs e (List.mem_of_mem_take h)]
    exact hq

/-- A start that is cut before the directory is there is made good by any later one. -/
theorem C114_cut_partial (k : Conf) (w w' : World) (fs : FS) (d : Str) (n : Nat) (hc : caDir k = some d)
    (hw' : WorldOk k d w') (ha : Apart k d)
    (hcut : runAll fs ((setup k w fs).1.take n) d ≠ some .dir)
    (h : (setup k w' (runAll fs ((setup k w fs).1.take n))).2 = true) :
    Ready k d (starts k fs [(w, some n), (w', none)]) :=
  (C114_ready k w' _ d hc hw' ha hcut h).1

/-- A directory without the certificate of the server stays one for ever. -/
theorem stays_without (k : Conf) (d : Str) (hc : caDir k = some d) (ha : Apart k d)
    (ws : List (World × Option Nat)) : ∀ fs : FS, (∀ w ∈ ws, WorldOk k d w.1) → fs d = some .dir →
    starts k fs ws k.sslCert = fs k.sslCert ∧ starts k fs ws d = some .dir := by
  induction ws with
  | nil => intro fs _ h; exact ⟨rfl, h⟩
  | cons x ws ih =>
    intro fs hws hd
    obtain ⟨w, c⟩ := x
    have hw := hws _ (List.mem_cons_self ..)
    have hd2 := existing_dir hw ha hd
    obtain ⟨h1, h2⟩ := existing_ops hw ha hd
    have hsub : ∀ ops, (∀ o ∈ ops, o ∈ (setupIn k w d fs).1) →
        runAll fs ops k.sslCert = fs k.sslCert ∧ runAll fs ops d = some .dir := by
      intro ops hsub
      refine ⟨puts_outside (fun o ho => h2 o (hsub o ho)) ?_,
        puts_dir (fun o ho => h2 o (hsub o ho)) (fun n hn => hd2 n (hsub _ hn)) hd⟩
      intro o ho
      rcases h1 o (hsub o ho) with h | h
      · rw [h]
        have hnd := ha.distinct
        simp only [List.nodup_cons, List.mem_cons, List.not_mem_nil, or_false, not_or] at hnd
        exact Ne.symm hnd.2.1.2
      · exact ne_of_below h (ha.outside k.sslCert (by simp))
    cases c with
    | none =>
      rw [starts, setup_eq hc]
      obtain ⟨e1, e2⟩ := hsub _ (fun o ho => ho)
      obtain ⟨e3, e4⟩ := ih _ (fun w hw => hws w (List.mem_cons_of_mem _ hw)) e2
      exact ⟨e3.trans e1, e4⟩
    | some n =>
      rw [starts, setup_eq hc]
      obtain ⟨e1, e2⟩ := hsub _ (fun o ho => List.mem_of_mem_take ho)
      obtain ⟨e3, e4⟩ := ih _ (fun w hw => hws w (List.mem_cons_of_mem _ hw)) e2
      exact ⟨e3.trans e1, e4⟩

/-! ## A server -/

/-- A configuration. -/
def caConf : Conf where
  caConf := some (some (bytes "# CA\nCA_DIR = /c\n"))
  caName := bytes "burpCA"
  serverName := bytes "srv"
  sslCert := bytes "/s.pem"
  sslCertCa := bytes "/a.pem"
  sslKey := bytes "/s.key"
  dhfile := bytes "/dh.pem"
  crl := none

theorem caConf_dir : caDir caConf = some (bytes "/c") := by decide

/-- `burp_ca`: it does not start where there is something. -/
def caBurp : World
  | .dhfile, _ => ([.put (bytes "/dh.pem") (.file (bytes "dh"))], true)
  | .init, fs => if (fs (bytes "/c")).isSome then ([], false)
    else ([.put (bytes "/c") .dir, .put (bytes "/c/CA_burpCA.crt") (.file (bytes "new"))], true)
  | .request, _ => ([.put (bytes "/c/srv.key") (.file (bytes "key"))], true)
  | .sign, _ => ([.put (bytes "/c/srv.crt") (.file (bytes "crt"))], true)
  | .crl, _ => ([.put (bytes "/c/CA_burpCA.crl") (.file (bytes "crl"))], true)

theorem caBurp_ok : WorldOk caConf (bytes "/c") caBurp := by
  refine ⟨?_, ?_, ?_, ?_, ?_, ?_, ?_⟩
  · intro s fs o ho
    cases s with
    | init =>
      simp only [caBurp] at ho
      split at ho
      · cases ho
      · rcases List.mem_cons.1 ho with rfl | ho
        · exact ⟨_, _, rfl⟩
        · cases List.mem_singleton.1 ho; exact ⟨_, _, rfl⟩
    | _ => cases List.mem_singleton.1 ho; exact ⟨_, _, rfl⟩
  · intro fs o ho
    cases List.mem_singleton.1 ho
    decide
  · intro s fs hs o ho
    cases s with
    | dhfile => exact absurd rfl hs
    | init =>
      simp only [caBurp] at ho
      split at ho
      · cases ho
      · rcases List.mem_cons.1 ho with rfl | ho
        · decide
        · cases List.mem_singleton.1 ho; decide
    | _ => cases List.mem_singleton.1 ho; decide
  · intro s fs n hn
    cases s with
    | init =>
      simp only [caBurp] at hn
      split at hn
      · cases hn
      · simp only [List.mem_cons, List.not_mem_nil, or_false] at hn
        rcases hn with hn | hn
        · injection hn
        · injection hn with hn _
          exact absurd hn (by decide)
    | _ =>
      have hn := List.mem_singleton.1 hn
      injection hn with hn _
      exact absurd hn (by decide)
  · intro fs _
    exact (by decide : some (Node.file (bytes "dh")) ≠ none)
  · intro fs h
    simp only [caBurp] at h ⊢
    split
    · next hs => rw [if_pos hs] at h; cases h
    · simp only [runAll, List.foldl, CaServer.Op.run]
      rw [if_neg (by decide)]
      rfl
  · intro fs _
    simp only [caBurp, runAll, List.foldl, CaServer.Op.run]
    rw [if_pos (by decide)]
    exact (by decide)

theorem caConf_apart : Apart caConf (bytes "/c") := by
  refine ⟨?_, ?_, ?_⟩
  · decide
  · decide
  · decide

/-- A server with certificates of its own. -/
def caFs : FS := fun p =>
  if p = bytes "/s.pem" then some (.file (bytes "own")) else none

/-- C114 fails if the server is killed while it sets up the authority: from then on it takes the directory
for a whole authority, and no start ever makes the certificate. -/
theorem C114_crash_violated :
    ∃ (k : Conf) (d : Str) (w : World) (fs : FS) (n : Nat), caDir k = some d ∧ WorldOk k d w ∧ Apart k d
      ∧ (setup k w fs).2 = true
      ∧ ∀ ws : List (World × Option Nat), (∀ w ∈ ws, WorldOk k d w.1) →
          starts k fs ((w, some n) :: ws) k.sslCert = none := by
  refine ⟨caConf, bytes "/c", caBurp, fun _ => none, 4, caConf_dir, caBurp_ok, caConf_apart, by decide +kernel, ?_⟩
  intro ws hws
  rw [starts]
  rw [(stays_without caConf (bytes "/c") caConf_dir caConf_apart ws _ hws (by decide +kernel)).1]
  decide +kernel

/-- C114 fails for a directory that is a link to another place: the server takes it for one that is not
there, `burp_ca` refuses, and the link is removed. The next start makes another authority, which no client
knows. -/
theorem C114_link_violated :
    ∃ (k : Conf) (d target : Str) (w : World) (fs : FS), caDir k = some d ∧ WorldOk k d w ∧ Apart k d
      ∧ fs d = some (.link target) ∧ fs target = some .dir
      ∧ (setup k w fs).2 = false ∧ runAll fs (setup k w fs).1 d = none
      ∧ (setup k w (runAll fs (setup k w fs).1)).2 = true
      ∧ starts k fs [(w, none), (w, none)] (d ++ bytes "/CA_" ++ k.caName ++ bytes ".crt")
        = some (.file (bytes "new")) := by
  refine ⟨caConf, bytes "/c", bytes "/srv", caBurp,
    fun p => if p = bytes "/c" then some (.link (bytes "/srv")) else if p = bytes "/srv" then some .dir else none,
    caConf_dir, caBurp_ok, caConf_apart, ?_⟩
  decide +kernel

/-- C114 fails for certificates that were there before: they are removed when an authority is made, and
are gone even if that fails. -/
theorem C114_lost_violated :
    ∃ (k : Conf) (d : Str) (w : World) (fs : FS) (own : Str), caDir k = some d ∧ WorldOk k d w ∧ Apart k d
      ∧ fs k.sslCert = some (.file own) ∧ (setup k w fs).2 = false
      ∧ runAll fs (setup k w fs).1 k.sslCert = none := by
  refine ⟨caConf, bytes "/c", fun s fs => if s = .sign then ([], true) else caBurp s fs, caFs, bytes "own",
    caConf_dir, ?_, caConf_apart, by decide +kernel, by decide +kernel, by decide +kernel⟩
  refine ⟨?_, caBurp_ok.dh_only, ?_, ?_, caBurp_ok.dh, caBurp_ok.made, caBurp_ok.crlMade⟩
  · intro s fs
    by_cases hs : s = .sign
    · subst hs; intro o ho; cases ho
    · simp only [if_neg hs]; exact caBurp_ok.creates s fs
  · intro s fs
    by_cases hs : s = .sign
    · subst hs; intro _ o ho; cases ho
    · simp only [if_neg hs]; exact caBurp_ok.in_dir s fs
  · intro s fs
    by_cases hs : s = .sign
    · subst hs; intro n hn; cases hn
    · simp only [if_neg hs]; exact caBurp_ok.dir_kept s fs

/-- C114 fails for a list of revoked certificates with a path of its own: `burp_ca` is not told the path,
so after a success there still is no list at that path. -/
theorem C114_crl_violated (k : Conf) (w : World) (fs : FS) (d p : Str) (hc : caDir k = some d)
    (hw : WorldOk k d w) (_hcrl : k.crl = some p) (hp : below d p = false)
    (ho : p ∉ [k.sslCertCa, k.sslCert, k.sslKey, k.dhfile]) (hn : fs p = none) :
    runAll fs (setup k w fs).1 p = none := by
  have := C114_only k w fs d p (setup k w fs).1.length hc hw hp ho
  rw [List.take_length] at this
  rw [this]
  exact hn

/-- All is made. -/
example : (setup caConf caBurp caFs).2 = true
    ∧ runAll caFs (setup caConf caBurp caFs).1 (bytes "/s.pem") = some (.link (bytes "/c/srv.crt"))
    ∧ runAll caFs (setup caConf caBurp caFs).1 (bytes "/a.pem") = some (.link (bytes "/c/CA_burpCA.crt"))
    ∧ runAll caFs (setup caConf caBurp caFs).1 (bytes "/s.key") = some (.link (bytes "/c/srv.key"))
    ∧ runAll caFs (setup caConf caBurp caFs).1 (bytes "/c/CA_burpCA.crl") = some (.file (bytes "crl")) := by
  decide +kernel

/-- A certificate that is where it is made is not removed. -/
example : (setup { caConf with sslCert := bytes "/c/srv.crt" } caBurp caFs).2 = true
    ∧ Op.del (bytes "/c/srv.crt") ∉ (setup { caConf with sslCert := bytes "/c/srv.crt" } caBurp caFs).1 := by
  decide +kernel

/-- A failure leaves no directory. -/
example : (setup caConf (fun s fs => if s = .sign then ([], false) else caBurp s fs) caFs).2 = false
    ∧ runAll caFs (setup caConf (fun s fs => if s = .sign then ([], false) else caBurp s fs) caFs).1
      (bytes "/c") = none
    ∧ runAll caFs (setup caConf (fun s fs => if s = .sign then ([], false) else caBurp s fs) caFs).1
      (bytes "/c/CA_burpCA.crt") = none := by
  decide +kernel

/-- A list of revoked certificates elsewhere. -/
example : (setup { caConf with crl := some (bytes "/r.crl") } caBurp caFs).2 = true
    ∧ runAll caFs (setup { caConf with crl := some (bytes "/r.crl") } caBurp caFs).1 (bytes "/r.crl") = none := by
  decide +kernel

/-- The line that is taken. -/
example : caDirOf [bytes "x = /y\n", bytes "ca_dir = /z\n", bytes "CA_DIR = /w\n"] = some (bytes "/z") := by
  decide +kernel

end Verif
