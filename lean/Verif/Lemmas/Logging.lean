import Verif.Spec.Logging

/-!
# Lemmas about warnings and messages
-/

namespace Verif.Logging

theorem Kept.refl (g : Lg) : Kept g g :=
  ⟨fun _ => List.prefix_rfl, List.prefix_rfl, List.prefix_rfl, List.prefix_rfl⟩

theorem Kept.trans {a b c : Lg} (h : Kept a b) (k : Kept b c) : Kept a c :=
  ⟨fun p => (h.files p).trans (k.files p), h.syslog.trans k.syslog, h.stdout.trans k.stdout, h.sent.trans k.sent⟩

theorem kept_logp (st text : Str) (g : Lg) : Kept g (logp st text g) := by
  unfold logp
  cases g.cur with
  | some p =>
    refine ⟨fun q => ?_, List.prefix_rfl, List.prefix_rfl, List.prefix_rfl⟩
    simp only
    split
    · next h => rw [h]; exact List.prefix_append _ _
    · exact List.prefix_rfl
  | none =>
    refine ⟨fun q => List.prefix_rfl, ?_, ?_, List.prefix_rfl⟩
    · simp only
      split
      · exact List.prefix_append _ _
      · exact List.prefix_rfl
    · simp only
      split
      · exact List.prefix_append _ _
      · exact List.prefix_rfl

theorem kept_send (c : Byte) (text : Str) (g : Lg) : Kept g (send c text g) := by
  unfold send
  split
  · exact Kept.refl _
  · exact ⟨fun _ => List.prefix_rfl, List.prefix_rfl, List.prefix_rfl, List.prefix_append _ _⟩

theorem kept_of {g a b : Lg} (h : Kept g a) (h1 : b.files = a.files) (h2 : b.syslog = a.syslog) (h3 : b.stdout = a.stdout)
    (h4 : b.sent = a.sent) : Kept g b :=
  ⟨fun p => h1 ▸ h.files p, h2 ▸ h.syslog, h3 ▸ h.stdout, h4 ▸ h.sent⟩

theorem kept_stdout (g : Lg) (x : Str) : Kept g { g with stdout := g.stdout ++ x } :=
  ⟨fun _ => List.prefix_rfl, List.prefix_rfl, List.prefix_append _ _, List.prefix_rfl⟩

theorem kept_step (g : Lg) (e : Ev) : Kept g (step g e) := by
  cases e with
  | plain st text => exact kept_logp _ _ _
  | warn conn est st text =>
    refine kept_of (a := if (conn && est) = true then { g with stdout := g.stdout ++ (bytes "\nWARNING: " ++ fit text) }
      else logp st (bytes "WARNING: " ++ fit text) (if conn = true then send cmdWarning (fit text) g else g)) ?_ rfl rfl rfl rfl
    split
    · exact kept_stdout _ _
    · refine Kept.trans ?_ (kept_logp _ _ _)
      split
      · exact kept_send _ _ _
      · exact Kept.refl _
  | msg conn est wants st text =>
    refine kept_of (a := if (conn && est) = true then { g with stdout := g.stdout ++ (bytes "\nMESSAGE: " ++ fit text) }
      else logp st (bytes "MESSAGE: " ++ fit text) (if (conn && wants) = true then send cmdMessage (fit text) g else g))
      ?_ rfl rfl rfl rfl
    split
    · exact kept_stdout _ _
    · refine Kept.trans ?_ (kept_logp _ _ _)
      split
      · exact kept_send _ _ _
      · exact Kept.refl _
  | recvd st c raw => exact kept_of (kept_logp st _ g) rfl rfl rfl rfl
  | set st path opens sys out =>
    have h0 : Kept g { g with cur := none } := kept_of (Kept.refl g) rfl rfl rfl rfl
    cases path with
    | none => exact kept_of h0 rfl rfl rfl rfl
    | some p =>
      have h1 := h0.trans (kept_logp st (bytes "Logging to " ++ p ++ bytes "\n") { g with cur := none })
      show Kept g (setLog st (some p) opens sys out g).2
      simp only [setLog]
      split
      · exact kept_of h1 rfl rfl rfl rfl
      · exact h1

theorem kept_run : ∀ (es : List Ev) (g : Lg), Kept g (run g es)
  | [], g => Kept.refl g
  | e :: es, g => (kept_step g e).trans (kept_run es (step g e))

theorem logp_warnings (st text : Str) (g : Lg) : (logp st text g).warnings = g.warnings := by
  unfold logp; cases g.cur <;> rfl

theorem send_warnings (c : Byte) (text : Str) (g : Lg) : (send c text g).warnings = g.warnings := by
  unfold send; split <;> rfl

theorem step_warnings (g : Lg) (e : Ev) : (step g e).warnings = g.warnings + (if isWarning e then 1 else 0) := by
  cases e with
  | plain st text => exact logp_warnings _ _ _
  | warn conn est st text =>
    simp only [step, logw, isWarning, if_true]
    cases conn <;> cases est <;> simp [logp_warnings, send_warnings]
  | msg conn est wants st text =>
    simp only [step, logm, isWarning]
    cases conn <;> cases est <;> cases wants <;> simp [logp_warnings, send_warnings]
  | recvd st c raw =>
    have : ([c] = bytes "w") ↔ c = cmdWarning := by
      have hw : bytes "w" = [cmdWarning] := by decide
      rw [hw]; simp
    simp only [step, logRecvd, isWarning, logp_warnings, decide_eq_true_eq, this]
    split <;> rfl
  | set st path opens sys out =>
    cases path with
    | none => rfl
    | some p =>
      simp only [step, setLog, isWarning]
      split <;> simp [logp_warnings]

theorem logp_file {g : Lg} {p : Str} (h : g.cur = some p) (st text : Str) :
    (logp st text g).cur = some p ∧ (logp st text g).files p = g.files p ++ (st ++ fit text)
    ∧ (logp st text g).sent = g.sent ∧ (logp st text g).warnings = g.warnings := by
  unfold logp
  simp only [h]
  simp

theorem fit_short {s : Str} (h : s.length ≤ 511) : fit s = s := List.take_of_length_le h

theorem send_cur (c : Byte) (text : Str) (g : Lg) : (send c text g).cur = g.cur ∧ (send c text g).files = g.files := by
  unfold send; split <;> exact ⟨rfl, rfl⟩

/-- A plain warning on this side. -/
theorem warn_plain {g : Lg} {p : Str} (hc : g.cur = some p) {t : Str} (h : Plain t) (st : Str) :
    (step g (.warn true false st (t ++ [10]))).cur = some p
    ∧ (step g (.warn true false st (t ++ [10]))).files p = g.files p ++ (st ++ bytes "WARNING: " ++ t ++ [10])
    ∧ (step g (.warn true false st (t ++ [10]))).sent = g.sent ++ [(cmdWarning, t ++ [10])] := by
  have hs := h.short
  have hw : (bytes "WARNING: ").length = 9 := by decide
  have h1 : fit (t ++ [10]) = t ++ [10] := fit_short (by simp; omega)
  have h2 : fit (bytes "WARNING: " ++ (t ++ [10])) = bytes "WARNING: " ++ (t ++ [10]) :=
    fit_short (by simp [hw]; omega)
  have hg := send_cur cmdWarning (t ++ [10]) g
  have hp := logp_file (hg.1.trans hc) st (bytes "WARNING: " ++ (t ++ [10]))
  simp only [step, logw, h1, Bool.and_false, if_true, Bool.false_eq_true, if_false]
  refine ⟨hp.1, ?_, ?_⟩
  · rw [hp.2.1, hg.2, h2]; simp
  · rw [hp.2.2.1]
    unfold send
    rw [if_neg (by simp)]

theorem cstr_self : ∀ {t : Str}, (0 : Byte) ∉ t → cstr t = t
  | [], _ => rfl
  | c :: t, h => by
    simp only [List.mem_cons, not_or] at h
    have hc : c ≠ 0 := fun e => h.1 e.symm
    have := cstr_self h.2
    unfold cstr at this ⊢
    rw [List.takeWhile_cons, if_pos (by simpa using hc), this]

theorem strip_plain {t : Str} (h : Plain t) : cstr ((t ++ [10]).reverse.dropWhile (· = 10)).reverse = t := by
  have h1 : ((t ++ [10]).reverse.dropWhile (· = 10)) = t.reverse := by
    rw [List.reverse_append, List.reverse_singleton, List.singleton_append, List.dropWhile_cons, if_pos (by decide)]
    cases hr : t.reverse with
    | nil => rfl
    | cons a b =>
      have ha : a ∈ t := by rw [← List.mem_reverse, hr]; exact List.mem_cons_self
      have : a ≠ 10 := fun e => h.one (e ▸ ha)
      rw [List.dropWhile_cons, if_neg (by simpa using this)]
  rw [h1, List.reverse_reverse]
  exact cstr_self h.nul

/-- A plain warning on the other side. -/
theorem recvd_plain {g : Lg} {p : Str} (hc : g.cur = some p) {t : Str} (h : Plain t) (st : Str) :
    (step g (.recvd st cmdWarning (t ++ [10]))).cur = some p
    ∧ (step g (.recvd st cmdWarning (t ++ [10]))).files p = g.files p ++ (st ++ bytes "WARNING: " ++ t ++ [10]) := by
  have hs := h.short
  have hw : (bytes "WARNING: ").length = 9 := by decide
  have hl : label cmdWarning ++ bytes ": " = bytes "WARNING: " := by decide
  have hn : bytes "\n" = [10] := by decide
  have h2 : fit (bytes "WARNING: " ++ t ++ [10]) = bytes "WARNING: " ++ t ++ [10] :=
    fit_short (by simp [hw]; omega)
  have hp := logp_file hc st (bytes "WARNING: " ++ t ++ [10])
  simp only [step, logRecvd, strip_plain h, hl, hn]
  refine ⟨hp.1, ?_⟩
  rw [hp.2.1, h2]; simp

theorem ofLines_cons (l : Str) (ls : List Str) : ofLines (l :: ls) = l ++ [10] ++ ofLines ls := by
  simp [ofLines]

theorem run_warn : ∀ (ws : List (Str × Str × Str)) (g : Lg) (p : Str), g.cur = some p → (∀ w ∈ ws, Plain w.2.2) →
    (run g (ws.map fun w => .warn true false w.1 (w.2.2 ++ [10]))).files p =
      g.files p ++ ofLines (ws.map fun w => w.1 ++ bytes "WARNING: " ++ w.2.2)
    ∧ (run g (ws.map fun w => .warn true false w.1 (w.2.2 ++ [10]))).sent =
      g.sent ++ ws.map (fun w => (cmdWarning, w.2.2 ++ [10]))
  | [], g, p, _, _ => by simp [run, ofLines]
  | w :: ws, g, p, hc, h => by
    obtain ⟨h1, h2, h3⟩ := warn_plain hc (h w List.mem_cons_self) w.1
    obtain ⟨h4, h5⟩ := run_warn ws _ p h1 (fun x hx => h x (List.mem_cons_of_mem _ hx))
    simp only [List.map_cons, ofLines_cons]
    constructor
    · refine h4.trans ?_
      rw [h2]; simp
    · refine h5.trans ?_
      rw [h3]; simp

theorem run_recvd : ∀ (ws : List (Str × Str × Str)) (g : Lg) (p : Str), g.cur = some p → (∀ w ∈ ws, Plain w.2.2) →
    (run g (ws.map fun w => .recvd w.2.1 cmdWarning (w.2.2 ++ [10]))).files p =
      g.files p ++ ofLines (ws.map fun w => w.2.1 ++ bytes "WARNING: " ++ w.2.2)
  | [], g, p, _, _ => by simp [run, ofLines]
  | w :: ws, g, p, hc, h => by
    obtain ⟨h1, h2⟩ := recvd_plain hc (h w List.mem_cons_self) w.2.1
    have h4 := run_recvd ws _ p h1 (fun x hx => h x (List.mem_cons_of_mem _ hx))
    simp only [List.map_cons, ofLines_cons]
    refine h4.trans ?_
    rw [h2]; simp

theorem zip_recvd : ∀ ws : List (Str × Str × Str),
    List.zipWith (fun st (m : Byte × Str) => Ev.recvd st m.1 m.2) (ws.map fun w => w.2.1)
      (ws.map fun w => (cmdWarning, w.2.2 ++ [10])) = ws.map fun w => .recvd w.2.1 cmdWarning (w.2.2 ++ [10])
  | [] => rfl
  | w :: ws => by simp only [List.map_cons, List.zipWith_cons_cons, zip_recvd ws]

theorem lineCount_append (a b : Str) : lineCount (a ++ b) = lineCount a + lineCount b := by
  unfold lineCount; rw [List.countP_append]

theorem lineCount_none {a : Str} (h : (10 : Byte) ∉ a) : lineCount a = 0 := by
  unfold lineCount
  rw [List.countP_eq_zero]
  intro c hc
  have : c ≠ 10 := fun e => h (e ▸ hc)
  simpa using this

end Verif.Logging
