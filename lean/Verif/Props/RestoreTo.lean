import Verif.Lemmas.RestoreTo
import Verif.Props.Confine

/-!
# C120: things are restored to the directory that was named, which is made if it is not there
-/

namespace Verif
open Confine RestoreTo

/-- **C120.** The directory that is found is what the option names, all links followed: all that leads to it are
directories, and it is there and no link. It was there before, and nothing is changed; or there was nothing with that
name, and it is made, and nothing else is changed. -/
theorem C120_place (fs : FS) (cwd : List Name) (pre : Str) (hg : GoodFS fs) (hc : RealDir fs cwd) (hn : NoNul pre)
    (d : List Name) (fs' : FS) (h : desiredDir (some cwd) pre fs = (some d, fs')) :
    Names fs' cwd pre d
    ∧ (∀ q, q <+: d → q ≠ d → fs' q = some .dir) ∧ fs' d ≠ none ∧ (∀ t, fs' d ≠ some (.lnk t))
    ∧ ((fs' = fs ∧ Names fs cwd pre d)
      ∨ (fs d = none ∧ (∀ x, ¬ Names fs cwd pre x) ∧ ∀ q, fs' q = if q = d then some .dir else fs q)) := by
  rcases desired_cases hg hc hn with ⟨x, h1, h2, h3⟩ | ⟨h1, _⟩ | ⟨x, h1, h2, _, h4, h5, _, h6⟩
  · rw [h1] at h
    simp only [Prod.mk.injEq, Option.some.injEq] at h
    obtain ⟨hx, hf⟩ := h
    subst hx; subst hf
    exact ⟨h2, h3.dirs, h3.node.1, h3.node.2, .inl ⟨rfl, h2⟩⟩
  · rw [h1] at h; simp at h
  · rw [h1] at h
    simp only [Prod.mk.injEq, Option.some.injEq] at h
    obtain ⟨hx, hf⟩ := h
    subst hx; subst hf
    exact ⟨h4, h5.dirs, h5.node.1, h5.node.2, .inr ⟨h2, fun y hy => (by
      unfold Names at hy
      rw [h6] at hy
      cases hy), fun q => rfl⟩⟩

/-- **C120.** If the option names something that is there, that is used. -/
theorem C120_found (fs : FS) (cwd : List Name) (pre : Str) (hg : GoodFS fs) (hc : RealDir fs cwd) (hn : NoNul pre)
    (d : List Name) (h : Names fs cwd pre d) : desiredDir (some cwd) pre fs = (some d, fs) := by
  rcases desired_cases hg hc hn with ⟨x, h1, h2, _⟩ | ⟨_, h2⟩ | ⟨x, _, _, _, _, _, _, h6⟩
  · unfold Names at h h2
    rw [h] at h2
    injection h2 with h2
    rw [h1, h2]
  · exact absurd h (h2 d)
  · unfold Names at h
    rw [h6] at h
    cases h

/-- **C120.** If there is nothing with that name, but what is named without the last part is a directory, then it is
made there. -/
theorem C120_new (fs : FS) (cwd : List Name) (up c : Str) (hg : GoodFS fs) (hc : RealDir fs cwd) (hn : NoNul (up ++ slash :: c))
    (hup : up ≠ []) (hcs : slash ∉ c) (hplain : isStay c = false ∧ isUp c = false) (d : List Name)
    (h : Names fs cwd up d) (hd : fs d = some .dir) (hnone : fs (d ++ [c]) = none) :
    (desiredDir (some cwd) (up ++ slash :: c) fs).1 = some (d ++ [c])
    ∧ (desiredDir (some cwd) (up ++ slash :: c) fs).2 (d ++ [c]) = some .dir := by
  obtain ⟨q, hq1, hq2⟩ := wanted_names hg hc up
  have hhead : (up ++ slash :: c).head? = up.head? := by
    cases up with
    | nil => exact absurd rfl hup
    | cons a b => rfl
  have hw : wanted (some cwd) (up ++ slash :: c) = some (q ++ [c]) := by
    unfold wanted at hq1 ⊢
    rw [hhead]
    by_cases hs : up.head? = some slash
    · rw [if_pos hs] at hq1 ⊢
      injection hq1 with hq1
      rw [parts_snoc hcs, hq1]
    · rw [if_neg hs] at hq1 ⊢
      injection hq1 with hq1
      have hsub : sub (up ++ slash :: c) = sub up ++ [c] := by
        cases up with
        | nil => exact absurd rfl hup
        | cons a b =>
          have ha : a ≠ slash := fun e => hs (by rw [e]; rfl)
          unfold sub
          simp only [List.cons_append]
          rw [if_neg ha, if_neg ha, if_neg (by simp), if_neg (by simp), ← List.cons_append, parts_snoc hcs]
      rw [← hq1]
      show some (cwd ++ sub (up ++ slash :: c)) = _
      rw [hsub, List.append_assoc]
  have hqd : realpath fs q = .ok d := by rw [hq2]; exact h
  have hno : realpath fs (q ++ [c]) = .noent := by
    rw [realpath_walkR] at hqd ⊢
    obtain ⟨k, _, hk⟩ := walk_append (b := [c]) hqd
    rw [hk, walkR, if_pos hd, if_neg (by rw [hplain.1]; decide), if_neg (by rw [hplain.2]; decide), hnone]
  have htrim : trim (q ++ [c]) = q ++ [c] := by
    unfold trim
    rw [List.reverse_append]
    show (List.dropWhile _ (c :: q.reverse)).reverse = _
    rw [List.dropWhile_cons_of_neg (by
      have : c ≠ [] := fun e => by rw [e] at hplain; exact absurd hplain.1 (by decide)
      simpa using this)]
    simp
  have hloc : locate fs (q ++ [c]) = .entry d c := by
    rw [locate_snoc, hqd]
    simp only
    rw [if_pos hd, if_neg (by rw [hplain.1]; decide), if_neg (by rw [hplain.2]; decide)]
  have hmk : (mkdir ⟨fs, 0, []⟩ (trim (q ++ [c]))).2.fs = put fs (d ++ [c]) (some .dir) := by
    rw [htrim]
    unfold mkdir make
    rw [hloc]
    simp only
    rw [if_pos hnone]
    rfl
  have hnew : put fs (d ++ [c]) (some .dir) (d ++ [c]) = some .dir := by
    show (if d ++ [c] = d ++ [c] then _ else _) = _
    rw [if_pos rfl]
  have hre : realpath (put fs (d ++ [c]) (some .dir)) (q ++ [c]) = .ok (d ++ [c]) := by
    rcases mkdir_cases hg (q ++ [c]) with h1 | ⟨x, _, _, h3, h4, _⟩
    · rw [hmk] at h1
      rw [← h1, hnew] at hnone
      cases hnone
    · rw [hmk] at h3
      rw [h3, h4]
      have : put fs x (some .dir) (d ++ [c]) = some .dir := by rw [← h3]; exact hnew
      by_cases hx : d ++ [c] = x
      · rw [hx]
      · exfalso
        have h5 : put fs x (some .dir) (d ++ [c]) = fs (d ++ [c]) := by
          show (if d ++ [c] = x then _ else _) = _
          rw [if_neg hx]
        rw [h5, hnone] at this
        cases this
  unfold desiredDir
  rw [hw]
  simp only
  rw [hno]
  simp only
  rw [hmk, hre]
  exact ⟨rfl, hnew⟩

/-- **C120.** If no directory is named, or it can not be found or made, nothing is changed and nothing is restored. -/
theorem C120_failure (o : Options) (fs : FS) (next : Nat) (es : List Entry) (cwd : List Name) (pre : Option Str)
    (hg : GoodFS fs) (hc : RealDir fs cwd) (hn : ∀ x, pre = some x → NoNul x)
    (h : (restoreTo o (some cwd) pre fs next es).1 = false) :
    (restoreTo o (some cwd) pre fs next es).2 = ⟨fs, next, []⟩ := by
  unfold restoreTo at h ⊢
  cases pre with
  | none => rfl
  | some x =>
    simp only at h ⊢
    by_cases hx : x = [slash]
    · rw [if_pos hx] at h; cases h
    · rw [if_neg hx] at h ⊢
      rcases desired_cases hg hc (hn x rfl) with ⟨d, h1, _⟩ | ⟨h1, _⟩ | ⟨d, h1, _⟩
      · rw [h1] at h; cases h
      · rw [h1]
      · rw [h1] at h; cases h

/-- **C120.** Whatever the server sends, things are only changed at the place that the option names, and below it; if
that is not a directory, nothing is changed. Not for sockets, and not for metadata of directories with a path with `.`
or `..` or two slashes in it, as in C49. -/
theorem C120_confined_partial (o : Options) (fs : FS) (next : Nat) (es : List Entry) (cwd : List Name) (pre : Str)
    (hg : GoodFS fs) (hc : RealDir fs cwd) (hn : NoNul pre) (hroot : pre ≠ [slash])
    (hnul : ∀ e ∈ es, NoNul e.path) (hh : ∀ e ∈ es, ∀ e', stripped o e = some e' → Harmless e')
    (h : (restoreTo o (some cwd) (some pre) fs next es).1 = true) :
    ∃ d fs', Names fs' cwd pre d ∧ (fs' = fs ∨ (fs d = none ∧ fs' d = some .dir ∧ ∀ q, q ≠ d → fs' q = fs q))
      ∧ (∀ p, ¬ d <+: p → (restoreTo o (some cwd) (some pre) fs next es).2.fs p = fs p)
      ∧ (∀ p, .name p ∈ (restoreTo o (some cwd) (some pre) fs next es).2.effs → Below d p)
      ∧ (∀ p i, .data p i ∈ (restoreTo o (some cwd) (some pre) fs next es).2.effs → Below d p)
      ∧ (fs' d ≠ some .dir → (restoreTo o (some cwd) (some pre) fs next es).2.fs = fs
        ∧ (restoreTo o (some cwd) (some pre) fs next es).2.effs = []) := by
  unfold restoreTo at h ⊢
  simp only at h ⊢
  rw [if_neg hroot] at h ⊢
  have key : ∀ d fs', GoodFS fs' → Canon fs' d → Names fs' cwd pre d →
      (fs' = fs ∨ (fs d = none ∧ fs' d = some .dir ∧ ∀ q, q ≠ d → fs' q = fs q)) →
      ∃ d' fs'', Names fs'' cwd pre d' ∧ (fs'' = fs ∨ (fs d' = none ∧ fs'' d' = some .dir ∧ ∀ q, q ≠ d' → fs'' q = fs q))
      ∧ (∀ p, ¬ d' <+: p → (restore o d fs' next es).fs p = fs p)
      ∧ (∀ p, .name p ∈ (restore o d fs' next es).effs → Below d' p)
      ∧ (∀ p i, .data p i ∈ (restore o d fs' next es).effs → Below d' p)
      ∧ (fs'' d' ≠ some .dir → (restore o d fs' next es).fs = fs ∧ (restore o d fs' next es).effs = []) := by
    intro d fs' hg' hcan hnm hcase
    refine ⟨d, fs', hnm, hcase, ?_⟩
    have hsame : ∀ q, q ≠ d → fs' q = fs q := by
      rcases hcase with rfl | h
      · exact fun _ _ => rfl
      · exact h.2.2
    have hfd : fs' d ≠ some .dir → fs' = fs := by
      rcases hcase with h | h
      · exact fun _ => h
      · exact fun hne => absurd h.2.1 hne
    by_cases hd : fs' d = some .dir
    · have hreal : RealDir fs' d := ⟨fun q hq => by
        by_cases e : q = d
        · rw [e]; exact hd
        · exact hcan.dirs q hq e, hcan.plain⟩
      obtain ⟨h1, h2, h3⟩ := C49_names_partial o d fs' next es hg' hreal hnul hh
      refine ⟨fun p hp => ?_, h2, h3, fun hne => absurd hd hne⟩
      rw [h1 p (fun hb => hp hb.1)]
      exact hsame p (fun e => hp (by rw [e]; exact List.prefix_refl _))
    · obtain ⟨h1, h2⟩ := restore_file (o := o) hg' hcan hd es ⟨fs', next, []⟩ rfl
        (fun e he e' h => (hh e he e' h).socket)
      have h1 : (restore o d fs' next es).fs = fs' := h1
      have h2 : (restore o d fs' next es).effs = [] := h2
      refine ⟨fun p hp => ?_, fun p hp => ?_, fun p i hp => ?_, fun _ => ⟨h1.trans (hfd hd), h2⟩⟩
      · rw [h1]; exact hsame p (fun e => hp (by rw [e]; exact List.prefix_refl _))
      · rw [h2] at hp; cases hp
      · rw [h2] at hp; cases hp
  rcases desired_cases hg hc hn with ⟨d, h1, h2, h3⟩ | ⟨h1, _⟩ | ⟨d, h1, h2, h3, h4, h5, _⟩
  · rw [h1]
    exact key d fs hg h3 h2 (.inl rfl)
  · rw [h1] at h; cases h
  · rw [h1]
    refine key d _ h3 h5 h4 (.inr ⟨h2, ?_, fun q hq => ?_⟩)
    · show (if d = d then _ else _) = _
      rw [if_pos rfl]
    · show (if q = d then _ else fs q) = fs q
      rw [if_neg hq]

/-- **C120.** An option that starts with a slash means the same wherever the client is run. -/
theorem C120_absolute (cwd cwd' : Option (List Name)) (pre : Str) (fs : FS) (h : pre.head? = some slash) :
    desiredDir cwd pre fs = desiredDir cwd' pre fs := by
  unfold desiredDir wanted
  rw [if_pos h, if_pos h]

/-- **C120.** With `-d /`, entries whose paths start with a slash are restored to the same places wherever the client
is run. What is missing: paths that do not, as after stripping; see `C120_stripped_violated`. -/
theorem C120_root_partial (o : Options) (cwd cwd' : Option (List Name)) (fs : FS) (next : Nat) (es : List Entry)
    (h : ∀ e ∈ es, ∀ e', stripped o e = some e' → e'.path.head? = some slash ∧ (e'.hard = true → e'.link.head? = some slash)) :
    restoreTo o cwd (some [slash]) fs next es = restoreTo o cwd' (some [slash]) fs next es := by
  unfold restoreTo
  simp only [if_true]
  congr 1
  generalize (⟨fs, next, []⟩ : State) = s
  induction es generalizing s with
  | nil => rfl
  | cons e es ih =>
    rw [List.foldl_cons, List.foldl_cons]
    have hs : freeStep o (cwd.getD []) s e = freeStep o (cwd'.getD []) s e := by
      unfold freeStep
      rcases he : stripped o e with _ | e'
      · rfl
      · simp only
        obtain ⟨h1, h2⟩ := h e (by simp) e' he
        have hb : ∀ c, base c e'.path = [] := fun c => by unfold base; rw [if_pos h1]
        rw [hb, hb]
        have hact : ∀ d d' p, (e'.hard = true → d = d') → act s d p e' = act s d' p e' := by
          intro d d' p hd
          cases hhard : e'.hard with
          | true => rw [hd hhard]
          | false =>
            unfold act restoreLink
            rw [hhard]
            rfl
        rw [hact (base (cwd.getD []) e'.link) (base (cwd'.getD []) e'.link) _ (fun hh => by
          unfold base
          rw [if_pos (h2 hh), if_pos (h2 hh)])]
    rw [hs]
    exact ih (fun x hx => h x (List.mem_cons_of_mem _ hx)) _

/-! ## Cases -/

namespace RestoreTo

/-- The file system of `Verif/Props/Confine.lean`; the client is run in `/a`. -/
theorem cwd_real : RealDir world [bytes "a"] := realDir_take (by decide +kernel) (by decide +kernel)

/-- A directory that is there, one that is not, one too deep, and a file. -/
theorem some_cases :
    (desiredDir (some [bytes "a"]) (bytes "r") world).1 = some [bytes "a", bytes "r"]
    ∧ (desiredDir (some [bytes "a"]) (bytes "../a/./r/") world).1 = some [bytes "a", bytes "r"]
    ∧ (desiredDir (some [bytes "a"]) (bytes "/a/new/") world).1 = some [bytes "a", bytes "new"]
    ∧ (desiredDir (some [bytes "a"]) (bytes "/a/new/") world).2 [bytes "a", bytes "new"] = some .dir
    ∧ (desiredDir (some [bytes "a"]) (bytes "new/deep") world).1 = none
    ∧ (desiredDir (some [bytes "a"]) (bytes "/etc/pw") world).1 = some [bytes "etc", bytes "pw"]
    ∧ (desiredDir (some [bytes "a"]) [] world).1 = some [bytes "a"]
    ∧ (desiredDir none (bytes "r") world).1 = none := by decide +kernel

/-- An ordinary restore to a new directory. -/
theorem ordinary_new : (restoreTo opts (some [bytes "a"]) (some (bytes "new")) world 2 ordinary).1 = true
    ∧ (restoreTo opts (some [bytes "a"]) (some (bytes "new")) world 2 ordinary).2.fs [bytes "a", bytes "new", bytes "home"]
      = some .dir
    ∧ (restoreTo opts (some [bytes "a"]) (some (bytes "new")) world 2 ordinary).2.fs [bytes "etc", bytes "pw"]
      = some (.file 1) := by decide +kernel

end RestoreTo

/-! ## What does not hold -/

/-- C120 fails with `-d /` and stripped paths: what is left of the path does not start with a slash, so that it is
restored below the directory where the client is run. -/
theorem C120_stripped_violated : ∃ (o : Options) (fs : FS) (cwd : List Name) (e : Entry), GoodFS fs ∧ RealDir fs cwd
    ∧ e.path = bytes "/x/home" ∧ o.strip = 2
    ∧ (restoreTo o (some cwd) (some (bytes "/")) fs 2 [e]).1 = true
    ∧ (restoreTo o (some cwd) (some (bytes "/")) fs 2 [e]).2.fs (cwd ++ [bytes "home"]) = some .dir
    ∧ (restoreTo o (some cwd) (some (bytes "/")) fs 2 [e]).2.fs [bytes "home"] = none :=
  ⟨⟨2, none, false⟩, world, [bytes "a"], ⟨.directory, bytes "/x/home", [], false, .dir, false⟩, world_good,
    RestoreTo.cwd_real, rfl, rfl, by decide +kernel, by decide +kernel, by decide +kernel⟩

end Verif
