import Verif.Lemmas.Confs
import Verif.Props.Strlist

/-!
# Lemmas about settings that are lists, and about what is worked out at the end
-/

namespace Verif.Confs
open Verif.Strlist Verif.ConfLine Verif.BackupNumber

theorem doAdd_perm (s : Bool) (x : Elem) (l : List Elem) : (doAdd s false x l).Perm (x :: l) := by
  induction l with
  | nil => exact List.Perm.refl _
  | cons y l ih =>
    rw [doAdd]
    simp only [Bool.false_and, Bool.false_eq_true, if_false]
    split
    · exact List.Perm.refl _
    · split
      · exact List.Perm.refl _
      · exact (List.Perm.cons y ih).trans (List.Perm.swap x y l)

theorem addTo_perm (o : Opt) (l : List Elem) (x : Elem) : (addTo o l x).Perm (l ++ [x]) := by
  unfold addTo
  refine List.Perm.trans ?_ (List.perm_append_comm (l₁ := [x]))
  split <;> exact doAdd_perm _ _ _

theorem addTo_plain {o : Opt} (h : o.info.flags.sorted = false) (l : List Elem) (x : Elem) : addTo o l x = l ++ [x] := by
  rw [addTo, h]
  exact C38_add_unsorted l x

theorem any_resets (f : Str) (ss : List Setting) :
    (ss.any (fun t => t.field = f && t.reset)) = true ↔ Resets f ss := by
  simp [Resets]

theorem resets_cons (f : Str) (s : Setting) (ss : List Setting) :
    Resets f (s :: ss) ↔ (s.field = f ∧ s.reset = true) ∨ Resets f ss := by
  simp [Resets]

open Classical in
/-- What remains of a list when more is said. -/
noncomputable def kept (f : Str) (ss : List Setting) (l : List Str) : List Str := if Resets f ss then [] else l

theorem applyAll_list {env : Env} {c c' : Confs} {ss : List Setting} (hn : ∀ s ∈ ss, s.field ≠ [])
    (hk : WellKinded c) (h : applyAll env c ss = some c') (o : Opt) (ho : o.isList) :
    (texts c' o).Perm (kept o.info.field ss (texts c o) ++ listFor o.info.field ss) ∧
    (o.info.flags.sorted = false → texts c' o = kept o.info.field ss (texts c o) ++ listFor o.info.field ss) := by
  induction ss generalizing c with
  | nil =>
    injection h with h
    subst h
    have : kept o.info.field [] (texts c o) = texts c o := by
      unfold kept; rw [if_neg]; rintro ⟨s, hs, _⟩; cases hs
    rw [this, listFor, List.append_nil]
    exact ⟨List.Perm.refl _, fun _ => rfl⟩
  | cons s ss ih =>
    simp only [applyAll] at h
    cases e : loadField env c s.field s.value s.reset with
    | none => rw [e] at h; cases h
    | some d =>
      rw [e] at h
      obtain ⟨hk', hs⟩ := loadField_spec (hn s (List.mem_cons_self ..)) hk e
      obtain ⟨ih1, ih2⟩ := ih (fun t ht => hn t (List.mem_cons_of_mem _ ht)) hk' h
      by_cases hf : s.field = o.info.field
      · have hd := (hs o).2.2 hf.symm ho
        by_cases hr : Resets o.info.field ss
        · have e1 : kept o.info.field ss (texts d o) = [] := by unfold kept; rw [if_pos hr]
          have e2 : kept o.info.field (s :: ss) (texts c o) = [] := by
            unfold kept; rw [if_pos ((resets_cons ..).mpr (Or.inr hr))]
          have e3 : listFor o.info.field (s :: ss) = listFor o.info.field ss := by
            rw [listFor, if_pos hf, if_pos ((any_resets ..).mpr hr)]
          rw [e1] at ih1 ih2; rw [e2, e3]
          exact ⟨ih1, ih2⟩
        · have e1 : kept o.info.field ss (texts d o) = texts d o := by unfold kept; rw [if_neg hr]
          have e3 : listFor o.info.field (s :: ss) = s.value :: listFor o.info.field ss := by
            rw [listFor, if_pos hf, if_neg (fun x => hr ((any_resets ..).mp x))]
          have e2 : kept o.info.field (s :: ss) (texts c o) = if s.reset then [] else texts c o := by
            unfold kept
            by_cases hs' : s.reset = true
            · rw [if_pos ((resets_cons ..).mpr (Or.inl ⟨hf, hs'⟩)), if_pos hs']
            · rw [if_neg, if_neg hs']
              rw [resets_cons]; rintro (⟨_, x⟩ | x)
              · exact hs' x
              · exact hr x
          have e4 : (if s.reset then [] else getLst c o).map Elem.path = if s.reset then [] else texts c o := by
            split <;> rfl
          rw [e1] at ih1 ih2; rw [e2, e3]
          have e5 : getLst d o = addTo o (if s.reset then [] else getLst c o)
              ⟨s.value, if o = .INCLUDE then 1 else 0⟩ := by
            simp only [getLst, hd]
          constructor
          · refine ih1.trans ?_
            have := (addTo_perm o (if s.reset then [] else getLst c o)
              ⟨s.value, if o = .INCLUDE then 1 else 0⟩).map Elem.path
            rw [List.map_append, e4] at this
            have := this.append_right (listFor o.info.field ss)
            rw [List.append_assoc] at this
            unfold texts at this ⊢
            rw [e5]
            exact this
          · intro hso
            rw [ih2 hso]
            have := congrArg (List.map Elem.path) (addTo_plain hso (if s.reset then [] else getLst c o)
              ⟨s.value, if o = .INCLUDE then 1 else 0⟩)
            rw [List.map_append, e4] at this
            have t : texts d o = (if s.reset then [] else texts c o) ++ [s.value] := by
              unfold texts at this ⊢; rw [e5]; exact this
            rw [t, List.append_assoc]; rfl
      · have hd := (hs o).1 (fun e => hf e.symm)
        have t : texts d o = texts c o := by unfold texts getLst; rw [hd]
        have e2 : kept o.info.field (s :: ss) (texts c o) = kept o.info.field ss (texts c o) := by
          unfold kept
          by_cases hr : Resets o.info.field ss
          · rw [if_pos hr, if_pos ((resets_cons ..).mpr (Or.inr hr))]
          · rw [if_neg hr, if_neg]
            rw [resets_cons]; rintro (⟨x, _⟩ | x)
            · exact hf x
            · exact hr x
        have e3 : listFor o.info.field (s :: ss) = listFor o.info.field ss := by
          rw [listFor, if_neg hf]
        rw [t] at ih1 ih2
        rw [e2, e3]
        exact ⟨ih1, ih2⟩

/-! ### What is worked out at the end -/

theorem setMaxExt_ne (c : Confs) {o p : Opt} (h : p ≠ o) : setMaxExt c o p = c p := by
  unfold setMaxExt
  cases getLst c o with
  | nil => rfl
  | cons _ _ => exact set_ne _ _ h

theorem finIncexcDirs_ne {c c' : Confs} {o : Opt} (h : finIncexcDirs c = some c') (ho : o ≠ .INCEXCDIR) : c' o = c o := by
  unfold finIncexcDirs at h
  split at h
  · cases h
  · split at h
    · cases h
    · split at h
      · cases h
      · cases h; exact set_ne _ _ ho

theorem finStartDirs_ne {c c' : Confs} {o : Opt} (h : finStartDirs c = some c') (h1 : o ≠ .FSCHGDIR)
    (h2 : o ≠ .STARTDIR) : c' o = c o := by
  unfold finStartDirs at h
  split at h
  · cases h
  · split at h
    · cases h; rw [set_ne _ _ h2, set_ne _ _ h1]
    · cases h

theorem finKeep_ne {c c' : Confs} {o : Opt} (h : finKeep c = some c') (h1 : o ≠ .KEEP) : c' o = c o := by
  unfold finKeep at h
  cases e : Retention.finaliseKeepArgs ((getLst c .KEEP).map (fun e => Cntr.atoi e.path)) with
  | none => rw [e] at h; cases h
  | some ks => rw [e] at h; cases h; exact set_ne _ _ h1

theorem bumpLast_length (l : List Int) : (Retention.bumpLast l).length = l.length := by
  induction l with
  | nil => rfl
  | cons a l ih =>
    cases l with
    | nil => rfl
    | cons b l => simp only [Retention.bumpLast, List.length_cons] at ih ⊢; rw [ih]

theorem finKeep_texts {c c' : Confs} (h : finKeep c = some c') : texts c' .KEEP = texts c .KEEP := by
  unfold finKeep at h
  cases e : Retention.finaliseKeepArgs ((getLst c .KEEP).map (fun e => Cntr.atoi e.path)) with
  | none => rw [e] at h; cases h
  | some ks =>
    rw [e] at h; cases h
    have hl : ks.length = (getLst c .KEEP).length := by
      unfold Retention.finaliseKeepArgs at e
      split at e
      · injection e with e
        rw [← e]
        split
        · rw [bumpLast_length, List.length_map]
        · rw [List.length_map]
      · cases e
    unfold texts
    rw [show getLst (set c .KEEP (.lst (List.zipWith (fun e k => { e with flag := k }) (getLst c .KEEP) ks))) .KEEP =
      List.zipWith (fun e k => { e with flag := k }) (getLst c .KEEP) ks by simp [getLst, set]]
    revert hl
    generalize getLst c .KEEP = l
    clear e
    induction l generalizing ks with
    | nil => intro _; cases ks <;> rfl
    | cons a l ih =>
      cases ks with
      | nil => intro h; cases h
      | cons k ks =>
        intro h
        simp only [List.zipWith_cons_cons, List.map_cons]
        rw [ih ks (by simpa using h)]

theorem finMaxChildren_ne {c c' : Confs} {l m o : Opt} (h : finMaxChildren c l m = some c') (h1 : o ≠ l) : c' o = c o := by
  unfold finMaxChildren at h
  cases e : maxChildrenLoop 5 (getLst c l) (getLst c m) with
  | none => rw [e] at h; cases h
  | some ks => rw [e] at h; cases h; exact set_ne _ _ h1

theorem ite_set_ne {p : Prop} [Decidable p] (c : Confs) {o q : Opt} (v : Val) (h : q ≠ o) :
    (if p then set c o v else c) q = c q := by
  split
  · exact set_ne _ _ h
  · rfl

theorem finPorts_ne {c : Confs} {o : Opt} (h1 : o ≠ .PORT_BACKUP) (h2 : o ≠ .PORT_RESTORE) (h3 : o ≠ .PORT_VERIFY)
    (h4 : o ≠ .PORT_LIST) (h5 : o ≠ .PORT_DELETE) : finPorts c o = c o := by
  unfold finPorts
  cases (getLst c .PORT).getLast? with
  | none => rfl
  | some p =>
    simp only
    split
    · rfl
    · rw [ite_set_ne _ _ h5, ite_set_ne _ _ h4, ite_set_ne _ _ h3, ite_set_ne _ _ h2, ite_set_ne _ _ h1]

theorem prePost_ne {c : Confs} {a b d o : Opt} (h1 : o ≠ b) (h2 : o ≠ d) : prePost c a b d o = c o := by
  unfold prePost
  cases getStr c a with
  | none => rfl
  | some _ => simp only; rw [set_ne _ _ h2, set_ne _ _ h1]

theorem prePostArg_ne {c : Confs} {a b d o : Opt} (h1 : o ≠ b) (h2 : o ≠ d) : prePostArg c a b d o = c o := by
  unfold prePostArg
  cases getLst c a with
  | nil => rfl
  | cons _ _ => simp only; rw [set_ne _ _ h2, set_ne _ _ h1]

/-- The settings before the scripts are dealt with, and that only what is in `derived` has changed. -/
theorem finish_cases {env : Env} {c c' : Confs} (h : finish env c = some c') :
    ∃ d, c' = finScripts d ∧ (∀ o, o ∉ [Opt.EXCFS, .INCFS, .INCEXT, .EXCEXT, .EXCOM, .INCLUDE, .INCEXCDIR, .FSCHGDIR,
      .STARTDIR, .KEEP, .LISTEN, .LISTEN_STATUS, .PORT_BACKUP, .PORT_RESTORE, .PORT_VERIFY, .PORT_LIST,
      .PORT_DELETE] → d o = c o) ∧ texts d .KEEP = texts c .KEEP := by
  unfold finish at h
  simp only at h
  obtain ⟨c1, h1, h⟩ := Option.bind_eq_some_iff.mp h
  obtain ⟨c2, h2, h⟩ := Option.bind_eq_some_iff.mp h
  obtain ⟨c3, h3, h⟩ := Option.bind_eq_some_iff.mp h
  obtain ⟨c4, h4, h⟩ := Option.bind_eq_some_iff.mp h
  injection h with h
  refine ⟨_, h.symm, ?_, ?_⟩
  · intro o ho
    simp only [List.mem_cons, List.not_mem_nil, or_false, not_or] at ho
    obtain ⟨n1, n2, n3, n4, n5, n6, n7, n8, n9, n10, n11, n12, n13, n14, n15, n16, n17⟩ := ho
    have e4 : c4 o = c3 o := by
      split at h4
      · split at h4
        · cases h4
        · obtain ⟨d, h5, h6⟩ := Option.bind_eq_some_iff.mp h4
          rw [finMaxChildren_ne h6 n12, finMaxChildren_ne h5 n11]
      · cases h4; rfl
    have e3 : c3 o = c2 o := by
      rw [finKeep_ne h3 n10]; exact set_ne _ _ n8
    have e2 : c2 o = c1 o := finStartDirs_ne h2 n8 n9
    have e1 : c1 o = c o := by
      rw [finIncexcDirs_ne h1 n7]
      have e0 : ∀ d : Confs, (if getMode c = .client then finGlob env d else d) o = d o := by
        intro d
        split
        · exact set_ne _ _ n6
        · rfl
      rw [e0, setMaxExt_ne _ n5, setMaxExt_ne _ n4, setMaxExt_ne _ n3]
      unfold finFstypes
      rw [set_ne _ _ n2, set_ne _ _ n1]
    split
    · rw [finPorts_ne n13 n14 n15 n16 n17, e4, e3, e2, e1]
    · rw [e4, e3, e2, e1]
  · have t : ∀ d e : Confs, d .KEEP = e .KEEP → texts d .KEEP = texts e .KEEP := by
      intro d e x; unfold texts getLst; rw [x]
    have e4 : texts c4 .KEEP = texts c3 .KEEP := by
      apply t
      split at h4
      · split at h4
        · cases h4
        · obtain ⟨d, h5, h6⟩ := Option.bind_eq_some_iff.mp h4
          rw [finMaxChildren_ne h6 (by decide), finMaxChildren_ne h5 (by decide)]
      · cases h4; rfl
    have e3 : texts c3 .KEEP = texts c2 .KEEP := by
      rw [finKeep_texts h3]
      exact t _ _ (set_ne _ _ (by decide))
    have e2 : texts c2 .KEEP = texts c1 .KEEP := t _ _ (finStartDirs_ne h2 (by decide) (by decide))
    have e1 : texts c1 .KEEP = texts c .KEEP := by
      apply t
      rw [finIncexcDirs_ne h1 (by decide)]
      have e0 : ∀ d : Confs, (if getMode c = .client then finGlob env d else d) .KEEP = d .KEEP := by
        intro d
        split
        · exact set_ne _ _ (by decide)
        · rfl
      rw [e0, setMaxExt_ne _ (by decide), setMaxExt_ne _ (by decide), setMaxExt_ne _ (by decide)]
      unfold finFstypes
      rw [set_ne _ _ (by decide), set_ne _ _ (by decide)]
    split
    · rw [t _ _ (finPorts_ne (by decide) (by decide) (by decide) (by decide) (by decide)), e4, e3, e2, e1]
    · rw [e4, e3, e2, e1]

theorem finScripts_ne {c : Confs} {o : Opt} (h : o ∉ [Opt.S_SCRIPT_PRE_NOTIFY,
    .S_SCRIPT_POST_NOTIFY, .B_SCRIPT_PRE, .B_SCRIPT_POST, .R_SCRIPT_PRE, .R_SCRIPT_POST, .S_SCRIPT_PRE, .S_SCRIPT_POST,
    .B_SCRIPT_PRE_ARG, .B_SCRIPT_POST_ARG, .R_SCRIPT_PRE_ARG, .R_SCRIPT_POST_ARG, .S_SCRIPT_PRE_ARG,
    .S_SCRIPT_POST_ARG, .S_SCRIPT, .S_SCRIPT_ARG]) : finScripts c o = c o := by
  simp only [List.mem_cons, List.not_mem_nil, or_false, not_or] at h
  obtain ⟨n1, n2, n3, n4, n5, n6, n7, n8, n9, n10, n11, n12, n13, n14, n15, n16⟩ := h
  unfold finScripts
  rw [set_ne _ _ n16, set_ne _ _ n15, prePostArg_ne n13 n14, prePostArg_ne n11 n12, prePostArg_ne n9 n10,
    prePost_ne n7 n8, prePost_ne n5 n6, prePost_ne n3 n4]
  split
  · rfl
  · rw [set_ne _ _ n2, set_ne _ _ n1]

theorem finish_ne {env : Env} {c c' : Confs} {o : Opt} (h : finish env c = some c') (ho : o ∉ derived) : c' o = c o := by
  obtain ⟨d, rfl, hd, _⟩ := finish_cases h
  simp only [derived, List.mem_cons, List.not_mem_nil, or_false, not_or] at ho
  rw [finScripts_ne, hd]
  · simp only [List.mem_cons, List.not_mem_nil, or_false, not_or]
    simp only [ho, not_false_eq_true, and_self]
  · simp only [List.mem_cons, List.not_mem_nil, or_false, not_or]
    simp only [ho, not_false_eq_true, and_self]

theorem finish_keep {env : Env} {c c' : Confs} (h : finish env c = some c') : texts c' .KEEP = texts c .KEEP := by
  obtain ⟨d, rfl, _, hd⟩ := finish_cases h
  rw [← hd]
  unfold texts getLst
  rw [finScripts_ne (by decide)]

/-- The scripts of the server. -/
theorem finScripts_server (d : Confs) :
    (finScripts d .S_SCRIPT_PRE = match getStr d .S_SCRIPT with | some v => .str (some v) | none => d .S_SCRIPT_PRE) ∧
    (finScripts d .S_SCRIPT_POST = match getStr d .S_SCRIPT with | some v => .str (some v) | none => d .S_SCRIPT_POST) ∧
    (finScripts d .S_SCRIPT_PRE_ARG = match getLst d .S_SCRIPT_ARG with | [] => d .S_SCRIPT_PRE_ARG | l => .lst l) ∧
    (finScripts d .S_SCRIPT_POST_ARG = match getLst d .S_SCRIPT_ARG with | [] => d .S_SCRIPT_POST_ARG | l => .lst l) := by
  have e : ∀ (c c2 : Confs) (o : Opt), c o = c2 o → getStr c o = getStr c2 o ∧ getLst c o = getLst c2 o := by
    intro c c2 o h; unfold getStr getLst; rw [h]; exact ⟨rfl, rfl⟩
  unfold finScripts
  generalize hm : (if getInt d .S_SCRIPT_NOTIFY = 0 then d else set (set d .S_SCRIPT_PRE_NOTIFY
    (.int (getInt d .S_SCRIPT_NOTIFY))) .S_SCRIPT_POST_NOTIFY (.int (getInt d .S_SCRIPT_NOTIFY))) = m
  have hme : ∀ o, o ≠ .S_SCRIPT_PRE_NOTIFY → o ≠ .S_SCRIPT_POST_NOTIFY → m o = d o := by
    intro o h1 h2
    rw [← hm]
    split
    · rfl
    · rw [set_ne _ _ h2, set_ne _ _ h1]
  refine ⟨?_, ?_, ?_, ?_⟩
  · rw [set_ne _ _ (by decide), set_ne _ _ (by decide), prePostArg_ne (by decide) (by decide),
      prePostArg_ne (by decide) (by decide), prePostArg_ne (by decide) (by decide)]
    generalize hx : prePost (prePost m .B_SCRIPT .B_SCRIPT_PRE .B_SCRIPT_POST) .R_SCRIPT .R_SCRIPT_PRE .R_SCRIPT_POST = x
    have hxe : ∀ o, o ∉ [Opt.B_SCRIPT_PRE, .B_SCRIPT_POST, .R_SCRIPT_PRE, .R_SCRIPT_POST, .S_SCRIPT_PRE_NOTIFY,
        .S_SCRIPT_POST_NOTIFY] → x o = d o := by
      intro o ho
      simp only [List.mem_cons, List.not_mem_nil, or_false, not_or] at ho
      rw [← hx, prePost_ne ho.2.2.1 ho.2.2.2.1, prePost_ne ho.1 ho.2.1, hme _ ho.2.2.2.2.1 ho.2.2.2.2.2]
    unfold prePost
    rw [(e x d .S_SCRIPT (hxe _ (by decide))).1]
    cases getStr d .S_SCRIPT with
    | none => exact hxe _ (by decide)
    | some v => simp only; rw [set_ne _ _ (by decide), set_same]
  · rw [set_ne _ _ (by decide), set_ne _ _ (by decide), prePostArg_ne (by decide) (by decide),
      prePostArg_ne (by decide) (by decide), prePostArg_ne (by decide) (by decide)]
    generalize hx : prePost (prePost m .B_SCRIPT .B_SCRIPT_PRE .B_SCRIPT_POST) .R_SCRIPT .R_SCRIPT_PRE .R_SCRIPT_POST = x
    have hxe : ∀ o, o ∉ [Opt.B_SCRIPT_PRE, .B_SCRIPT_POST, .R_SCRIPT_PRE, .R_SCRIPT_POST, .S_SCRIPT_PRE_NOTIFY,
        .S_SCRIPT_POST_NOTIFY] → x o = d o := by
      intro o ho
      simp only [List.mem_cons, List.not_mem_nil, or_false, not_or] at ho
      rw [← hx, prePost_ne ho.2.2.1 ho.2.2.2.1, prePost_ne ho.1 ho.2.1, hme _ ho.2.2.2.2.1 ho.2.2.2.2.2]
    unfold prePost
    rw [(e x d .S_SCRIPT (hxe _ (by decide))).1]
    cases getStr d .S_SCRIPT with
    | none => exact hxe _ (by decide)
    | some v => simp only; rw [set_same]
  · rw [set_ne _ _ (by decide), set_ne _ _ (by decide)]
    generalize hx : prePostArg (prePostArg (prePost (prePost (prePost m .B_SCRIPT .B_SCRIPT_PRE .B_SCRIPT_POST) .R_SCRIPT
      .R_SCRIPT_PRE .R_SCRIPT_POST) .S_SCRIPT .S_SCRIPT_PRE .S_SCRIPT_POST) .B_SCRIPT_ARG .B_SCRIPT_PRE_ARG
      .B_SCRIPT_POST_ARG) .R_SCRIPT_ARG .R_SCRIPT_PRE_ARG .R_SCRIPT_POST_ARG = x
    have hxe : ∀ o, o = .S_SCRIPT_ARG ∨ o = .S_SCRIPT_PRE_ARG → x o = d o := by
      intro o ho
      rw [← hx]
      rcases ho with rfl | rfl <;>
      rw [prePostArg_ne (by decide) (by decide), prePostArg_ne (by decide) (by decide), prePost_ne (by decide) (by decide),
        prePost_ne (by decide) (by decide), prePost_ne (by decide) (by decide), hme _ (by decide) (by decide)]
    unfold prePostArg
    rw [(e x d .S_SCRIPT_ARG (hxe _ (Or.inl rfl))).2]
    cases getLst d .S_SCRIPT_ARG with
    | nil => exact hxe _ (Or.inr rfl)
    | cons a l => simp only; rw [set_ne _ _ (by decide), set_same]
  · rw [set_ne _ _ (by decide), set_ne _ _ (by decide)]
    generalize hx : prePostArg (prePostArg (prePost (prePost (prePost m .B_SCRIPT .B_SCRIPT_PRE .B_SCRIPT_POST) .R_SCRIPT
      .R_SCRIPT_PRE .R_SCRIPT_POST) .S_SCRIPT .S_SCRIPT_PRE .S_SCRIPT_POST) .B_SCRIPT_ARG .B_SCRIPT_PRE_ARG
      .B_SCRIPT_POST_ARG) .R_SCRIPT_ARG .R_SCRIPT_PRE_ARG .R_SCRIPT_POST_ARG = x
    have hxe : ∀ o, o = .S_SCRIPT_ARG ∨ o = .S_SCRIPT_POST_ARG → x o = d o := by
      intro o ho
      rw [← hx]
      rcases ho with rfl | rfl <;>
      rw [prePostArg_ne (by decide) (by decide), prePostArg_ne (by decide) (by decide), prePost_ne (by decide) (by decide),
        prePost_ne (by decide) (by decide), prePost_ne (by decide) (by decide), hme _ (by decide) (by decide)]
    unfold prePostArg
    rw [(e x d .S_SCRIPT_ARG (hxe _ (Or.inl rfl))).2]
    cases getLst d .S_SCRIPT_ARG with
    | nil => exact hxe _ (Or.inr rfl)
    | cons a l => simp only; rw [set_same]

/-- Both end up with no `server_script` of their own. -/
theorem finScripts_clear (d : Confs) : finScripts d .S_SCRIPT = .str none ∧ finScripts d .S_SCRIPT_ARG = .lst [] := by
  unfold finScripts
  exact ⟨by rw [set_ne _ _ (by decide), set_same], set_same ..⟩

end Verif.Confs
