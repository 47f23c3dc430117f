import Verif.Lemmas.ConfsFinish

/-!
# C73: which value a setting has for a client
-/

namespace Verif
open Verif.Confs Verif.Strlist Verif.ConfLine

namespace Confs

theorem Says.unique {ls : List Str} {s t : List Setting} (h : Says ls s) (k : Says ls t) : s = t := by
  induction h generalizing t with
  | nil => cases k; rfl
  | blank e _ ih =>
    cases k with
    | blank _ k => exact ih k
    | pair e' _ => rw [e] at e'; cases e'
  | pair e _ ih =>
    cases k with
    | blank e' _ => rw [e] at e'; cases e'
    | pair e' k => rw [e] at e'; cases e'; rw [ih k]

theorem Said.unique {env : Env} {ls : List Str} {s t : List Setting} (h : Said env ls s) (k : Said env ls t) : s = t := by
  obtain ⟨a, e, h⟩ := h
  obtain ⟨b, e', k⟩ := k
  rw [e] at e'
  cases e'
  exact h.unique k

theorem getLst_eq {c : Confs} {o : Opt} {l : List Elem} (h : c o = .lst l) : getLst c o = l := by
  unfold getLst; rw [h]

theorem getStr_eq {c : Confs} {o : Opt} {s : Option Str} (h : c o = .str s) : getStr c o = s := by
  unfold getStr; rw [h]

theorem texts_eq {c d : Confs} {o : Opt} (h : c o = d o) : texts c o = texts d o := by
  unfold texts getLst; rw [h]

/-- The settings of a client before the options of the command line, and after. -/
theorem loadClient_cases {env : Env} {g c : Confs} {name ver : Option Str} {lines : List Str} {ss cl : List Setting}
    (h : loadClient env g name ver lines = .ok c) (hs : Said env lines ss) (hc : Said env env.cli cl) :
    ∃ c1 c2, applyAll env (setFromGlobal g (initNamed name ver)) ss = some c1 ∧
      applyAll env (argLists g c1) cl = some c2 ∧ finish env c2 = some c := by
  unfold loadClient loadOverrides at h
  obtain ⟨c1, h1, h⟩ := Out.bind_ok h
  unfold finalise at h
  obtain ⟨c2, h2, h⟩ := Out.bind_ok h
  obtain ⟨ss', hs', h1⟩ := loadLines_ok h1
  obtain ⟨cl', hc', h2⟩ := loadLines_ok h2
  rw [hs'.unique hs] at h1
  rw [hc'.unique hc] at h2
  refine ⟨c1, c2, h1, h2, ?_⟩
  split at h
  · cases h
  · rename_i e; cases h; exact e

theorem not_list_kind {o : Opt} (h : ¬ o.isList) {v : Val} (hv : SameKind v o.info.default) : ∀ l, v ≠ .lst l := by
  intro l e
  subst e
  have := default_lst o
  rcases this with k | k
  · exact h k
  · cases hd : o.info.default <;> rw [hd] at hv <;> first | exact hv | exact k _ hd

theorem init_kind : WellKinded init := by
  intro o
  unfold init
  cases o.info.default <;> exact trivial

theorem cname_kind (name ver : Option Str) : WellKinded (initNamed name ver) := by
  intro o
  unfold initNamed
  by_cases h1 : o = .PEER_VERSION
  · subst h1; rw [set_same]; exact trivial
  · rw [set_ne _ _ h1]
    by_cases h2 : o = .CNAME
    · subst h2; rw [set_same]; exact trivial
    · rw [set_ne _ _ h2]; exact init_kind o

theorem initNamed_ne (name ver : Option Str) {o : Opt} (h1 : o ≠ .PEER_VERSION) (h2 : o ≠ .CNAME) :
    initNamed name ver o = o.info.default := by
  unfold initNamed
  rw [set_ne _ _ h1, set_ne _ _ h2]; rfl

/-- Before the file is read. -/
theorem setFromGlobal_eq (g c : Confs) {o : Opt} (h : o ≠ .SSL_PEER_CN) :
    setFromGlobal g c o = if o.info.flags.cc then match c o with
      | .lst l => .lst l
      | .cntr => .cntr
      | _ => g o
    else c o := by
  have key : inherit g c o = if o.info.flags.cc then match c o with
      | .lst l => .lst l
      | .cntr => .cntr
      | _ => g o
    else c o := rfl
  rw [← key]
  unfold setFromGlobal
  split
  · rw [set_ne _ _ h]
  · rfl

theorem setFromGlobal_kind {g c : Confs} (hg : WellKinded g) (hc : WellKinded c) : WellKinded (setFromGlobal g c) := by
  intro o
  by_cases h : o = .SSL_PEER_CN
  · subst h
    unfold setFromGlobal
    split
    · rw [set_same]; exact trivial
    · have : Opt.SSL_PEER_CN.info.flags.cc = false := by decide
      unfold inherit
      rw [this]; exact hc _
  · rw [setFromGlobal_eq g c h]
    split
    · have := hc o
      cases hco : c o <;> rw [hco] at this <;> first | exact this | exact hg o
    · exact hc o

theorem argLists_kind {g c : Confs} (hc : WellKinded c) : WellKinded (argLists g c) := by
  intro o
  have := hc o
  unfold argLists
  cases hco : c o <;> rw [hco] at this <;> try exact this
  cases hd : o.info.default <;> rw [hd] at this <;> try exact this.elim
  simp only
  split
  · exact trivial
  · split <;> exact trivial

theorem argLists_scalar (g : Confs) {c : Confs} {o : Opt} (h : ∀ l, c o ≠ .lst l) : argLists g c o = c o := by
  unfold argLists
  cases hco : c o <;> first | rfl | exact absurd hco (h _)

theorem cc_default : ∀ o : Opt, o.info.flags.cc = true → o.info.default ≠ .cntr := by
  have key : Opt.all.all (fun o => !o.info.flags.cc || !decide (o.info.default = .cntr)) = true := by decide +kernel
  intro o h e
  have := List.all_eq_true.mp key o (mem_all o)
  simp [h, e] at this

theorem replace_plain : ∀ o : Opt, o.info.flags.replace = true → o.info.flags.sorted = false ∧ o.info.flags.cc = true := by
  have key : Opt.all.all (fun o => !o.info.flags.replace || (!o.info.flags.sorted && o.info.flags.cc)) = true := by
    decide +kernel
  intro o h
  have := List.all_eq_true.mp key o (mem_all o)
  simpa [h] using this

theorem appendLst_plain {o : Opt} (h : o.info.flags.sorted = false) (a b : List Elem) : appendLst o a b = a ++ b := by
  unfold appendLst
  induction b generalizing a with
  | nil => simp
  | cons x b ih => rw [List.foldl_cons, ih, addTo_plain h]; simp

theorem appendLst_perm (o : Opt) (a b : List Elem) : (appendLst o a b).Perm (a ++ b) := by
  unfold appendLst
  induction b generalizing a with
  | nil => simp
  | cons x b ih =>
    rw [List.foldl_cons]
    refine (ih _).trans ?_
    have := (addTo_perm o a x).append_right b
    simpa using this

theorem kept_nil (f : Str) (ss : List Setting) : kept f ss [] = [] := by unfold kept; split <;> rfl

theorem listFor_none {f : Str} {ss : List Setting} (h : ¬ Mentions f ss) : listFor f ss = [] := by
  induction ss with
  | nil => rfl
  | cons s ss ih =>
    rw [listFor, if_neg (fun e => h ⟨s, List.mem_cons_self .., e⟩)]
    exact ih (fun ⟨t, ht, e⟩ => h ⟨t, List.mem_cons_of_mem _ ht, e⟩)

theorem kept_none {f : Str} {ss : List Setting} (h : ¬ Mentions f ss) (l : List Str) : kept f ss l = l := by
  unfold kept
  rw [if_neg]
  rintro ⟨s, hs, e, _⟩
  exact h ⟨s, hs, e⟩

theorem kept_some {f : Str} {ss : List Setting} (h : Resets f ss) (l : List Str) : kept f ss l = [] := by
  unfold kept
  rw [if_pos h]

/-- The value of a setting that is not a list, before scripts and so on are worked out. -/
theorem scalar_value {env : Env} {g c1 c2 : Confs} {name ver : Option Str} {ss cl : List Setting}
    (hg : WellKinded g) (hs : ∀ s ∈ ss, s.field ≠ []) (hc : ∀ s ∈ cl, s.field ≠ [])
    (h1 : applyAll env (setFromGlobal g (initNamed name ver)) ss = some c1)
    (h2 : applyAll env (argLists g c1) cl = some c2) (o : Opt) (ho : ¬ o.isList) :
    match lastFor o.info.field (ss ++ cl) with
    | some v => Means env o v (c2 o)
    | none => c2 o = setFromGlobal g (initNamed name ver) o := by
  have k0 := setFromGlobal_kind hg (cname_kind name ver)
  have k1 := applyAll_kind hs k0 h1
  have k2 := argLists_kind (g := g) k1
  have v1 := applyAll_scalar hs k0 h1 o ho
  have v2 := applyAll_scalar hc k2 h2 o ho
  rw [argLists_scalar g (not_list_kind ho (k1 o))] at v2
  rw [lastFor_append]
  cases e2 : lastFor o.info.field cl with
  | some v => rw [e2] at v2; exact v2
  | none =>
    rw [e2] at v2
    simp only at v2 ⊢
    cases e1 : lastFor o.info.field ss with
    | some v => rw [e1] at v1; simp only at v1 ⊢; rw [v2]; exact v1
    | none => rw [e1] at v1; simp only at v1 ⊢; rw [v2]; exact v1

theorem global_value {g : Confs} (name ver : Option Str) {o : Opt} (ho : ¬ o.isList) (hcc : o.info.flags.cc = true) :
    setFromGlobal g (initNamed name ver) o = g o := by
  have ne : o ≠ .SSL_PEER_CN := by rintro rfl; revert hcc; decide
  have ne1 : o ≠ .PEER_VERSION := by rintro rfl; revert hcc; decide
  have ne2 : o ≠ .CNAME := by rintro rfl; revert hcc; decide
  rw [setFromGlobal_eq _ _ ne, if_pos hcc, initNamed_ne _ _ ne1 ne2]
  have h1 := cc_default o hcc
  have h2 := default_lst o
  cases hd : o.info.default <;> first | rfl | exact absurd hd h1 | skip
  rcases h2 with h2 | h2
  · exact absurd h2 ho
  · exact absurd hd (h2 _)

end Confs

/-- C73: a setting that clients may have for themselves has the value that is given last in the file of the client (or,
after it, on the command line of the server), and if there is none, the global value. For settings that are no lists,
apart from those that are worked out from others. -/
theorem C73_client_value {env : Env} {g c : Confs} {name ver : Option Str} {lines : List Str} {ss cl : List Setting}
    (hg : WellKinded g) (h : loadClient env g name ver lines = .ok c)
    (hs : Said env lines ss) (hc : Said env env.cli cl)
    (o : Opt) (ho : ¬ o.isList) (hcc : o.info.flags.cc = true) (hd : o ∉ derived) :
    match lastFor o.info.field (ss ++ cl) with
    | some v => Means env o v (c o)
    | none => c o = g o := by
  obtain ⟨c1, c2, h1, h2, h3⟩ := loadClient_cases h hs hc
  have := scalar_value hg hs.ne hc.ne h1 h2 o ho
  rw [global_value name ver ho hcc] at this
  rw [finish_ne h3 hd]
  exact this

/-- C73: a setting that clients may not have in common with the server is the client's own: what its file (or the
command line) says, or the default, whatever the global value is. -/
theorem C73_own_value {env : Env} {g c : Confs} {name ver : Option Str} {lines : List Str} {ss cl : List Setting}
    (hg : WellKinded g) (h : loadClient env g name ver lines = .ok c)
    (hs : Said env lines ss) (hc : Said env env.cli cl)
    (o : Opt) (ho : ¬ o.isList) (hcc : o.info.flags.cc = false) (hd : o ∉ derived)
    (h1 : o ≠ .SSL_PEER_CN) (h2 : o ≠ .CNAME) (h3 : o ≠ .PEER_VERSION) :
    match lastFor o.info.field (ss ++ cl) with
    | some v => Means env o v (c o)
    | none => c o = o.info.default := by
  obtain ⟨c1, c2, k1, k2, k3⟩ := loadClient_cases h hs hc
  have := scalar_value hg hs.ne hc.ne k1 k2 o ho
  rw [setFromGlobal_eq _ _ h1, hcc, initNamed_ne _ _ h3 h2] at this
  rw [finish_ne k3 hd]
  exact this

/-- C73: the name of a client is that under which it logged in unless its file gives another one. -/
theorem C73_name {env : Env} {g c : Confs} {name ver : Option Str} {lines : List Str} {ss cl : List Setting}
    (hg : WellKinded g) (h : loadClient env g name ver lines = .ok c)
    (hs : Said env lines ss) (hc : Said env env.cli cl) :
    match lastFor (bytes "cname") (ss ++ cl) with
    | some v => getStr c .CNAME = some v
    | none => getStr c .CNAME = name := by
  obtain ⟨c1, c2, k1, k2, k3⟩ := loadClient_cases h hs hc
  have := scalar_value hg hs.ne hc.ne k1 k2 .CNAME (by decide)
  have e : setFromGlobal g (initNamed name ver) .CNAME = .str name := by
    rw [setFromGlobal_eq _ _ (by decide)]
    rw [if_neg (by decide)]
    unfold initNamed
    rw [set_ne _ _ (by decide), set_same]
  rw [e, show Opt.CNAME.info.field = bytes "cname" from rfl] at this
  have e3 : c .CNAME = c2 .CNAME := finish_ne k3 (by decide)
  cases hl : lastFor (bytes "cname") (ss ++ cl) with
  | none => rw [hl] at this; simp only at this ⊢; unfold getStr; rw [e3, this]
  | some v =>
    rw [hl] at this
    simp only at this ⊢
    have : c2 .CNAME = .str (some v) := this
    unfold getStr; rw [e3, this]

/-- C73: a list that clients may have for themselves is that of the client's file if that has any element, and
otherwise the global one. On the command line, `:=` replaces it. The lists for the scripts of the server are left
out here. -/
theorem C73_client_list {env : Env} {g c : Confs} {name ver : Option Str} {lines : List Str} {ss cl : List Setting}
    (hg : WellKinded g) (h : loadClient env g name ver lines = .ok c)
    (hs : Said env lines ss) (hc : Said env env.cli cl)
    (o : Opt) (ho : o.isList) (hr : o.info.flags.replace = true) (hd : o ∉ derived ∨ o = .KEEP) :
    (¬ Mentions o.info.field cl → texts c o = if listFor o.info.field ss = [] then texts g o else listFor o.info.field ss) ∧
    (Resets o.info.field cl → texts c o = listFor o.info.field cl) := by
  obtain ⟨c1, c2, h1, h2, h3⟩ := loadClient_cases h hs hc
  have k0 := setFromGlobal_kind hg (cname_kind name ver)
  have k1 := applyAll_kind hs.ne k0 h1
  have k2 := argLists_kind (g := g) k1
  obtain ⟨hso, hcc⟩ := replace_plain o hr
  have t1 := (applyAll_list hs.ne k0 h1 o ho).2 hso
  have t2 := (applyAll_list hc.ne k2 h2 o ho).2 hso
  have ne1 : o ≠ .PEER_VERSION := by rintro rfl; revert hcc; decide
  have ne2 : o ≠ .CNAME := by rintro rfl; revert hcc; decide
  have ne3 : o ≠ .SSL_PEER_CN := by rintro rfl; revert hcc; decide
  have e0 : texts (setFromGlobal g (initNamed name ver)) o = [] := by
    unfold texts getLst
    rw [setFromGlobal_eq _ _ ne3, if_pos hcc, initNamed_ne _ _ ne1 ne2, show o.info.default = .lst [] from ho]
    rfl
  rw [e0, kept_nil, List.nil_append] at t1
  have kk := k1 o
  rw [show o.info.default = .lst [] from ho] at kk
  obtain ⟨l, hl⟩ := kk.lst
  have t1' : l.map Elem.path = listFor o.info.field ss := by
    have : texts c1 o = l.map Elem.path := by unfold texts; rw [getLst_eq hl]
    rw [← this]; exact t1
  have e1 : texts (argLists g c1) o = if listFor o.info.field ss = [] then texts g o else listFor o.info.field ss := by
    have : argLists g c1 o = .lst (if l = [] then appendLst o [] (getLst g o) else l) := by
      unfold argLists
      rw [hl]
      simp only [hcc, hr, Bool.not_true, Bool.false_eq_true, if_false, if_true]
    unfold texts
    rw [getLst_eq this]
    rw [appendLst_plain hso, List.nil_append, ← t1']
    by_cases hn : l = []
    · subst hn; rfl
    · rw [if_neg hn, if_neg (by simpa using hn)]
  have e3 : texts c o = texts c2 o := by
    rcases hd with hd | hd
    · exact texts_eq (finish_ne h3 hd)
    · subst hd; exact finish_keep h3
  rw [e3, t2, e1]
  constructor
  · intro hm; rw [kept_none hm, listFor_none hm, List.append_nil]
  · intro hm; rw [kept_some hm, List.nil_append]

/-- C73: the lists of clients that may restore for a client are those of the server and those of the client's file
together. -/
theorem C73_restore_clients {env : Env} {g c : Confs} {name ver : Option Str} {lines : List Str} {ss cl : List Setting}
    (hg : WellKinded g) (h : loadClient env g name ver lines = .ok c)
    (hs : Said env lines ss) (hc : Said env env.cli cl)
    (o : Opt) (ho : o = .RESTORE_CLIENTS ∨ o = .SUPER_CLIENTS) (hm : ¬ Mentions o.info.field cl) :
    (texts c o).Perm (texts g o ++ listFor o.info.field ss) := by
  obtain ⟨c1, c2, h1, h2, h3⟩ := loadClient_cases h hs hc
  have k0 := setFromGlobal_kind hg (cname_kind name ver)
  have k1 := applyAll_kind hs.ne k0 h1
  have k2 := argLists_kind (g := g) k1
  have hl' : o.isList := by rcases ho with rfl | rfl <;> decide
  have hcc : o.info.flags.cc = true := by rcases ho with rfl | rfl <;> decide
  have hr : o.info.flags.replace = false := by rcases ho with rfl | rfl <;> decide
  have hd : o ∉ derived := by rcases ho with rfl | rfl <;> decide
  have t1 := (applyAll_list hs.ne k0 h1 o hl').1
  have t2 := (applyAll_list hc.ne k2 h2 o hl').1
  have e0 : texts (setFromGlobal g (initNamed name ver)) o = [] := by
    unfold texts getLst
    rcases ho with rfl | rfl <;>
    · rw [setFromGlobal_eq _ _ (by decide), if_pos hcc, initNamed_ne _ _ (by decide) (by decide)]
      rfl
  rw [e0, kept_nil, List.nil_append] at t1
  rw [kept_none hm, listFor_none hm, List.append_nil] at t2
  have kk := k1 o
  rw [show o.info.default = .lst [] from hl'] at kk
  obtain ⟨l, hl⟩ := kk.lst
  have e1 : getLst (argLists g c1) o = appendLst o (appendLst o [] (getLst g o)) l := by
    apply getLst_eq
    unfold argLists
    rw [hl]
    simp only [hcc, hr, Bool.not_true, Bool.false_eq_true, if_false]
  have e3 : texts c o = texts c2 o := by exact texts_eq (finish_ne h3 hd)
  rw [e3]
  refine t2.trans ?_
  have p1 : (getLst (argLists g c1) o).Perm (getLst g o ++ l) := by
    rw [e1]
    refine (appendLst_perm ..).trans ?_
    have := (appendLst_perm o [] (getLst g o)).append_right l
    simpa using this
  have p2 := p1.map Elem.path
  rw [List.map_append] at p2
  refine p2.trans ?_
  have t3 : texts c1 o = l.map Elem.path := by unfold texts; rw [getLst_eq hl]
  rw [t3] at t1
  exact t1.append_left _

/-- C73: the script that the server runs before serving a client: `server_script` of the client's file (or the command
line), otherwise its `server_script_pre`, otherwise the global one. The same goes for `server_script_post`. -/
theorem C73_server_script {env : Env} {g c : Confs} {name ver : Option Str} {lines : List Str} {ss cl : List Setting}
    (hg : WellKinded g) (hgs : getStr g .S_SCRIPT = none) (h : loadClient env g name ver lines = .ok c)
    (hs : Said env lines ss) (hc : Said env env.cli cl) :
    (getStr c .S_SCRIPT_PRE = match lastFor (bytes "server_script") (ss ++ cl) with
      | some v => some v
      | none => match lastFor (bytes "server_script_pre") (ss ++ cl) with
        | some v => some v
        | none => getStr g .S_SCRIPT_PRE) ∧
    (getStr c .S_SCRIPT_POST = match lastFor (bytes "server_script") (ss ++ cl) with
      | some v => some v
      | none => match lastFor (bytes "server_script_post") (ss ++ cl) with
        | some v => some v
        | none => getStr g .S_SCRIPT_POST) := by
  obtain ⟨c1, c2, h1, h2, h3⟩ := loadClient_cases h hs hc
  obtain ⟨d, rfl, hd, -⟩ := finish_cases h3
  have val : ∀ o : Opt, ¬ o.isList → o.info.flags.cc = true → (∀ s, o.info.default = s → s = .str none) →
      o ≠ .COMPRESSION → o ≠ .SSL_COMPRESSION → o ≠ .RATELIMIT →
      getStr c2 o = match lastFor o.info.field (ss ++ cl) with | some v => some v | none => getStr g o := by
    intro o ho hcc hdef n1 n2 n3
    have := scalar_value hg hs.ne hc.ne h1 h2 o ho
    rw [global_value name ver ho hcc] at this
    cases e : lastFor o.info.field (ss ++ cl) with
    | none => rw [e] at this; simp only at this ⊢; unfold getStr; rw [this]
    | some v =>
      rw [e] at this
      simp only at this ⊢
      unfold Means at this
      rw [if_neg (by simp [n1, n2]), if_neg n3, hdef _ rfl] at this
      unfold getStr; rw [this]
  have e0 := val .S_SCRIPT (by decide) (by decide) (fun s h => h ▸ rfl) (by decide) (by decide) (by decide)
  have e1 := val .S_SCRIPT_PRE (by decide) (by decide) (fun s h => h ▸ rfl) (by decide) (by decide) (by decide)
  have e2 := val .S_SCRIPT_POST (by decide) (by decide) (fun s h => h ▸ rfl) (by decide) (by decide) (by decide)
  have d0 : d .S_SCRIPT = c2 .S_SCRIPT := hd _ (by decide)
  have d1 : d .S_SCRIPT_PRE = c2 .S_SCRIPT_PRE := hd _ (by decide)
  have d2 : d .S_SCRIPT_POST = c2 .S_SCRIPT_POST := hd _ (by decide)
  have g0 : getStr d .S_SCRIPT = getStr c2 .S_SCRIPT := by unfold getStr; rw [d0]
  have g1 : getStr d .S_SCRIPT_PRE = getStr c2 .S_SCRIPT_PRE := by unfold getStr; rw [d1]
  have g2 : getStr d .S_SCRIPT_POST = getStr c2 .S_SCRIPT_POST := by unfold getStr; rw [d2]
  obtain ⟨s1, s2, -, -⟩ := finScripts_server d
  rw [g0, e0, hgs] at s1 s2
  have w : ∀ {x : Confs} {o : Opt} {v : Val}, x o = v → getStr x o = match v with | .str s => s | _ => none := by
    intro x o v e; subst e; rfl
  rw [show Opt.S_SCRIPT.info.field = bytes "server_script" from rfl] at s1 s2
  rw [show Opt.S_SCRIPT_PRE.info.field = bytes "server_script_pre" from rfl] at e1
  rw [show Opt.S_SCRIPT_POST.info.field = bytes "server_script_post" from rfl] at e2
  cases hl : lastFor (bytes "server_script") (ss ++ cl) with
  | some v =>
    rw [hl] at s1 s2
    exact ⟨w s1, w s2⟩
  | none =>
    rw [hl] at s1 s2
    simp only at s1 s2 ⊢
    exact ⟨(w s1).trans (g1.trans e1), (w s2).trans (g2.trans e2)⟩

/-- The global settings meet the conditions of the theorems above. -/
theorem C73_global {env : Env} {path : Str} {lines : List Str} {g : Confs} (h : loadGlobal env path lines = .ok g) :
    getStr g .S_SCRIPT = none := by
  unfold loadGlobal finalise at h
  obtain ⟨c1, h1, h⟩ := Out.bind_ok h
  obtain ⟨c2, h2, h⟩ := Out.bind_ok h
  split at h
  · cases h
  · rename_i e
    cases h
    obtain ⟨d, rfl, -, -⟩ := finish_cases e
    unfold getStr
    rw [(finScripts_clear d).1]

/-! ### Examples, and where it fails -/

namespace Confs

/-- Nothing outside, and these options on the command line. -/
def exEnv (cli : List Str) : Env := ⟨fun _ => none, fun _ => [], fun v => v == bytes "0", fun _ => 0, cli⟩

/-- A property of the settings of a client, from the lines of the global file and of that of the client. -/
def ofClient {α : Type} (cli globalLines clientLines : List Str) (f : Confs → α) : Option α :=
  match loadGlobal (exEnv cli) (bytes "/etc/burp/burp-server.conf") globalLines with
  | .ok g => match loadClient (exEnv cli) g (some (bytes "alice")) none clientLines with
    | .ok c => some (f c)
    | _ => none
  | _ => none

end Confs

example : ofClient [] [bytes "hard_quota = 1Gb", bytes "keep = 7", bytes "keep = 4", bytes "user = burp",
      bytes "restore_client = bob"]
    [bytes "user = alice", bytes "restore_client = carol", bytes "# keep = 3"]
    (fun c => (getSize c .HARD_QUOTA, texts c .KEEP, getStr c .USER, texts c .RESTORE_CLIENTS)) =
    some (1024 * 1024 * 1024, [bytes "7", bytes "4"], some (bytes "alice"), [bytes "bob", bytes "carol"]) := by
  decide +kernel

/-- C73 fails: if the server's own file has `server_script_notify`, a client cannot turn notifications off. -/
theorem C73_notify_violated :
    ofClient [] [bytes "server_script_notify = 1"] [bytes "server_script_pre_notify = 0"]
      (fun c => getInt c .S_SCRIPT_PRE_NOTIFY) = some 1 := by
  decide +kernel

/-- C73 fails for lists given on the command line of the server without `:=`: a client gets them twice. With
`-o keep=7` it has `keep=7` and `keep=7`, so backups are kept that are up to 49 backups old. -/
theorem C73_twice_violated :
    ofClient [bytes "keep=7"] [] [] (texts · .KEEP) = some [bytes "7", bytes "7"] := by
  decide +kernel

/-- C73 fails: `:=` in the file of a client does not remove the clients that may restore for it according to the
server's own file. -/
theorem C73_reset_violated :
    ofClient [] [bytes "restore_client = bob"] [bytes "restore_client := carol"] (texts · .RESTORE_CLIENTS) =
      some [bytes "bob", bytes "carol"] := by
  decide +kernel

/-- C73 fails: text that is no number counts as 0. `password_check = yes` turns the check of passwords off. -/
theorem C73_yes_violated :
    ofClient [] [bytes "password_check = yes"] [] (getInt · .PASSWORD_CHECK) = some 0 := by
  decide +kernel

/-- C73 fails: names of settings that do not exist are accepted and have no effect. -/
theorem C73_unknown_violated (env : Env) (c : Confs) :
    loadLines env c [bytes "client_can_restores = 0"] = .ok c := by
  have h : getPair (bytes "client_can_restores = 0") = .pair (bytes "client_can_restores") (bytes "0") false := by
    decide +kernel
  have h2 : Opt.all.find? (fun o => o.info.field = bytes "client_can_restores") = none := by decide +kernel
  have h3 : loadField env c (bytes "client_can_restores") (bytes "0") false = some c := by
    unfold loadField
    rw [if_neg (by decide), if_neg (by decide), if_neg (by decide), h2]
  simp only [loadLines, parseLine, parsePair, h, h3, Out.bind]
  rw [if_neg (by decide)]

end Verif
