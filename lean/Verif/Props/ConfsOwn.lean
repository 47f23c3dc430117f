import Verif.Props.Confs

/-!
# C73, continued: settings from one's own file
-/

namespace Verif
open Verif.Confs Verif.Strlist Verif.ConfLine

namespace Confs

theorem loadGlobal_cases {env : Env} {path : Str} {lines : List Str} {c : Confs} {ss cl : List Setting}
    (h : loadGlobal env path lines = .ok c) (hs : Said env lines ss) (hc : Said env env.cli cl) :
    ∃ c2, applyAll env (set init .CONFFILE (.str (some path))) (ss ++ cl) = some c2 ∧ finish env c2 = some c := by
  unfold loadGlobal at h
  obtain ⟨c1, h1, h⟩ := Out.bind_ok h
  unfold finalise at h
  obtain ⟨c2, h2, h⟩ := Out.bind_ok h
  obtain ⟨ss', hs', h1⟩ := loadLines_ok h1
  obtain ⟨cl', hc', h2⟩ := loadLines_ok h2
  rw [hs'.unique hs] at h1
  rw [hc'.unique hc] at h2
  refine ⟨c2, by rw [applyAll_append, h1]; exact h2, ?_⟩
  split at h
  · cases h
  · rename_i e; cases h; exact e

theorem conffile_kind (path : Str) : WellKinded (set init .CONFFILE (.str (some path))) := by
  intro o
  by_cases e : o = .CONFFILE
  · subst e; rw [set_same]; exact trivial
  · rw [set_ne _ _ e]; exact init_kind o

theorem said_ne {env : Env} {lines : List Str} {ss cl : List Setting} (hs : Said env lines ss) (hc : Said env env.cli cl) :
    ∀ s ∈ ss ++ cl, s.field ≠ [] := by
  intro s h
  rcases List.mem_append.mp h with h | h
  · exact hs.ne s h
  · exact hc.ne s h

/-- The stages of working out settings from others. -/
theorem finish_stages {env : Env} {c c' : Confs} (h : finish env c = some c') :
    ∃ c3 c4, (∀ o, o ∉ [Opt.EXCFS, .INCFS, .INCEXT, .EXCEXT, .EXCOM, .INCLUDE, .INCEXCDIR, .FSCHGDIR, .STARTDIR, .KEEP] →
        c3 o = c o) ∧
      (if getMode c = .server then getLst c3 .LISTEN ≠ [] ∧ ∃ d, finMaxChildren c3 .LISTEN .MAX_CHILDREN = some d ∧
          finMaxChildren d .LISTEN_STATUS .MAX_STATUS_CHILDREN = some c4 else c4 = c3) ∧
      c' = finScripts (if getMode c = .client then finPorts c4 else c4) := by
  unfold finish at h
  simp only at h
  obtain ⟨c1, h1, h⟩ := Option.bind_eq_some_iff.mp h
  obtain ⟨c2, h2, h⟩ := Option.bind_eq_some_iff.mp h
  obtain ⟨c3, h3, h⟩ := Option.bind_eq_some_iff.mp h
  obtain ⟨c4, h4, h⟩ := Option.bind_eq_some_iff.mp h
  injection h with h
  refine ⟨c3, c4, ?_, ?_, h.symm⟩
  · intro o ho
    simp only [List.mem_cons, List.not_mem_nil, or_false, not_or] at ho
    obtain ⟨n1, n2, n3, n4, n5, n6, n7, n8, n9, n10⟩ := ho
    have e3 : c3 o = c2 o := by
      rw [finKeep_ne h3 n10]; exact set_ne _ _ n8
    have e2 : c2 o = c1 o := finStartDirs_ne h2 n8 n9
    rw [e3, e2, finIncexcDirs_ne h1 n7]
    have e0 : ∀ d : Confs, (if getMode c = .client then finGlob env d else d) o = d o := by
      intro d
      split
      · exact set_ne _ _ n6
      · rfl
    rw [e0, setMaxExt_ne _ n5, setMaxExt_ne _ n4, setMaxExt_ne _ n3]
    unfold finFstypes
    rw [set_ne _ _ n2, set_ne _ _ n1]
  · by_cases hm : getMode c = .server
    · rw [if_pos hm] at h4 ⊢
      split at h4
      · cases h4
      · rename_i hl
        obtain ⟨d, h5, h6⟩ := Option.bind_eq_some_iff.mp h4
        exact ⟨hl, d, h5, h6⟩
    · rw [if_neg hm] at h4 ⊢
      injection h4 with h4
      exact h4.symm

theorem getInt_eq {c d : Confs} {o : Opt} (h : c o = d o) : getInt c o = getInt d o := by
  unfold getInt; rw [h]

theorem getInt_val {c : Confs} {o : Opt} {n : Int} (h : c o = .int n) : getInt c o = n := by
  unfold getInt; rw [h]

theorem getInt_ite {p : Prop} [Decidable p] (c : Confs) (o : Opt) (n : Int) :
    getInt (if p then set c o (.int n) else c) o = if p then n else getInt c o := by
  split
  · exact getInt_val (set_same ..)
  · rfl

theorem finPorts_values (c : Confs) :
    let p := match (getLst c .PORT).getLast? with | some e => Cntr.atoi e.path | none => 0
    let own (o : Opt) (d : Int) := if getInt c o = 0 then d else getInt c o
    getInt (finPorts c) .PORT_BACKUP = own .PORT_BACKUP p ∧ getInt (finPorts c) .PORT_RESTORE = own .PORT_RESTORE p ∧
    getInt (finPorts c) .PORT_VERIFY = own .PORT_VERIFY (if p = 0 then 0 else own .PORT_RESTORE p) ∧
    getInt (finPorts c) .PORT_LIST = own .PORT_LIST p ∧ getInt (finPorts c) .PORT_DELETE = own .PORT_DELETE p := by
  unfold finPorts
  cases (getLst c .PORT).getLast? with
  | none =>
    simp only [ite_true]
    refine ⟨?_, ?_, ?_, ?_, ?_⟩ <;> (split <;> first | assumption | rfl)
  | some e =>
    simp only
    by_cases h : Cntr.atoi e.path = 0
    · rw [if_pos h, h]
      simp only [if_true]
      refine ⟨?_, ?_, ?_, ?_, ?_⟩ <;> (split <;> first | assumption | rfl)
    · rw [if_neg h]
      simp only [h, if_false]
      generalize hp : Cntr.atoi e.path = p
      -- the settings after each step
      generalize h1 : (if getInt c .PORT_BACKUP = 0 then set c .PORT_BACKUP (.int p) else c) = c1
      have v1 : ∀ o, o ≠ .PORT_BACKUP → c1 o = c o := fun o ho => by rw [← h1]; exact ite_set_ne _ _ ho
      have w1 : getInt c1 .PORT_BACKUP = if getInt c .PORT_BACKUP = 0 then p else getInt c .PORT_BACKUP := by
        rw [← h1]; exact getInt_ite ..
      generalize h2 : (if getInt c1 .PORT_RESTORE = 0 then set c1 .PORT_RESTORE (.int p) else c1) = c2
      have v2 : ∀ o, o ≠ .PORT_RESTORE → c2 o = c1 o := fun o ho => by rw [← h2]; exact ite_set_ne _ _ ho
      have w2 : getInt c2 .PORT_RESTORE = if getInt c .PORT_RESTORE = 0 then p else getInt c .PORT_RESTORE := by
        rw [← h2, getInt_ite, getInt_eq (v1 .PORT_RESTORE (by decide))]
      generalize h3 : (if getInt c2 .PORT_VERIFY = 0 then set c2 .PORT_VERIFY (.int (getInt c2 .PORT_RESTORE)) else c2) = c3
      have v3 : ∀ o, o ≠ .PORT_VERIFY → c3 o = c2 o := fun o ho => by rw [← h3]; exact ite_set_ne _ _ ho
      have w3 : getInt c3 .PORT_VERIFY = if getInt c .PORT_VERIFY = 0 then getInt c2 .PORT_RESTORE else getInt c .PORT_VERIFY := by
        rw [← h3, getInt_ite, getInt_eq (v2 .PORT_VERIFY (by decide)), getInt_eq (v1 .PORT_VERIFY (by decide))]
      generalize h4 : (if getInt c3 .PORT_LIST = 0 then set c3 .PORT_LIST (.int p) else c3) = c4
      have v4 : ∀ o, o ≠ .PORT_LIST → c4 o = c3 o := fun o ho => by rw [← h4]; exact ite_set_ne _ _ ho
      have w4 : getInt c4 .PORT_LIST = if getInt c .PORT_LIST = 0 then p else getInt c .PORT_LIST := by
        rw [← h4, getInt_ite, getInt_eq (v3 .PORT_LIST (by decide)), getInt_eq (v2 .PORT_LIST (by decide)),
          getInt_eq (v1 .PORT_LIST (by decide))]
      generalize h5 : (if getInt c4 .PORT_DELETE = 0 then set c4 .PORT_DELETE (.int p) else c4) = c5
      have v5 : ∀ o, o ≠ .PORT_DELETE → c5 o = c4 o := fun o ho => by rw [← h5]; exact ite_set_ne _ _ ho
      have w5 : getInt c5 .PORT_DELETE = if getInt c .PORT_DELETE = 0 then p else getInt c .PORT_DELETE := by
        rw [← h5, getInt_ite, getInt_eq (v4 .PORT_DELETE (by decide)), getInt_eq (v3 .PORT_DELETE (by decide)),
          getInt_eq (v2 .PORT_DELETE (by decide)), getInt_eq (v1 .PORT_DELETE (by decide))]
      refine ⟨?_, ?_, ?_, ?_, w5⟩
      · rw [getInt_eq (v5 _ (by decide)), getInt_eq (v4 _ (by decide)), getInt_eq (v3 _ (by decide)),
          getInt_eq (v2 _ (by decide)), w1]
      · rw [getInt_eq (v5 _ (by decide)), getInt_eq (v4 _ (by decide)), getInt_eq (v3 _ (by decide)), w2]
      · rw [getInt_eq (v5 _ (by decide)), getInt_eq (v4 _ (by decide)), w3, w2]
      · rw [getInt_eq (v5 _ (by decide)), w4]

/-- The number that is given last for a name. -/
def numFor (f : Str) (ss : List Setting) : Int := match lastFor f ss with | some v => Cntr.atoi v | none => 0

theorem own_int {env : Env} {path : Str} {c2 : Confs} {ss : List Setting} (hn : ∀ s ∈ ss, s.field ≠ [])
    (h : applyAll env (set init .CONFFILE (.str (some path))) ss = some c2) {o : Opt} (ho : o.info.default = .int 0)
    (h1 : o ≠ .COMPRESSION) (h2 : o ≠ .SSL_COMPRESSION) : getInt c2 o = numFor o.info.field ss := by
  have n1 : ¬ o.isList := by unfold Opt.isList; rw [ho]; intro x; cases x
  have n2 : o ≠ .CONFFILE := by rintro rfl; revert ho; decide
  have n3 : o ≠ .RATELIMIT := by rintro rfl; revert ho; decide
  have := applyAll_scalar hn (conffile_kind path) h o n1
  unfold numFor
  cases e : lastFor o.info.field ss with
  | none =>
    rw [e] at this
    simp only at this ⊢
    rw [set_ne _ _ n2] at this
    exact getInt_val (this.trans ho)
  | some v =>
    rw [e] at this
    simp only at this ⊢
    unfold Means at this
    rw [if_neg (by simp [h1, h2]), if_neg n3, ho] at this
    exact getInt_val this

theorem own_str {env : Env} {path : Str} {c2 : Confs} {ss : List Setting} (hn : ∀ s ∈ ss, s.field ≠ [])
    (h : applyAll env (set init .CONFFILE (.str (some path))) ss = some c2) {o : Opt} (ho : o.info.default = .str none)
    (n2 : o ≠ .CONFFILE) : getStr c2 o = lastFor o.info.field ss := by
  have n1 : ¬ o.isList := by unfold Opt.isList; rw [ho]; intro x; cases x
  have h1 : o ≠ .COMPRESSION := by rintro rfl; revert ho; decide
  have h2 : o ≠ .SSL_COMPRESSION := by rintro rfl; revert ho; decide
  have n3 : o ≠ .RATELIMIT := by rintro rfl; revert ho; decide
  have := applyAll_scalar hn (conffile_kind path) h o n1
  cases e : lastFor o.info.field ss with
  | none =>
    rw [e] at this
    simp only at this ⊢
    rw [set_ne _ _ n2] at this
    exact getStr_eq (this.trans ho)
  | some v =>
    rw [e] at this
    simp only at this ⊢
    unfold Means at this
    rw [if_neg (by simp [h1, h2]), if_neg n3, ho] at this
    exact getStr_eq this

theorem own_list {env : Env} {path : Str} {c2 : Confs} {ss : List Setting} (hn : ∀ s ∈ ss, s.field ≠ [])
    (h : applyAll env (set init .CONFFILE (.str (some path))) ss = some c2) {o : Opt} (ho : o.isList) :
    (texts c2 o).Perm (listFor o.info.field ss) ∧ (o.info.flags.sorted = false → texts c2 o = listFor o.info.field ss) := by
  have n2 : o ≠ .CONFFILE := by rintro rfl; revert ho; decide
  have e : texts (set init .CONFFILE (.str (some path))) o = [] := by
    unfold texts getLst
    rw [set_ne _ _ n2]
    unfold init
    rw [show o.info.default = .lst [] from ho]; rfl
  have := applyAll_list hn (conffile_kind path) h o ho
  rw [e, kept_nil, List.nil_append] at this
  exact this

theorem own_mode {env : Env} {path : Str} {c2 : Confs} {ss : List Setting} (hn : ∀ s ∈ ss, s.field ≠ [])
    (h : applyAll env (set init .CONFFILE (.str (some path))) ss = some c2) {v : Str}
    (hv : lastFor (bytes "mode") ss = some v) : getMode c2 = strToMode v := by
  have := applyAll_scalar hn (conffile_kind path) h .BURP_MODE (by decide)
  rw [show Opt.BURP_MODE.info.field = bytes "mode" from rfl, hv] at this
  have : c2 .BURP_MODE = .mode (strToMode v) := this
  unfold getMode; rw [this]

end Confs

/-- C73: the settings of a client or a server for itself: what is given last in its file or on its command line, or the
default. -/
theorem C73_file_value {env : Env} {path : Str} {lines : List Str} {c : Confs} {ss cl : List Setting}
    (h : loadGlobal env path lines = .ok c) (hs : Said env lines ss) (hc : Said env env.cli cl)
    (o : Opt) (ho : ¬ o.isList) (hd : o ∉ derived) (hf : o ≠ .CONFFILE) :
    match lastFor o.info.field (ss ++ cl) with
    | some v => Means env o v (c o)
    | none => c o = o.info.default := by
  obtain ⟨c2, h1, h2⟩ := loadGlobal_cases h hs hc
  rw [finish_ne h2 hd]
  have := applyAll_scalar (said_ne hs hc) (conffile_kind path) h1 o ho
  rw [set_ne _ _ hf] at this
  exact this

/-- C73: lists have what is given in the file and on the command line, from the last `:=` on. -/
theorem C73_file_list {env : Env} {path : Str} {lines : List Str} {c : Confs} {ss cl : List Setting}
    (h : loadGlobal env path lines = .ok c) (hs : Said env lines ss) (hc : Said env env.cli cl)
    (o : Opt) (ho : o.isList) (hd : o ∉ derived ∨ o = .KEEP) :
    (texts c o).Perm (listFor o.info.field (ss ++ cl)) ∧
    (o.info.flags.sorted = false → texts c o = listFor o.info.field (ss ++ cl)) := by
  obtain ⟨c2, h1, h2⟩ := loadGlobal_cases h hs hc
  have e : texts c o = texts c2 o := by
    rcases hd with hd | rfl
    · exact texts_eq (finish_ne h2 hd)
    · exact finish_keep h2
  rw [e]
  exact own_list (said_ne hs hc) h1 ho

/-- C73: the port that a client uses for something is the one that is given for it, otherwise the last `port`. For
verifying it is the one for restoring if there is none. -/
theorem C73_ports {env : Env} {path : Str} {lines : List Str} {c : Confs} {ss cl : List Setting}
    (h : loadGlobal env path lines = .ok c) (hs : Said env lines ss) (hc : Said env env.cli cl)
    (hm : lastFor (bytes "mode") (ss ++ cl) = some (bytes "client")) :
    let port := match (listFor (bytes "port") (ss ++ cl)).getLast? with | some v => Cntr.atoi v | none => 0
    let own (f : Str) (d : Int) := if numFor f (ss ++ cl) = 0 then d else numFor f (ss ++ cl)
    getInt c .PORT_BACKUP = own (bytes "port_backup") port ∧
    getInt c .PORT_RESTORE = own (bytes "port_restore") port ∧
    getInt c .PORT_VERIFY = own (bytes "port_verify") (if port = 0 then 0 else own (bytes "port_restore") port) ∧
    getInt c .PORT_LIST = own (bytes "port_list") port ∧
    getInt c .PORT_DELETE = own (bytes "port_delete") port := by
  obtain ⟨c2, h1, h2⟩ := loadGlobal_cases h hs hc
  have hn := said_ne hs hc
  have md : getMode c2 = .client := own_mode hn h1 hm
  obtain ⟨c3, c4, e3, e4, e⟩ := finish_stages h2
  rw [md, if_neg (by decide)] at e4
  rw [md, if_pos rfl] at e
  subst e4
  have hp : (match (getLst c4 .PORT).getLast? with | some e => Cntr.atoi e.path | none => 0) =
      match (listFor (bytes "port") (ss ++ cl)).getLast? with | some v => Cntr.atoi v | none => 0 := by
    have : texts c4 .PORT = listFor (bytes "port") (ss ++ cl) := by
      rw [texts_eq (e3 .PORT (by decide))]
      exact (own_list hn h1 (o := .PORT) (by decide)).2 rfl
    rw [← this]
    unfold texts
    rw [List.getLast?_map]
    cases (getLst c4 .PORT).getLast? <;> rfl
  have val : ∀ o ∈ [Opt.PORT_BACKUP, .PORT_RESTORE, .PORT_VERIFY, .PORT_LIST, .PORT_DELETE],
      getInt c4 o = numFor o.info.field (ss ++ cl) := by
    intro o ho
    simp only [List.mem_cons, List.not_mem_nil, or_false] at ho
    rcases ho with rfl | rfl | rfl | rfl | rfl <;>
    · rw [getInt_eq (e3 _ (by decide))]
      exact own_int hn h1 rfl (by decide) (by decide)
  have := finPorts_values c4
  simp only [hp, val .PORT_BACKUP (by decide), val .PORT_RESTORE (by decide), val .PORT_VERIFY (by decide),
    val .PORT_LIST (by decide), val .PORT_DELETE (by decide)] at this
  obtain ⟨k1, k2, k3, k4, k5⟩ := this
  subst e
  refine ⟨?_, ?_, ?_, ?_, ?_⟩
  · rw [getInt_eq (finScripts_ne (by decide))]; exact k1
  · rw [getInt_eq (finScripts_ne (by decide))]; exact k2
  · rw [getInt_eq (finScripts_ne (by decide))]; exact k3
  · rw [getInt_eq (finScripts_ne (by decide))]; exact k4
  · rw [getInt_eq (finScripts_ne (by decide))]; exact k5

namespace Confs

/-- The limits for addresses: the first for the first, and so on. The last of them holds for the addresses that are
left over. -/
def limitsFor : Int → List Str → List Str → List (Str × Int)
  | _, [], _ => []
  | n, a :: as, [] => (a, n) :: limitsFor n as []
  | _, a :: as, m :: ms => (a, Cntr.atoi m) :: limitsFor (Cntr.atoi m) as ms

theorem maxChildrenLoop_spec {n : Int} {ls ms r : List Elem} (h : maxChildrenLoop n ls ms = some r) :
    r.map (fun e => (e.path, e.flag)) = limitsFor n (ls.map Elem.path) (ms.map Elem.path) ∧
    ms.length ≤ ls.length ∧ (∀ m ∈ ms, 0 < Cntr.atoi m.path) ∧ ∀ l ∈ ls, listenOk l.path = true := by
  induction ls generalizing n ms r with
  | nil =>
    cases ms with
    | nil => cases h; simp [limitsFor]
    | cons m ms => cases h
  | cons l ls ih =>
    cases ms with
    | nil =>
      simp only [maxChildrenLoop] at h
      split at h
      · rename_i hl
        obtain ⟨x, hx, rfl⟩ := Option.map_eq_some_iff.mp h
        obtain ⟨i1, i2, i3, i4⟩ := ih hx
        refine ⟨?_, by simp, by simp, ?_⟩
        · simp only [List.map_cons, List.map_nil, limitsFor]; rw [i1]; rfl
        · intro y hy
          rcases List.mem_cons.mp hy with rfl | hy
          · exact hl
          · exact i4 y hy
      · cases h
    | cons m ms =>
      simp only [maxChildrenLoop] at h
      split at h
      · rename_i hl
        split at h
        · cases h
        · rename_i hm
          obtain ⟨x, hx, rfl⟩ := Option.map_eq_some_iff.mp h
          obtain ⟨i1, i2, i3, i4⟩ := ih hx
          refine ⟨?_, by simp only [List.length_cons]; omega, ?_, ?_⟩
          · simp only [List.map_cons, limitsFor]; rw [i1]
          · intro y hy
            rcases List.mem_cons.mp hy with rfl | hy
            · omega
            · exact i3 y hy
          · intro y hy
            rcases List.mem_cons.mp hy with rfl | hy
            · exact hl
            · exact i4 y hy
      · cases h

end Confs

/-- C73: each address that a server listens on has the limit that stands at the same place among the `max_children`, and
the last one (or 5) if there are fewer of these. There are not more of them than addresses, all are positive, and there
is an address. The same goes for the addresses for status. -/
theorem C73_listen {env : Env} {path : Str} {lines : List Str} {c : Confs} {ss cl : List Setting}
    (h : loadGlobal env path lines = .ok c) (hs : Said env lines ss) (hc : Said env env.cli cl)
    (hm : lastFor (bytes "mode") (ss ++ cl) = some (bytes "server")) :
    let given (f : String) := listFor (bytes f) (ss ++ cl)
    (getLst c .LISTEN).map (fun e => (e.path, e.flag)) = limitsFor 5 (given "listen") (given "max_children") ∧
    (getLst c .LISTEN_STATUS).map (fun e => (e.path, e.flag)) =
      limitsFor 5 (given "listen_status") (given "max_status_children") ∧
    given "listen" ≠ [] ∧
    (given "max_children").length ≤ (given "listen").length ∧
    (given "max_status_children").length ≤ (given "listen_status").length ∧
    (∀ m ∈ given "max_children" ++ given "max_status_children", 0 < Cntr.atoi m) := by
  obtain ⟨c2, h1, h2⟩ := loadGlobal_cases h hs hc
  have hn := said_ne hs hc
  have md : getMode c2 = .server := own_mode hn h1 hm
  obtain ⟨c3, c4, e3, e4, e⟩ := finish_stages h2
  rw [md, if_pos rfl] at e4
  rw [md, if_neg (by decide)] at e
  obtain ⟨hl, d, hd, hd4⟩ := e4
  have tx : ∀ o : Opt, o.isList → o.info.flags.sorted = false →
      o ∉ [Opt.EXCFS, .INCFS, .INCEXT, .EXCEXT, .EXCOM, .INCLUDE, .INCEXCDIR, .FSCHGDIR, .STARTDIR, .KEEP] →
      (getLst c3 o).map Elem.path = listFor o.info.field (ss ++ cl) := by
    intro o h1' h2' h3'
    have := texts_eq (e3 o h3')
    unfold texts at this
    rw [this]
    exact (own_list hn h1 h1').2 h2'
  have l1 := tx .LISTEN rfl rfl (by decide)
  have l2 := tx .LISTEN_STATUS rfl rfl (by decide)
  have m1 := tx .MAX_CHILDREN rfl rfl (by decide)
  have m2 := tx .MAX_STATUS_CHILDREN rfl rfl (by decide)
  unfold finMaxChildren at hd hd4
  obtain ⟨r1, hr1, rfl⟩ := Option.map_eq_some_iff.mp hd
  obtain ⟨r2, hr2, rfl⟩ := Option.map_eq_some_iff.mp hd4
  have g : ∀ (x : Confs) (o : Opt) (v : Val), o ≠ .LISTEN → getLst (set x .LISTEN v) o = getLst x o := by
    intro x o v ho; unfold getLst; rw [set_ne _ _ ho]
  rw [g _ _ _ (by decide), g _ _ _ (by decide)] at hr2
  obtain ⟨a1, a2, a3, -⟩ := maxChildrenLoop_spec hr1
  obtain ⟨b1, b2, b3, -⟩ := maxChildrenLoop_spec hr2
  rw [l1, m1] at a1
  rw [l2, m2] at b1
  have q1 : getLst c .LISTEN = r1 := by
    apply getLst_eq
    rw [e, finScripts_ne (by decide), set_ne _ _ (by decide), set_same]
  have q2 : getLst c .LISTEN_STATUS = r2 := by
    apply getLst_eq
    rw [e, finScripts_ne (by decide), set_same]
  rw [q1, q2]
  have len : ∀ {a : List Elem} {b : List Str}, a.map Elem.path = b → b.length = a.length := by
    intro a b h; rw [← h, List.length_map]
  refine ⟨a1, b1, ?_, ?_, ?_, ?_⟩
  · intro hx
    have hx : listFor Opt.LISTEN.info.field (ss ++ cl) = [] := hx
    rw [← l1, List.map_eq_nil_iff] at hx
    exact hl hx
  · have := a2; rw [← len l1, ← len m1] at this; exact this
  · have := b2; rw [← len l2, ← len m2] at this; exact this
  · intro m hm
    rcases List.mem_append.mp hm with hm | hm
    · have hm : m ∈ listFor Opt.MAX_CHILDREN.info.field (ss ++ cl) := hm
      rw [← m1, List.mem_map] at hm
      obtain ⟨y, hy, rfl⟩ := hm
      exact a3 y hy
    · have hm : m ∈ listFor Opt.MAX_STATUS_CHILDREN.info.field (ss ++ cl) := hm
      rw [← m2, List.mem_map] at hm
      obtain ⟨y, hy, rfl⟩ := hm
      exact b3 y hy

namespace Confs

theorem prePost_str (c : Confs) {o pre post : Opt} (h : pre ≠ post) :
    getStr (prePost c o pre post) pre = (getStr c o).or (getStr c pre) ∧
    getStr (prePost c o pre post) post = (getStr c o).or (getStr c post) := by
  unfold prePost
  cases getStr c o with
  | none => exact ⟨rfl, rfl⟩
  | some v =>
    exact ⟨getStr_eq (by simp only; rw [set_ne _ _ h, set_same]; rfl), getStr_eq (by simp only; rw [set_same]; rfl)⟩

theorem prePostArg_lst (c : Confs) {o pre post : Opt} (h : pre ≠ post) :
    getLst (prePostArg c o pre post) pre = (if getLst c o = [] then getLst c pre else getLst c o) ∧
    getLst (prePostArg c o pre post) post = (if getLst c o = [] then getLst c post else getLst c o) := by
  unfold prePostArg
  cases getLst c o with
  | nil => exact ⟨rfl, rfl⟩
  | cons x l =>
    exact ⟨getLst_eq (by simp only; rw [set_ne _ _ h, set_same]; rfl), getLst_eq (by simp only; rw [set_same]; rfl)⟩

theorem str_of {c d : Confs} {o : Opt} (h : c o = d o) : getStr c o = getStr d o := by unfold getStr; rw [h]

theorem lst_of {c d : Confs} {o : Opt} (h : c o = d o) : getLst c o = getLst d o := by unfold getLst; rw [h]

/-- The scripts of a client, once worked out. -/
theorem finScripts_client (c : Confs) :
    getStr (finScripts c) .B_SCRIPT_PRE = (getStr c .B_SCRIPT).or (getStr c .B_SCRIPT_PRE) ∧
    getStr (finScripts c) .B_SCRIPT_POST = (getStr c .B_SCRIPT).or (getStr c .B_SCRIPT_POST) ∧
    getStr (finScripts c) .R_SCRIPT_PRE = (getStr c .R_SCRIPT).or (getStr c .R_SCRIPT_PRE) ∧
    getStr (finScripts c) .R_SCRIPT_POST = (getStr c .R_SCRIPT).or (getStr c .R_SCRIPT_POST) ∧
    getLst (finScripts c) .B_SCRIPT_PRE_ARG =
      (if getLst c .B_SCRIPT_ARG = [] then getLst c .B_SCRIPT_PRE_ARG else getLst c .B_SCRIPT_ARG) ∧
    getLst (finScripts c) .B_SCRIPT_POST_ARG =
      (if getLst c .B_SCRIPT_ARG = [] then getLst c .B_SCRIPT_POST_ARG else getLst c .B_SCRIPT_ARG) ∧
    getLst (finScripts c) .R_SCRIPT_PRE_ARG =
      (if getLst c .R_SCRIPT_ARG = [] then getLst c .R_SCRIPT_PRE_ARG else getLst c .R_SCRIPT_ARG) ∧
    getLst (finScripts c) .R_SCRIPT_POST_ARG =
      (if getLst c .R_SCRIPT_ARG = [] then getLst c .R_SCRIPT_POST_ARG else getLst c .R_SCRIPT_ARG) := by
  unfold finScripts
  simp only
  generalize h0 : (if getInt c .S_SCRIPT_NOTIFY = 0 then c else set (set c .S_SCRIPT_PRE_NOTIFY (.int (getInt c .S_SCRIPT_NOTIFY)))
    .S_SCRIPT_POST_NOTIFY (.int (getInt c .S_SCRIPT_NOTIFY))) = c0
  have v0 : ∀ o, o ≠ .S_SCRIPT_PRE_NOTIFY → o ≠ .S_SCRIPT_POST_NOTIFY → c0 o = c o := by
    intro o h1 h2
    rw [← h0]
    split
    · rfl
    · rw [set_ne _ _ h2, set_ne _ _ h1]
  generalize h1 : prePost c0 .B_SCRIPT .B_SCRIPT_PRE .B_SCRIPT_POST = c1
  generalize h2 : prePost c1 .R_SCRIPT .R_SCRIPT_PRE .R_SCRIPT_POST = c2
  generalize h3 : prePost c2 .S_SCRIPT .S_SCRIPT_PRE .S_SCRIPT_POST = c3
  generalize h4 : prePostArg c3 .B_SCRIPT_ARG .B_SCRIPT_PRE_ARG .B_SCRIPT_POST_ARG = c4
  generalize h5 : prePostArg c4 .R_SCRIPT_ARG .R_SCRIPT_PRE_ARG .R_SCRIPT_POST_ARG = c5
  generalize h6 : prePostArg c5 .S_SCRIPT_ARG .S_SCRIPT_PRE_ARG .S_SCRIPT_POST_ARG = c6
  have v1 : ∀ o, o ≠ .B_SCRIPT_PRE → o ≠ .B_SCRIPT_POST → c1 o = c0 o := fun o a b => by rw [← h1]; exact prePost_ne a b
  have v2 : ∀ o, o ≠ .R_SCRIPT_PRE → o ≠ .R_SCRIPT_POST → c2 o = c1 o := fun o a b => by rw [← h2]; exact prePost_ne a b
  have v3 : ∀ o, o ≠ .S_SCRIPT_PRE → o ≠ .S_SCRIPT_POST → c3 o = c2 o := fun o a b => by rw [← h3]; exact prePost_ne a b
  have v4 : ∀ o, o ≠ .B_SCRIPT_PRE_ARG → o ≠ .B_SCRIPT_POST_ARG → c4 o = c3 o := fun o a b => by
    rw [← h4]; exact prePostArg_ne a b
  have v5 : ∀ o, o ≠ .R_SCRIPT_PRE_ARG → o ≠ .R_SCRIPT_POST_ARG → c5 o = c4 o := fun o a b => by
    rw [← h5]; exact prePostArg_ne a b
  have v6 : ∀ o, o ≠ .S_SCRIPT_PRE_ARG → o ≠ .S_SCRIPT_POST_ARG → c6 o = c5 o := fun o a b => by
    rw [← h6]; exact prePostArg_ne a b
  have v7 : ∀ o, o ≠ .S_SCRIPT → o ≠ .S_SCRIPT_ARG →
      set (set c6 .S_SCRIPT (.str none)) .S_SCRIPT_ARG (.lst []) o = c6 o := fun o a b => by
    rw [set_ne _ _ b, set_ne _ _ a]
  have p1 := prePost_str c0 (o := .B_SCRIPT) (pre := .B_SCRIPT_PRE) (post := .B_SCRIPT_POST) (by decide)
  have p2 := prePost_str c1 (o := .R_SCRIPT) (pre := .R_SCRIPT_PRE) (post := .R_SCRIPT_POST) (by decide)
  have p4 := prePostArg_lst c3 (o := .B_SCRIPT_ARG) (pre := .B_SCRIPT_PRE_ARG) (post := .B_SCRIPT_POST_ARG) (by decide)
  have p5 := prePostArg_lst c4 (o := .R_SCRIPT_ARG) (pre := .R_SCRIPT_PRE_ARG) (post := .R_SCRIPT_POST_ARG) (by decide)
  rw [h1] at p1
  rw [h2] at p2
  rw [h4] at p4
  rw [h5] at p5
  have down : ∀ o, o ∈ [Opt.B_SCRIPT_PRE, .B_SCRIPT_POST, .R_SCRIPT_PRE, .R_SCRIPT_POST] →
      set (set c6 .S_SCRIPT (.str none)) .S_SCRIPT_ARG (.lst []) o = c2 o := by
    intro o ho
    simp only [List.mem_cons, List.not_mem_nil, or_false] at ho
    rcases ho with rfl | rfl | rfl | rfl <;>
      rw [v7 _ (by decide) (by decide), v6 _ (by decide) (by decide), v5 _ (by decide) (by decide),
        v4 _ (by decide) (by decide), v3 _ (by decide) (by decide)]
  have base : ∀ o, o ∈ [Opt.B_SCRIPT_PRE_ARG, .B_SCRIPT_POST_ARG, .B_SCRIPT_ARG, .R_SCRIPT_PRE_ARG, .R_SCRIPT_POST_ARG,
      .R_SCRIPT_ARG] → c3 o = c o := by
    intro o ho
    simp only [List.mem_cons, List.not_mem_nil, or_false] at ho
    rcases ho with rfl | rfl | rfl | rfl | rfl | rfl <;>
      rw [v3 _ (by decide) (by decide), v2 _ (by decide) (by decide), v1 _ (by decide) (by decide),
        v0 _ (by decide) (by decide)]
  refine ⟨?_, ?_, ?_, ?_, ?_, ?_, ?_, ?_⟩
  · rw [str_of (down _ (by decide)), str_of (v2 _ (by decide) (by decide)), p1.1, str_of (v0 .B_SCRIPT (by decide) (by decide)),
      str_of (v0 .B_SCRIPT_PRE (by decide) (by decide))]
  · rw [str_of (down _ (by decide)), str_of (v2 _ (by decide) (by decide)), p1.2, str_of (v0 .B_SCRIPT (by decide) (by decide)),
      str_of (v0 .B_SCRIPT_POST (by decide) (by decide))]
  · rw [str_of (down _ (by decide)), p2.1, str_of (v1 .R_SCRIPT (by decide) (by decide)),
      str_of (v1 .R_SCRIPT_PRE (by decide) (by decide)), str_of (v0 .R_SCRIPT (by decide) (by decide)),
      str_of (v0 .R_SCRIPT_PRE (by decide) (by decide))]
  · rw [str_of (down _ (by decide)), p2.2, str_of (v1 .R_SCRIPT (by decide) (by decide)),
      str_of (v1 .R_SCRIPT_POST (by decide) (by decide)), str_of (v0 .R_SCRIPT (by decide) (by decide)),
      str_of (v0 .R_SCRIPT_POST (by decide) (by decide))]
  · rw [lst_of (v7 _ (by decide) (by decide)), lst_of (v6 _ (by decide) (by decide)), lst_of (v5 _ (by decide) (by decide)),
      p4.1, lst_of (base .B_SCRIPT_ARG (by decide)), lst_of (base .B_SCRIPT_PRE_ARG (by decide))]
  · rw [lst_of (v7 _ (by decide) (by decide)), lst_of (v6 _ (by decide) (by decide)), lst_of (v5 _ (by decide) (by decide)),
      p4.2, lst_of (base .B_SCRIPT_ARG (by decide)), lst_of (base .B_SCRIPT_POST_ARG (by decide))]
  · rw [lst_of (v7 _ (by decide) (by decide)), lst_of (v6 _ (by decide) (by decide)), p5.1,
      lst_of (v4 .R_SCRIPT_ARG (by decide) (by decide)), lst_of (v4 .R_SCRIPT_PRE_ARG (by decide) (by decide)),
      lst_of (base .R_SCRIPT_ARG (by decide)), lst_of (base .R_SCRIPT_PRE_ARG (by decide))]
  · rw [lst_of (v7 _ (by decide) (by decide)), lst_of (v6 _ (by decide) (by decide)), p5.2,
      lst_of (v4 .R_SCRIPT_ARG (by decide) (by decide)), lst_of (v4 .R_SCRIPT_POST_ARG (by decide) (by decide)),
      lst_of (base .R_SCRIPT_ARG (by decide)), lst_of (base .R_SCRIPT_POST_ARG (by decide))]

end Confs

/-- C73: the scripts of a client: `backup_script` stands for both `backup_script_pre` and `backup_script_post` if it is
given, and so do its arguments. The same goes for those of a restore. -/
theorem C73_client_scripts {env : Env} {path : Str} {lines : List Str} {c : Confs} {ss cl : List Setting}
    (h : loadGlobal env path lines = .ok c) (hs : Said env lines ss) (hc : Said env env.cli cl) :
    let str (f : String) := lastFor (bytes f) (ss ++ cl)
    let args (f : String) := listFor (bytes f) (ss ++ cl)
    getStr c .B_SCRIPT_PRE = (str "backup_script").or (str "backup_script_pre") ∧
    getStr c .B_SCRIPT_POST = (str "backup_script").or (str "backup_script_post") ∧
    getStr c .R_SCRIPT_PRE = (str "restore_script").or (str "restore_script_pre") ∧
    getStr c .R_SCRIPT_POST = (str "restore_script").or (str "restore_script_post") ∧
    texts c .B_SCRIPT_PRE_ARG =
      (if args "backup_script_arg" = [] then args "backup_script_pre_arg" else args "backup_script_arg") ∧
    texts c .B_SCRIPT_POST_ARG =
      (if args "backup_script_arg" = [] then args "backup_script_post_arg" else args "backup_script_arg") ∧
    texts c .R_SCRIPT_PRE_ARG =
      (if args "restore_script_arg" = [] then args "restore_script_pre_arg" else args "restore_script_arg") ∧
    texts c .R_SCRIPT_POST_ARG =
      (if args "restore_script_arg" = [] then args "restore_script_post_arg" else args "restore_script_arg") := by
  obtain ⟨c2, h1, h2⟩ := loadGlobal_cases h hs hc
  have hn := said_ne hs hc
  obtain ⟨d, rfl, hd, -⟩ := finish_cases h2
  have st : ∀ o : Opt, o.info.default = .str none → o ≠ .CONFFILE → o ∉ [Opt.EXCFS, .INCFS, .INCEXT, .EXCEXT, .EXCOM,
      .INCLUDE, .INCEXCDIR, .FSCHGDIR, .STARTDIR, .KEEP, .LISTEN, .LISTEN_STATUS, .PORT_BACKUP, .PORT_RESTORE,
      .PORT_VERIFY, .PORT_LIST, .PORT_DELETE] → getStr d o = lastFor o.info.field (ss ++ cl) := by
    intro o a b e
    rw [str_of (hd o e)]; exact own_str hn h1 a b
  have li : ∀ o : Opt, o.isList → o.info.flags.sorted = false → o ∉ [Opt.EXCFS, .INCFS, .INCEXT, .EXCEXT, .EXCOM,
      .INCLUDE, .INCEXCDIR, .FSCHGDIR, .STARTDIR, .KEEP, .LISTEN, .LISTEN_STATUS, .PORT_BACKUP, .PORT_RESTORE,
      .PORT_VERIFY, .PORT_LIST, .PORT_DELETE] → texts d o = listFor o.info.field (ss ++ cl) := by
    intro o a b e
    rw [texts_eq (hd o e)]; exact (own_list hn h1 a).2 b
  obtain ⟨k1, k2, k3, k4, k5, k6, k7, k8⟩ := finScripts_client d
  have tx : ∀ {x y z : Opt}, getLst (finScripts d) x = (if getLst d y = [] then getLst d z else getLst d y) →
      texts (finScripts d) x = if texts d y = [] then texts d z else texts d y := by
    intro x y z h
    unfold texts
    rw [h]
    by_cases e : getLst d y = []
    · rw [if_pos e, if_pos (by rw [e]; rfl)]
    · rw [if_neg e, if_neg (by simpa using e)]
  rw [st .B_SCRIPT rfl (by decide) (by decide), st .B_SCRIPT_PRE rfl (by decide) (by decide)] at k1
  rw [st .B_SCRIPT rfl (by decide) (by decide), st .B_SCRIPT_POST rfl (by decide) (by decide)] at k2
  rw [st .R_SCRIPT rfl (by decide) (by decide), st .R_SCRIPT_PRE rfl (by decide) (by decide)] at k3
  rw [st .R_SCRIPT rfl (by decide) (by decide), st .R_SCRIPT_POST rfl (by decide) (by decide)] at k4
  have k5 := tx k5
  have k6 := tx k6
  have k7 := tx k7
  have k8 := tx k8
  rw [li .B_SCRIPT_ARG rfl rfl (by decide), li .B_SCRIPT_PRE_ARG rfl rfl (by decide)] at k5
  rw [li .B_SCRIPT_ARG rfl rfl (by decide), li .B_SCRIPT_POST_ARG rfl rfl (by decide)] at k6
  rw [li .R_SCRIPT_ARG rfl rfl (by decide), li .R_SCRIPT_PRE_ARG rfl rfl (by decide)] at k7
  rw [li .R_SCRIPT_ARG rfl rfl (by decide), li .R_SCRIPT_POST_ARG rfl rfl (by decide)] at k8
  exact ⟨k1, k2, k3, k4, k5, k6, k7, k8⟩

/-! ### Examples -/

namespace Confs

/-- A property of settings, from the lines of a file. -/
def ofFile {α : Type} (cli lines : List Str) (f : Confs → α) : Option α :=
  match loadGlobal (exEnv cli) (bytes "/etc/burp/burp.conf") lines with
  | .ok c => some (f c)
  | _ => none

end Confs

example : ofFile [bytes "port_delete = 7"] [bytes "mode = client", bytes "port = 4971", bytes "port_restore = 4973",
      bytes "backup_script = /etc/burp/b", bytes "backup_script_post = /etc/burp/x", bytes "backup_script_post_arg = 1"]
    (fun c => ([Opt.PORT_BACKUP, .PORT_RESTORE, .PORT_VERIFY, .PORT_LIST, .PORT_DELETE].map (getInt c),
      getStr c .B_SCRIPT_POST, texts c .B_SCRIPT_POST_ARG)) =
    some ([4971, 4973, 4973, 4971, 7], some (bytes "/etc/burp/b"), [bytes "1"]) := by
  decide +kernel

example : ofFile [] [bytes "mode = server", bytes "listen = 0.0.0.0:4971", bytes "listen = 0.0.0.0:4973",
      bytes "max_children = 3"] (fun c => (getLst c .LISTEN).map (fun e => (e.path, e.flag))) =
    some [(bytes "0.0.0.0:4971", 3), (bytes "0.0.0.0:4973", 3)] := by
  decide +kernel

end Verif
