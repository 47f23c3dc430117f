import Verif.Lemmas.BedupRun

/-!
# C112: what bedup works on
-/

namespace Verif
open Verif.BedupRun

/-! ## The options -/

/-- Options and arguments that do not go together are refused, and nothing is touched. -/
theorem C112_refused (w : World) (dflt : Str) (opts : List Opt) (args : List Str) (hp : BedupRun.Plain opts)
    (h : ¬ Sound opts args) :
    (BedupRun.run w dflt opts args).code = 1 ∧ (BedupRun.run w dflt opts args).evs = [] := by
  obtain ⟨v, hv, hr⟩ := run_plain w dflt opts args hp
  have : accepted v args = false := by
    cases ha : accepted v args with
    | false => rfl
    | true => exact absurd ((accepted_iff hv args).mp ha) h
  rw [hr, this]
  exact ⟨rfl, rfl⟩

/-- Asking for the version or for help touches nothing either. -/
theorem C112_help (w : World) (dflt : Str) (opts : List Opt) (args : List Str)
    (hp : ¬ BedupRun.Plain opts) : (BedupRun.run w dflt opts args).evs = [] :=
  (run_other w dflt opts args hp).1

/-- The cases of a run that does anything. -/
theorem run_cases {w : World} {dflt : Str} {opts : List Opt} {args : List Str} {ev : Ev}
    (h : ev ∈ (BedupRun.run w dflt opts args).evs) :
    Sound opts args ∧ BedupRun.Plain opts ∧
      ((Opt.nonburp ∈ opts ∧ (BedupRun.run w dflt opts args).evs = (fromArgs w args).1 ∧
        (BedupRun.run w dflt opts args).max = some (limit opts)) ∨
      (Opt.nonburp ∉ opts ∧ (BedupRun.run w dflt opts args).deletes = false ∧
        (BedupRun.run w dflt opts args).evs = (fromConf w (configGiven dflt opts) (groupsGiven opts)).1 ∧
        (BedupRun.run w dflt opts args).max =
          (fromConf w (configGiven dflt opts) (groupsGiven opts)).2.2)) := by
  by_cases hp : BedupRun.Plain opts
  · obtain ⟨v, hv, hr⟩ := run_plain w dflt opts args hp
    have hs : Sound opts args := by
      by_cases hs : Sound opts args
      · exact hs
      · rw [(C112_refused w dflt opts args hp hs).2] at h
        cases h
    refine ⟨hs, hp, ?_⟩
    rw [(accepted_iff hv args).mpr hs] at hr
    simp only [Bool.not_true, Bool.false_eq_true, if_false] at hr
    have h1 := hv.non
    have h2 := hv.conf
    have h3 := hv.grp
    have h4 := hv.max
    simp only [initial, Bool.false_eq_true, false_or, Option.getD_none] at h1 h2 h3 h4
    cases hn : v.nonburp with
    | true =>
      rw [hn, if_pos rfl] at hr
      rw [hr]
      exact Or.inl ⟨h1.mp hn, rfl, congrArg some h4⟩
    | false =>
      rw [hn, if_neg (by decide)] at hr
      rw [hr, h2, h3]
      refine Or.inr ⟨fun hc => ?_, ?_, rfl, rfl⟩
      · rw [h1.mpr hc] at hn; cases hn
      · show v.deletedups = false
        have hno : Opt.nonburp ∉ opts := fun hc => by rw [h1.mpr hc] at hn; cases hn
        cases hd : v.deletedups with
        | false => rfl
        | true =>
          rcases hv.del.mp hd with h5 | h5
          · cases h5
          · exact absurd h5 (hs.2 hno).2.1
  · rw [C112_help w dflt opts args hp] at h
    cases h

/-! ## What is worked on -/

theorem mem_fromConf {w : World} {path : Str} {groups : Option Str} {ev : Ev}
    (h : ev ∈ (fromConf w path groups).1) :
    ∃ conf, w.conf path = some conf ∧ conf.isServer = true ∧
      (fromConf w path groups).2.2 = some (unsigned conf.maxHardlinks) ∧
      groups.map (groupNames []) ≠ some [] ∧
      (groups = none → w.free (conf.lockfile ++ bytes ".bedup") = true) ∧
      ∃ pre, pre = (if groups = none then [Ev.locked (conf.lockfile ++ bytes ".bedup")] else []) ∧
        ((fromConf w path groups).1 = pre ∨
          ∃ es, conf.clients = some es ∧
            (fromConf w path groups).1 = pre ++ (clients w (groups.map (groupNames [])) es).1) := by
  unfold fromConf at h ⊢
  simp only at h ⊢
  by_cases h1 : groups.map (groupNames []) = some []
  · rw [if_pos h1] at h; cases h
  · rw [if_neg h1] at h ⊢
    cases hc : w.conf path with
    | none => rw [hc] at h; cases h
    | some conf =>
      rw [hc] at h
      simp only at h ⊢
      cases hs : conf.isServer with
      | false => rw [hs] at h; cases h
      | true =>
        rw [hs] at h
        simp only [Bool.not_true, Bool.false_eq_true, if_false] at h ⊢
        refine ⟨conf, rfl, hs, ?_⟩
        have hnone : (groups.map (groupNames [])).isNone = true ↔ groups = none := by
          cases groups <;> simp
        by_cases hl : ((groups.map (groupNames [])).isNone && !w.free (conf.lockfile ++ bytes ".bedup")) = true
        · rw [if_pos hl] at h; cases h
        · rw [if_neg hl] at h ⊢
          have hfree : groups = none → w.free (conf.lockfile ++ bytes ".bedup") = true := by
            intro hg
            rw [hnone.mpr hg] at hl
            simpa using hl
          refine ⟨by cases conf.clients <;> rfl, h1, hfree, _, rfl, ?_⟩
          have hpre : (if (groups.map (groupNames [])).isNone = true then
              [Ev.locked (conf.lockfile ++ bytes ".bedup")] else []) =
              (if groups = none then [Ev.locked (conf.lockfile ++ bytes ".bedup")] else []) := by
            by_cases hg : groups = none
            · rw [if_pos hg, if_pos (hnone.mpr hg)]
            · rw [if_neg hg, if_neg (fun h => hg (hnone.mp h))]
          rw [hpre]
          cases hcl : conf.clients with
          | none => exact Or.inl rfl
          | some es => exact Or.inr ⟨es, rfl, rfl⟩

theorem mem_fromArgs {w : World} {args : List Str} {ev : Ev} (h : ev ∈ (fromArgs w args).1) :
    ∃ d a, ev = .work false d ∧ a ∈ args ∧ a ≠ [] ∧ (d = a ∧ a.getLast? ≠ some slash ∨ a = d ++ [slash]) := by
  induction args with
  | nil => cases h
  | cons a as ih =>
    unfold fromArgs at h
    unfold trimmed at h
    cases hl : a.getLast? with
    | none => rw [hl] at h; cases h
    | some c =>
      rw [hl] at h
      simp only at h
      have hne : a ≠ [] := by
        rintro rfl
        cases hl
      have hfst : ev = .work false (if c = slash then a.dropLast else a) →
          ∃ d a', ev = .work false d ∧ a' ∈ a :: as ∧ a' ≠ [] ∧
            (d = a' ∧ a'.getLast? ≠ some slash ∨ a' = d ++ [slash]) := by
        intro he
        refine ⟨_, a, he, List.mem_cons_self, hne, ?_⟩
        by_cases hc : c = slash
        · right
          rw [if_pos hc]
          have h3 := List.dropLast_concat_getLast hne
          rw [List.getLast?_eq_some_getLast hne, Option.some.injEq] at hl
          rw [hl, hc] at h3
          exact h3.symm
        · left
          rw [if_neg hc]
          refine ⟨rfl, ?_⟩
          rw [hl]
          exact fun h => hc (Option.some.inj h)
      split at h
      · rcases List.mem_cons.mp h with h | h
        · exact hfst h
        · obtain ⟨d, a', h1, h2, h3⟩ := ih h
          exact ⟨d, a', h1, List.mem_cons_of_mem _ h2, h3⟩
      · exact hfst (List.mem_singleton.mp h)

/-- Bedup works on nothing but what it is told: with `-n` the directories that are named, and else the
storage of clients that have a valid name and a regular file of configuration, in one of the groups if
any are given. -/
theorem C112_only (w : World) (dflt : Str) (opts : List Opt) (args : List Str) (burp : Bool) (dir : Str)
    (h : Ev.work burp dir ∈ (BedupRun.run w dflt opts args).evs) :
    (burp = false ∧ Opt.nonburp ∈ opts ∧ ∃ a ∈ args, dir = a ∨ a = dir ++ [slash]) ∨
    (burp = true ∧ Opt.nonburp ∉ opts ∧ ∃ conf es e c, w.conf (configGiven dflt opts) = some conf ∧
      conf.isServer = true ∧ conf.clients = some es ∧ e ∈ es ∧ Wanted opts e c ∧ dir = storage e c) := by
  obtain ⟨_, _, ⟨h1, h2, _⟩ | ⟨h1, _, h2, _⟩⟩ := run_cases h
  · left
    rw [h2] at h
    obtain ⟨d, a, he, ha, _, hd⟩ := mem_fromArgs h
    cases he
    exact ⟨rfl, h1, a, ha, hd.imp (fun h => h.1) id⟩
  · right
    rw [h2] at h
    obtain ⟨conf, hc, hs, _, _, _, pre, hpre, hev⟩ := mem_fromConf h
    have hnot : Ev.work burp dir ∉ pre := by
      rw [hpre]
      split <;> simp
    rcases hev with hev | ⟨es, hes, hev⟩
    · rw [hev] at h; exact absurd h hnot
    · rw [hev] at h
      rcases List.mem_append.mp h with h | h
      · exact absurd h hnot
      · obtain ⟨bs, tail, h3, h4, h5⟩ := clients_shape w ((groupsGiven opts).map (groupNames [])) es
        rw [h3] at h
        rcases List.mem_append.mp h with h | h
        · obtain ⟨b, hb, hm⟩ := List.mem_flatMap.mp h
          unfold forClient at hm
          simp only [List.mem_cons, List.not_mem_nil, or_false, reduceCtorEq, false_or, Ev.work.injEq] at hm
          obtain ⟨h6, h7, _⟩ := h5 b hb
          exact ⟨hm.1, h1, conf, es, b.1, b.2, hc, hs, hes, h6, (chosen_iff opts b.1 b.2).mp h7, hm.2⟩
        · rcases h4 with rfl | rfl
          · cases h
          · simp at h

/-- The storage of a client is the directory of its name in the directory of the server. -/
theorem C112_storage (opts : List Opt) (e : Entry) (c : ClientConf) (h : Wanted opts e c)
    (hd : c.directory ≠ []) : storage e c = c.directory ++ slash :: e.name := by
  have hv := h.2.1
  unfold storage Prepend.prependS Prepend.prependSlash
  cases hdir : c.directory with
  | nil => exact absurd hdir hd
  | cons x xs =>
    cases hn : e.name with
    | nil => rw [hn] at hv; cases hv
    | cons y ys =>
      have hy : y ≠ slash := by
        rintro rfl
        rw [hn] at hv
        simp [Auth.cnameValid] at hv
      simp [Prepend.prependN, Prepend.prependLen, hy]

/-- Its lock is a file in the directory of its name in the directory for locks, or else in that of the
server. -/
theorem C112_lock_path (opts : List Opt) (e : Entry) (c : ClientConf) (h : Wanted opts e c)
    (hd : c.lockdir.getD c.directory ≠ []) :
    lockPath e c = c.lockdir.getD c.directory ++ slash :: e.name ++ bytes "/lockfile.bedup" := by
  have h1 := C112_storage opts { e with conf := some { c with directory := c.lockdir.getD c.directory } }
    { c with directory := c.lockdir.getD c.directory }
    ⟨h.1, h.2.1, h.2.2.1, rfl, h.2.2.2.2⟩ hd
  have h2 : Prepend.prependS (some (c.lockdir.getD c.directory)) e.name =
      c.lockdir.getD c.directory ++ slash :: e.name := h1
  unfold lockPath
  rw [h2]
  cases hdir : c.lockdir.getD c.directory with
  | nil => exact absurd hdir hd
  | cons x xs =>
    have hb : bytes "lockfile.bedup" = 108 :: bytes "ockfile.bedup" := by decide
    have hb' : bytes "/lockfile.bedup" = slash :: 108 :: bytes "ockfile.bedup" := by decide
    have hs : (108 : Byte) ≠ slash := by decide
    rw [hb, hb']
    simp [Prepend.prependS, Prepend.prependSlash, Prepend.prependN, Prepend.prependLen, hs]

/-- Work that fails is reported. -/
theorem C112_failure (w : World) (dflt : Str) (opts : List Opt) (args : List Str) (burp : Bool)
    (dir : Str) (h : Ev.work burp dir ∈ (BedupRun.run w dflt opts args).evs)
    (hd : w.result dir = .error) : (BedupRun.run w dflt opts args).code = 1 := by
  have ho := C112_only w dflt opts args burp dir h
  obtain ⟨hs, hp, h3⟩ := run_cases h
  obtain ⟨v, hv, hr⟩ := run_plain w dflt opts args hp
  rw [(accepted_iff hv args).mpr hs] at hr
  simp only [Bool.not_true, Bool.false_eq_true, if_false] at hr
  rcases ho with ⟨rfl, h1, _⟩ | ⟨rfl, h1, _⟩
  · rw [hv.non.mpr (Or.inr h1), if_pos rfl] at hr
    rw [hr] at h ⊢
    have := args_fail w args dir (by rw [hd]; simp) h
    show (if (fromArgs w args).2.1 = true then 0 else 1) = 1
    rw [this]
    rfl
  · have hn : ¬ v.nonburp = true := by
      intro hn
      rcases hv.non.mp hn with h4 | h4
      · cases h4
      · exact h1 h4
    rw [if_neg hn] at hr
    rw [hr] at h ⊢
    simp only at h ⊢
    have : (fromConf w (v.config.getD dflt) v.groups).2.1 = false := by
      have h' := h
      unfold fromConf at h' ⊢
      simp only at h' ⊢
      split at h'
      · cases h'
      · rename_i h5
        rw [if_neg h5]
        split at h'
        · cases h'
        · split at h'
          · cases h'
          · rename_i h6
            rw [if_neg h6]
            split at h'
            · cases h'
            · rename_i h7
              rw [if_neg h7]
              split at h'
              · simp only at h'
                split at h' <;> simp at h'
              · simp only at h' ⊢
                rcases List.mem_append.mp h' with h' | h'
                · split at h' <;> simp at h'
                · exact clients_fail w _ _ dir hd h'
    rw [this]
    rfl

/-- Files are deleted only with `-n`. -/
theorem C112_delete (w : World) (dflt : Str) (opts : List Opt) (args : List Str) (burp : Bool) (dir : Str)
    (h : Ev.work burp dir ∈ (BedupRun.run w dflt opts args).evs)
    (hd : (BedupRun.run w dflt opts args).deletes = true) : burp = false ∧ Opt.delete ∈ opts := by
  obtain ⟨_, hp, ⟨h1, _, _⟩ | ⟨_, h2, _, _⟩⟩ := run_cases h
  · refine ⟨?_, ?_⟩
    · rcases C112_only w dflt opts args burp dir h with ⟨h3, _⟩ | ⟨_, h3, _⟩
      · exact h3
      · exact absurd h1 h3
    · obtain ⟨v, hv, hr⟩ := run_plain w dflt opts args hp
      have : v.deletedups = true := by
        rw [hr] at hd
        split at hd
        · cases hd
        · split at hd <;> exact hd
      rcases hv.del.mp this with h4 | h4
      · cases h4
      · exact h4
  · rw [h2] at hd; cases hd

/-- Nor are links made unless that is asked for. -/
theorem C112_links (w : World) (dflt : Str) (opts : List Opt) (args : List Str)
    (hl : (BedupRun.run w dflt opts args).links = true) : Opt.link ∈ opts := by
  by_cases hp : BedupRun.Plain opts
  · obtain ⟨v, hv, hr⟩ := run_plain w dflt opts args hp
    have : v.makelinks = true := by
      rw [hr] at hl
      split at hl
      · cases hl
      · split at hl <;> exact hl
    rcases hv.lnk.mp this with h4 | h4
    · cases h4
    · exact h4
  · have : (BedupRun.run w dflt opts args).links = false := by
      unfold BedupRun.run
      cases hparse : parse initial opts with
      | exit n => rfl
      | vars v =>
        exfalso
        clear hl
        have : ∀ v0, (∃ v, parse v0 opts = .vars v) → BedupRun.Plain opts := by
          clear hp hparse
          induction opts with
          | nil => exact fun _ _ => ⟨by simp, by simp⟩
          | cons o os ih =>
            rintro v0 ⟨v, hv⟩
            cases o with
            | version => cases hv
            | help => cases hv
            | _ =>
              obtain ⟨h1, h2⟩ := ih _ ⟨v, hv⟩
              exact ⟨by simp [h1], by simp [h2]⟩
        exact hp (this initial ⟨v, hparse⟩)
    rw [this] at hl
    cases hl

/-- The limit on links is that of the configuration for storage, and else that of the options, which is
at least two. -/
theorem C112_limit (w : World) (dflt : Str) (opts : List Opt) (args : List Str) (burp : Bool) (dir : Str)
    (h : Ev.work burp dir ∈ (BedupRun.run w dflt opts args).evs) :
    (burp = true → ∃ conf, w.conf (configGiven dflt opts) = some conf ∧
      (BedupRun.run w dflt opts args).max = some (unsigned conf.maxHardlinks)) ∧
    (burp = false → 2 ≤ limit opts ∧ (BedupRun.run w dflt opts args).max = some (limit opts)) := by
  have ho := C112_only w dflt opts args burp dir h
  obtain ⟨hs, _, ⟨h1, h2, h3⟩ | ⟨h1, _, h2, h3⟩⟩ := run_cases h
  · rcases ho with ⟨rfl, _⟩ | ⟨_, h4, _⟩
    · exact ⟨fun h => (by cases h), fun _ => ⟨(hs.1 h1).2.2.2.1, h3⟩⟩
    · exact absurd h1 h4
  · rcases ho with ⟨_, h4, _⟩ | ⟨rfl, _⟩
    · exact absurd h4 h1
    · refine ⟨fun _ => ?_, fun h => by cases h⟩
      rw [h2] at h
      obtain ⟨conf, hc, _, hm, _⟩ := mem_fromConf h
      exact ⟨conf, hc, h3.trans hm⟩

/-! ## Locks -/

/-- In a row of clients, work on one comes after its lock, with nothing given up before. -/
theorem flat_locked (bs : List (Entry × ClientConf)) : ∀ (tail pre post : List Ev) (dir : Str),
    (tail = [] ∨ tail = [Ev.released]) → bs.flatMap forClient ++ tail = pre ++ Ev.work true dir :: post →
    ∃ b ∈ bs, dir = storage b.1 b.2 ∧ Ev.locked (lockPath b.1 b.2) ∈ pre ∧ Ev.released ∉ pre := by
  induction bs with
  | nil =>
    intro tail pre post dir ht he
    have : Ev.work true dir ∈ tail := by
      rw [List.flatMap_nil, List.nil_append] at he
      rw [he]
      simp
    rcases ht with rfl | rfl <;> simp at this
  | cons b bs ih =>
    intro tail pre post dir ht he
    rw [List.flatMap_cons, List.append_assoc] at he
    unfold forClient at he
    cases pre with
    | nil => simp at he
    | cons x pre =>
      cases pre with
      | nil =>
        simp only [List.cons_append, List.nil_append, List.cons.injEq, Ev.work.injEq, true_and] at he
        refine ⟨b, List.mem_cons_self, he.2.1.symm, ?_, ?_⟩
        · rw [← he.1]; exact List.mem_cons_self
        · rw [← he.1]; simp
      | cons y pre =>
        simp only [List.cons_append, List.nil_append, List.cons.injEq] at he
        obtain ⟨b', hb', h1, h2, h3⟩ := ih tail pre post dir ht he.2.2
        refine ⟨b', List.mem_cons_of_mem _ hb', h1, ?_, ?_⟩
        · exact List.mem_cons_of_mem _ (List.mem_cons_of_mem _ h2)
        · rw [← he.1, ← he.2.1]
          simp [h3]

/-- The storage of a client is worked on only with the lock of that client, which has been got before and
not given up, and no lock that was got is given up before all the work is done. -/
theorem C112_locked (w : World) (dflt : Str) (opts : List Opt) (args : List Str) (dir : Str)
    (pre post : List Ev) (h : (BedupRun.run w dflt opts args).evs = pre ++ Ev.work true dir :: post) :
    ∃ e c, Wanted opts e c ∧ dir = storage e c ∧ w.free (lockPath e c) = true ∧
      Ev.locked (lockPath e c) ∈ pre ∧ Ev.released ∉ pre := by
  have hm : Ev.work true dir ∈ (BedupRun.run w dflt opts args).evs := by rw [h]; simp
  have ho := C112_only w dflt opts args true dir hm
  obtain ⟨hs, _, ⟨h1, h2, h3⟩ | ⟨h1, _, h2, h3⟩⟩ := run_cases hm
  · rcases ho with ⟨h4, _⟩ | ⟨_, h4, _⟩
    · cases h4
    · exact absurd h1 h4
  · rw [h2] at h hm
    obtain ⟨conf, hc, hsv, _, _, _, p0, hp0, hev⟩ := mem_fromConf hm
    have hp0w : ∀ d, Ev.work true d ∉ p0 := by
      intro d
      rw [hp0]
      split <;> simp
    have hp0r : Ev.released ∉ p0 := by
      rw [hp0]
      split <;> simp
    rcases hev with hev | ⟨es, hes, hev⟩
    · rw [hev] at hm; exact absurd hm (hp0w dir)
    · obtain ⟨bs, tail, h5, h6, h7⟩ := clients_shape w ((groupsGiven opts).map (groupNames [])) es
      rw [hev, h5] at h
      obtain ⟨pre', hpre, hrest⟩ : ∃ pre', pre = p0 ++ pre' ∧
          bs.flatMap forClient ++ tail = pre' ++ Ev.work true dir :: post := by
        rcases List.append_eq_append_iff.mp h with ⟨a, ha, hb⟩ | ⟨a, ha, hb⟩
        · exact ⟨a, ha, hb⟩
        · cases a with
          | nil => exact ⟨[], by simpa using ha.symm, by simpa using hb.symm⟩
          | cons x xs =>
            simp only [List.cons_append, List.cons.injEq] at hb
            exact absurd (by rw [ha, ← hb.1]; simp) (hp0w dir)
      obtain ⟨b, hb, h8, h9, h10⟩ := flat_locked bs tail pre' post dir h6 hrest
      obtain ⟨h11, h12, h13⟩ := h7 b hb
      refine ⟨b.1, b.2, (chosen_iff opts b.1 b.2).mp h12, h8, h13, ?_, ?_⟩
      · rw [hpre]; exact List.mem_append_right _ h9
      · rw [hpre]
        intro h
        rcases List.mem_append.mp h with h | h
        · exact hp0r h
        · exact h10 h

/-- Without groups, the lock for all of it comes first. -/
theorem C112_global (w : World) (dflt : Str) (opts : List Opt) (args : List Str) (dir : Str)
    (h : Ev.work true dir ∈ (BedupRun.run w dflt opts args).evs) (hg : ¬ GivesGroups opts) :
    ∃ conf, w.conf (configGiven dflt opts) = some conf ∧
      (BedupRun.run w dflt opts args).evs.head? = some (.locked (conf.lockfile ++ bytes ".bedup")) ∧
      w.free (conf.lockfile ++ bytes ".bedup") = true := by
  have ho := C112_only w dflt opts args true dir h
  obtain ⟨hs, hp, ⟨h1, h2, h3⟩ | ⟨h1, _, h2, h3⟩⟩ := run_cases h
  · rcases ho with ⟨h4, _⟩ | ⟨_, h4, _⟩
    · cases h4
    · exact absurd h1 h4
  · obtain ⟨v, hv, _⟩ := run_plain w dflt opts args hp
    have hnone : groupsGiven opts = none := by
      have hgr : v.groups = groupsGiven opts := hv.grp
      rw [← hgr]
      cases hvg : v.groups with
      | none => rfl
      | some l =>
        have := hv.hasGrp.mp (by rw [hvg]; rfl)
        rcases this with h | h
        · cases h
        · exact absurd h hg
    rw [h2] at h
    obtain ⟨conf, hc, _, _, _, hfree, pre, hpre, hev⟩ := mem_fromConf h
    refine ⟨conf, hc, ?_, hfree hnone⟩
    rw [if_pos hnone] at hpre
    rw [h2]
    rcases hev with hev | ⟨es, _, hev⟩ <;> rw [hev, hpre] <;> rfl

/-- Any number of runs of bedup at the same time, in any order: no two of them are at work with the
storage of the same client, if they agree on where its lock is. -/
theorem C112_exclusive (w : Nat → World) (dflt : Nat → Str) (opts : Nat → List Opt)
    (args : Nat → List Str) (lockOf : Str → Str)
    (hlock : ∀ i e c, Wanted (opts i) e c → lockPath e c = lockOf (storage e c))
    (es : List (Nat × Ev)) (hx : Exclusive es)
    (hr : ∀ i, ofRun i es <+: (BedupRun.run (w i) (dflt i) (opts i) (args i)).evs)
    (i j : Nat) (hij : i ≠ j) (dir : Str)
    (hi : Ev.work true dir ∈ ofRun i es) (hi' : Ev.released ∉ ofRun i es)
    (hj : Ev.work true dir ∈ ofRun j es) (hj' : Ev.released ∉ ofRun j es) : False := by
  have got : ∀ k, Ev.work true dir ∈ ofRun k es → (k, Ev.locked (lockOf dir)) ∈ es := by
    intro k hk
    obtain ⟨a, b, hab⟩ := List.append_of_mem hk
    obtain ⟨t, ht⟩ := hr k
    have h1 : (BedupRun.run (w k) (dflt k) (opts k) (args k)).evs = a ++ Ev.work true dir :: (b ++ t) := by
      rw [← ht, hab]
      simp
    obtain ⟨e, c, h2, h3, _, h4, _⟩ := C112_locked _ _ _ _ dir a (b ++ t) h1
    have h5 : Ev.locked (lockOf dir) ∈ ofRun k es := by
      rw [hab, h3, ← hlock k e c h2]
      exact List.mem_append_left _ h4
    unfold ofRun at h5
    obtain ⟨⟨k', ev⟩, h6, h7⟩ := List.mem_map.mp h5
    obtain ⟨h8, h9⟩ := List.mem_filter.mp h6
    simp only [decide_eq_true_eq] at h9
    cases h9
    cases h7
    exact h8
  have sub : ∀ k pre post, es = pre ++ post → Ev.released ∉ ofRun k es → Ev.released ∉ ofRun k pre := by
    intro k pre post he h1 h2
    apply h1
    rw [he]
    unfold ofRun at h2 ⊢
    rw [List.filter_append, List.map_append]
    exact List.mem_append_left _ h2
  have have_ : ∀ k pre, (k, Ev.locked (lockOf dir)) ∈ pre → Ev.locked (lockOf dir) ∈ ofRun k pre := by
    intro k pre h
    unfold ofRun
    exact List.mem_map.mpr ⟨_, List.mem_filter.mpr ⟨h, by simp⟩, rfl⟩
  obtain ⟨pre, post, he⟩ := List.append_of_mem (got i hi)
  have hgj := got j hj
  rw [he] at hgj
  rcases List.mem_append.mp hgj with h | h
  · exact hx pre post i _ he j (Ne.symm hij) ⟨have_ j pre h, sub j pre _ he hj'⟩
  · rcases List.mem_cons.mp h with h | h
    · cases h; exact hij rfl
    · obtain ⟨p1, p2, hp⟩ := List.append_of_mem h
      have he2 : es = (pre ++ (i, Ev.locked (lockOf dir)) :: p1) ++ (j, Ev.locked (lockOf dir)) :: p2 := by
        rw [he, hp]
        simp
      exact hx _ p2 j _ he2 i hij ⟨have_ i _ (by simp), sub i _ _ he2 hi'⟩

/-! ## Nothing is left out -/

/-- Every client that is wanted and whose lock can be got is worked on, if all configurations can be
loaded and no work fails. -/
theorem C112_all_partial (w : World) (dflt : Str) (opts : List Opt) (conf : BedupRun.Conf)
    (es : List Entry) (hp : BedupRun.Plain opts) (hs : Sound opts []) (hc : w.conf (configGiven dflt opts) = some conf)
    (hsv : conf.isServer = true) (hes : conf.clients = some es)
    (hg : ∀ l, groupsGiven opts = some l → ∃ g, Named l g)
    (hf : w.free (conf.lockfile ++ bytes ".bedup") = true)
    (hl : ∀ e ∈ es, e.noInode = false → Auth.cnameValid e.name = .valid → e.regular = true →
      e.conf.isSome = true)
    (hr : ∀ e ∈ es, ∀ c, Wanted opts e c → w.result (storage e c) ≠ .error) :
    (BedupRun.run w dflt opts []).code = 0 ∧
      ∀ e ∈ es, ∀ c, Wanted opts e c → w.free (lockPath e c) = true →
        Ev.work true (storage e c) ∈ (BedupRun.run w dflt opts []).evs := by
  obtain ⟨v, hv, hrun⟩ := run_plain w dflt opts [] hp
  rw [(accepted_iff hv []).mpr hs] at hrun
  have h1 := hv.non
  have h2 := hv.conf
  have h3 := hv.grp
  simp only [initial, Bool.false_eq_true, false_or, Option.getD_none] at h1 h2 h3
  have hno : v.nonburp = false := by
    cases hn : v.nonburp with
    | false => rfl
    | true => exact absurd rfl (hs.1 (h1.mp hn)).1
  have h2' : v.config.getD dflt = configGiven dflt opts := h2
  have h3' : v.groups = groupsGiven opts := h3
  rw [hno, h2', h3'] at hrun
  simp only [Bool.not_true, Bool.false_eq_true, if_false] at hrun
  have hnames : (groupsGiven opts).map (groupNames []) ≠ some [] := by
    cases hgg : groupsGiven opts with
    | none => simp
    | some l =>
      obtain ⟨g, hgn⟩ := hg l hgg
      intro h
      rw [Option.map_some, Option.some.injEq] at h
      have := (groupNames_iff l g).mpr hgn
      rw [h] at this
      cases this
  obtain ⟨h4, h5⟩ := clients_all w ((groupsGiven opts).map (groupNames [])) es hl
    (fun e he c hch => hr e he c ((chosen_iff opts e c).mp hch))
  have hfc : ∃ pre, (fromConf w (configGiven dflt opts) (groupsGiven opts)).1 =
        pre ++ (clients w ((groupsGiven opts).map (groupNames [])) es).1 ∧
      (fromConf w (configGiven dflt opts) (groupsGiven opts)).2.1 = true := by
    unfold fromConf
    simp only [hc, hsv, hf, hes, Bool.not_true, Bool.false_eq_true, if_false, Bool.and_false]
    rw [if_neg hnames]
    exact ⟨_, rfl, h4⟩
  obtain ⟨pre, h6, h7⟩ := hfc
  rw [hrun, h7]
  refine ⟨rfl, ?_⟩
  intro e he c hw hfr
  show _ ∈ (fromConf w (configGiven dflt opts) (groupsGiven opts)).1
  rw [h6]
  exact List.mem_append_right _ (h5 e he c ((chosen_iff opts e c).mpr hw) hfr)

/-- With `-n`, all the directories that are named are worked on, in their order, if no work fails. -/
theorem C112_args_partial (w : World) (dflt : Str) (opts : List Opt) (args : List Str)
    (hp : BedupRun.Plain opts) (hs : Sound opts args) (hn : Opt.nonburp ∈ opts)
    (ha : ∀ a ∈ args, a ≠ [] ∧ a.getLast? ≠ some slash ∧ w.result a = .done) :
    (BedupRun.run w dflt opts args).evs = args.map (Ev.work false) ∧
      (BedupRun.run w dflt opts args).code = 0 ∧ (BedupRun.run w dflt opts args).defined = true := by
  obtain ⟨v, hv, hrun⟩ := run_plain w dflt opts args hp
  rw [(accepted_iff hv args).mpr hs, hv.non.mpr (Or.inr hn)] at hrun
  simp only [Bool.not_true, Bool.false_eq_true, if_false, if_true] at hrun
  have h : fromArgs w args = (args.map (Ev.work false), true, true) := by
    clear hrun hs
    induction args with
    | nil => rfl
    | cons a as ih =>
      obtain ⟨h1, h2, h3⟩ := ha a List.mem_cons_self
      have ht : trimmed a = some a := by
        unfold trimmed
        rw [List.getLast?_eq_some_getLast h1] at h2 ⊢
        simp only
        rw [if_neg (fun h => h2 (by rw [h]))]
      unfold fromArgs
      rw [ht]
      simp only [h3]
      rw [ih (fun a' h => ha a' (List.mem_cons_of_mem _ h))]
      rfl
  rw [hrun, h]
  exact ⟨rfl, rfl, rfl⟩

/-! ## What goes wrong, and examples -/

/-- A client. -/
def bedupClient (name : String) (group : Option Str) : Entry :=
  ⟨bytes name, false, true, some ⟨group, bytes "/var/spool/burp", none⟩⟩

/-- A server with these clients, where all locks can be got and all work is done. -/
def bedupWorld (es : List Entry) : World :=
  { conf := fun _ => some ⟨true, 10000, bytes "/run/burp.lock", some es⟩
    free := fun _ => true
    result := fun _ => .done }

/-- C112 fails if the configuration of one client cannot be loaded: bedup reports success, and the
clients after it have not been looked at. -/
theorem C112_bad_client_violated :
    ∃ (es : List Entry) (e : Entry) (c : ClientConf), e ∈ es ∧ Wanted [.link] e c ∧
      (BedupRun.run (bedupWorld es) [] [.link] []).code = 0 ∧
      Ev.work true (storage e c) ∉ (BedupRun.run (bedupWorld es) [] [.link] []).evs := by
  refine ⟨[⟨bytes "bad", false, true, none⟩, bedupClient "good" none], bedupClient "good" none,
    ⟨none, bytes "/var/spool/burp", none⟩, by simp, ⟨rfl, by decide, rfl, rfl, ?_⟩, by decide, by decide⟩
  intro l hl
  cases hl

/-- C112 fails for an empty argument: the byte before it is read. -/
theorem C112_empty_argument_violated :
    ∃ args, Sound [.nonburp] args ∧ (BedupRun.run (bedupWorld []) [] [.nonburp] args).defined = false := by
  refine ⟨[[]], ⟨fun _ => ⟨by simp, ?_, ?_, by decide, by simp⟩, fun h => absurd (by simp) h⟩, by decide⟩
  · rintro ⟨p, hp⟩; simp at hp
  · rintro ⟨p, hp⟩; simp at hp

/-- C112 fails for every client before the first that has a backup under way: there is no link to read,
and the byte before the buffer for its name is read. -/
theorem C112_no_link_violated : getLink [] none = none := rfl

/-- C112 fails for a negative number: it is not refused, and is a limit of thousands of millions. -/
theorem C112_negative_violated :
    ∃ n : Int, n < 2 ∧ (BedupRun.run (bedupWorld []) [] [.nonburp, .max n] [bytes "/a"]).code = 0 ∧
      (BedupRun.run (bedupWorld []) [] [.nonburp, .max n] [bytes "/a"]).max = some 4294967295 :=
  ⟨-1, by decide, by decide, by decide⟩

/-- C112 fails to hold for the clients after one that has a directory that cannot be opened: the work
stops there. -/
theorem C112_stops_violated :
    ∃ (w : World) (es : List Entry) (e : Entry) (c : ClientConf), e ∈ es ∧ Wanted [.link] e c ∧
      w.conf [] = some ⟨true, 10000, bytes "/run/burp.lock", some es⟩ ∧ w.result (storage e c) = .done ∧
      Ev.work true (storage e c) ∉ (BedupRun.run w [] [.link] []).evs := by
  refine ⟨{ bedupWorld [bedupClient "a" none, bedupClient "b" none] with
      result := fun d => if d = bytes "/var/spool/burp/a" then .error else .done },
    [bedupClient "a" none, bedupClient "b" none], bedupClient "b" none,
    ⟨none, bytes "/var/spool/burp", none⟩, by simp, ⟨rfl, by decide, rfl, rfl, ?_⟩, rfl, by decide, by decide⟩
  intro l hl
  cases hl

/-- Two groups are asked for, and three clients are there. -/
def bedupGroups : List Opt := [.link, .groups (bytes "xp,linux"), .verbose]

example : BedupRun.Plain bedupGroups ∧ Sound bedupGroups [] := by
  refine ⟨⟨by simp [bedupGroups], by simp [bedupGroups]⟩, fun h => ?_, fun _ => ⟨rfl, ?_, by decide⟩⟩
  · simp [bedupGroups] at h
  · simp [bedupGroups]

example : Named (bytes "xp,linux") (bytes "linux") :=
  ⟨by decide, by decide, by decide, bytes "xp,", [], by decide, Or.inr (Or.inl (by decide)), Or.inl rfl⟩

example : (BedupRun.run (bedupWorld [bedupClient "a" (some (bytes "xp")), bedupClient "b" (some (bytes "mac")),
      bedupClient "c" (some (bytes "linux")), bedupClient "d~" (some (bytes "xp"))]) []
      bedupGroups []).evs =
    [.locked (bytes "/var/spool/burp/a/lockfile.bedup"), .work true (bytes "/var/spool/burp/a"),
      .locked (bytes "/var/spool/burp/c/lockfile.bedup"), .work true (bytes "/var/spool/burp/c"),
      .released] := by decide

example : (BedupRun.run (bedupWorld []) [] [.nonburp, .delete] [bytes "/a", bytes "/b/"]).evs =
    [.work false (bytes "/a"), .work false (bytes "/b")] := by decide

example : ¬ Sound [.delete] [] := fun h => (h.2 (by simp)).2.1 (by simp)

/-- Two runs for different groups at the same time. -/
example : Exclusive [(0, .locked (bytes "/a/lockfile.bedup")), (1, .locked (bytes "/b/lockfile.bedup")),
    (0, .work true (bytes "/a")), (1, .work true (bytes "/b"))] := by
  intro pre post i path he j hj hh
  have hlen := congrArg List.length he
  have hm : Ev.locked path ∈ ofRun j pre := hh.1
  unfold ofRun at hm
  obtain ⟨⟨k, ev⟩, h1, h2⟩ := List.mem_map.mp hm
  obtain ⟨h3, h4⟩ := List.mem_filter.mp h1
  simp only at h2
  match pre, he, h3 with
  | [], _, h3 => cases h3
  | [x], he, h3 =>
    simp only [List.cons_append, List.nil_append, List.cons.injEq, Prod.mk.injEq, Ev.locked.injEq] at he
    have h5 := List.mem_singleton.mp h3
    rw [← he.1] at h5
    cases h5
    simp only [Ev.locked.injEq] at h2
    rw [← h2] at he
    exact absurd he.2.1.2 (by decide)
  | [x, y], he, h3 => simp at he
  | [x, y, z], he, h3 => simp at he
  | x :: y :: z :: u :: vs, he, h3 => simp at he

end Verif
