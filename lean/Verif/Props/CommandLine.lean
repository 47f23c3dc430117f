import Verif.Lemmas.CommandLine

/-!
# C96: the command line
-/

namespace Verif
open CommandLine Seed

/-- What is read from a command line are the options that it spells. -/
theorem C96_spelled (ws : List Str) (gs : List Given) :
    getopt none ws = (gs.map (fun g => .opt g.1 g.2), false) ↔ Spells gs ws :=
  ⟨fun h => (spells_of_getopt ws).1 gs h, getopt_of_spells⟩

/-- A command line says one thing only. -/
theorem C96_unique {ws : List Str} {gs gs' : List Given} (h : Spells gs ws) (h' : Spells gs' ws) : gs = gs' := by
  have e := (getopt_of_spells h).symm.trans (getopt_of_spells h')
  simp only [Prod.mk.injEq, and_true] at e
  refine (List.map_inj_right ?_).mp e
  rintro ⟨a, b⟩ ⟨c, d⟩ h
  simpa [toItem] using h

theorem start_acts (e : Env) (l : Line) : (start e l).Acts := by
  unfold start Out.Acts
  dsimp only
  split
  · exact ⟨(fun h => by cases h), (fun h => by cases h)⟩
  · split
    · exact ⟨(fun h => by cases h), (fun h => by cases h)⟩
    · split
      · exact ⟨(fun h => by cases h), (fun h => by cases h)⟩
      · split
        · exact ⟨(fun h => by cases h), (fun h => by cases h)⟩
        · split
          · exact ⟨(fun h => by cases h), (fun h => by cases h)⟩
          · split <;> exact ⟨(fun h => by cases h), (fun h => by cases h)⟩

/-- What is done is what the options say. -/
theorem C96_line {ws : List Str} {gs : List Given} (h : Spells gs ws) (hp : ∀ g ∈ gs, Plain g) (e : Env)
    (conffile : Str) : main e conffile ws = start e (lineOf conffile gs) := by
  unfold main
  rw [getopt_of_spells h]
  have := loop_plain conffile gs [] (fun g hg => ⟨spells_formed h g hg, hp g hg⟩) []
  simp only [List.append_nil, List.nil_append, lineOf_nil] at this
  simp [this, loop]

/-- Nothing is done unless every word is understood: no option is unknown, none lacks its argument, and no word is left. -/
theorem C96_refused (e : Env) (conffile : Str) (ws : List Str) :
    (main e conffile ws).Acts ↔ ∃ gs, Spells gs ws ∧ ∀ g ∈ gs, Plain g := by
  constructor
  · intro h
    unfold main at h
    split at h
    · exact absurd rfl h.2
    · exact absurd rfl h.1
    · rename_i l hl
      split at h
      · exact absurd rfl h.1
      · rename_i hw
        obtain ⟨gs, hgs⟩ := items_given _ _ ⟨l, hl⟩
        refine ⟨gs, (spells_of_getopt ws).1 gs (Prod.ext hgs (by simpa using hw)), ?_⟩
        rw [hgs] at hl
        exact plain_of_loop gs _ ⟨l, hl⟩
  · rintro ⟨gs, h, hp⟩
    rw [C96_line h hp]
    exact start_acts e _

/-- The first option that shows something, or that is not understood, ends the run. -/
theorem C96_first {ws : List Str} {gs gs' : List Given} {g : Given} (h : Spells (gs ++ g :: gs') ws)
    (hp : ∀ x ∈ gs, Plain x) (e : Env) (conffile : Str) :
    (Shows g → main e conffile ws = .shown) ∧ (Helps g → main e conffile ws = .usage) := by
  have hf := spells_formed h
  have hl := fun r => loop_first conffile gs (g := g) (fun x hx => ⟨hf x (by simp [hx]), hp x hx⟩) r
  unfold main
  rw [getopt_of_spells h]
  simp only [List.map_append, List.map_cons, hl]
  constructor
  · intro hs
    rw [step_shows hs]
  · intro hs
    rw [step_helps hs]

theorem defaults_none (l : Line) : l.defaults = none ↔ Aimless l := by
  unfold Line.defaults Aimless
  cases hb : l.backup with
  | none =>
    by_cases ha : l.act = .delete
    · simp [ha]
    · simp [ha]
  | some b => simp

theorem defaults_settle {l l' : Line} (h : l.defaults = some l') :
    { l' with overrides := allOverrides l }.settle = effective l ∧ l'.act = l.act ∧ l'.randomise = l.randomise := by
  obtain ⟨act, b, b2, oc, cf, dir, d2, f, g, lf, fk, ov, ra, re, ci, st, vs, te, bf⟩ := l
  have key : oc.filter (fun c => !c.isEmpty) = if oc = some [] then none else oc := by
    match oc with
    | none => rfl
    | some [] => rfl
    | some (a :: t) => simp [Option.filter]
  unfold Line.defaults at h
  cases b <;> cases b2 <;> cases act <;> simp at h <;> subst h <;>
    exact ⟨by simp [Line.settle, effective, key, allOverrides], rfl, rfl⟩

theorem start_eq (e : Env) (l : Line) : start e l =
    match e.load l.conffile (allOverrides l) with
    | none => .badConf
    | some c =>
      if l.test = true then .tested (runTestConfs e l.origClient)
      else match l.defaults with
        | none => .noBackup
        | some _ =>
          if (c.mode = .server ∨ l.act.locks = true) ∧ e.lock = false then .noLock
          else if e.chuser = false then .noUser
          else match c.mode with
            | .server => .server (effective l)
            | .client => .client (effective l) (waits l c) l.act.locks := by
  have ho : (l.overrides ++ if l.act = .listParseable then [bytes "stdout=0"] else []) = allOverrides l := by
    unfold allOverrides
    split <;> simp
  unfold start
  simp only [ho]
  cases hc : e.load l.conffile (allOverrides l) with
  | none => rfl
  | some c =>
    simp only
    split
    · rfl
    · cases hd : l.defaults with
      | none => rfl
      | some l' =>
        obtain ⟨h1, h2, h3⟩ := defaults_settle hd
        obtain ⟨m, r⟩ := c
        rw [h2, h3] at h1
        simp only [h1, h2, h3]
        cases m with
        | server => cases e.lock <;> cases e.chuser <;> simp
        | client =>
          have hw : (if (decide (Mode.client = Mode.client) && decide (l.act ∈ [Act.backupTimed, .timerCheck])) = true then
              if l.randomise ≠ 0 then l.randomise else r else 0) = waits l ⟨.client, r⟩ := by
            unfold waits
            by_cases hr : l.randomise = 0 <;> simp [hr]
          rw [hw]
          cases e.lock <;> cases e.chuser <;> cases l.act.locks <;> simp

/-- Exactly when the program acts as a client, and for what: the options are understood, the configuration is that of a
client and is good, nothing is only to be tested, a deletion says of what; and it has the lock if it makes a backup. -/
theorem C96_client (e : Env) (conffile : Str) (ws : List Str) (l : Line) (d : Int) (k : Bool) :
    main e conffile ws = .client l d k ↔
      ∃ gs c, Spells gs ws ∧ (∀ g ∈ gs, Plain g) ∧ has .test gs = false ∧
        e.load (lineOf conffile gs).conffile (allOverrides (lineOf conffile gs)) = some c ∧ c.mode = .client ∧
        ¬ Aimless (lineOf conffile gs) ∧ e.chuser = true ∧ l = effective (lineOf conffile gs) ∧
        d = waits (lineOf conffile gs) c ∧
        (k = true ↔ l.act = .backup ∨ l.act = .backupTimed ∨ l.act = .timerCheck) ∧ (k = true → e.lock = true) := by
  have hlk : ∀ a : Act, a.locks = true ↔ a = .backup ∨ a = .backupTimed ∨ a = .timerCheck := by
    intro a; cases a <;> decide
  constructor
  · intro h
    obtain ⟨gs, hs, hp⟩ := (C96_refused e conffile ws).mp (by rw [h]; exact ⟨(fun h => by cases h), (fun h => by cases h)⟩)
    rw [C96_line hs hp, start_eq] at h
    refine ⟨gs, ?_⟩
    cases hc : e.load (lineOf conffile gs).conffile (allOverrides (lineOf conffile gs)) with
    | none => rw [hc] at h; cases h
    | some c =>
      rw [hc] at h
      simp only at h
      split at h
      · cases h
      · rename_i ht
        cases hd : (lineOf conffile gs).defaults with
        | none => rw [hd] at h; cases h
        | some l' =>
          rw [hd] at h
          simp only at h
          split at h
          · cases h
          · rename_i hl
            split at h
            · cases h
            · rename_i hu
              split at h
              · cases h
              · rename_i hm
                injection h with h1 h2 h3
                refine ⟨c, hs, hp, by simpa [lineOf] using ht, rfl, hm, ?_, by simpa using hu, h1.symm, h2.symm, ?_, ?_⟩
                · intro ha
                  rw [(defaults_none _).mpr ha] at hd
                  cases hd
                · rw [← h3, ← h1, hlk]
                  rfl
                · intro hk
                  rw [← h3] at hk
                  simp [hk] at hl
                  exact hl
  · rintro ⟨gs, c, hs, hp, ht, hc, hm, hn, hu, rfl, rfl, hk, hkl⟩
    rw [C96_line hs hp, start_eq, hc]
    have hd : ∃ l', (lineOf conffile gs).defaults = some l' := by
      cases hd : (lineOf conffile gs).defaults with
      | none => exact absurd ((defaults_none _).mp hd) hn
      | some l' => exact ⟨l', rfl⟩
    obtain ⟨l', hd⟩ := hd
    have ht' : (lineOf conffile gs).test = false := ht
    have hkk : (lineOf conffile gs).act.locks = k := by
      rw [Bool.eq_iff_iff, hk, hlk]
      rfl
    simp only [ht', hd, hm, hu, hkk]
    cases k with
    | false => simp
    | true => simp [hkl rfl]

/-- Exactly when the program acts as a server: it always has the lock. -/
theorem C96_server (e : Env) (conffile : Str) (ws : List Str) (l : Line) :
    main e conffile ws = .server l ↔
      ∃ gs c, Spells gs ws ∧ (∀ g ∈ gs, Plain g) ∧ has .test gs = false ∧
        e.load (lineOf conffile gs).conffile (allOverrides (lineOf conffile gs)) = some c ∧ c.mode = .server ∧
        ¬ Aimless (lineOf conffile gs) ∧ e.lock = true ∧ e.chuser = true ∧ l = effective (lineOf conffile gs) := by
  constructor
  · intro h
    obtain ⟨gs, hs, hp⟩ := (C96_refused e conffile ws).mp (by rw [h]; exact ⟨(fun h => by cases h), (fun h => by cases h)⟩)
    rw [C96_line hs hp, start_eq] at h
    refine ⟨gs, ?_⟩
    cases hc : e.load (lineOf conffile gs).conffile (allOverrides (lineOf conffile gs)) with
    | none => rw [hc] at h; cases h
    | some c =>
      rw [hc] at h
      simp only at h
      split at h
      · cases h
      · rename_i ht
        cases hd : (lineOf conffile gs).defaults with
        | none => rw [hd] at h; cases h
        | some l' =>
          rw [hd] at h
          simp only at h
          split at h
          · cases h
          · rename_i hl
            split at h
            · cases h
            · rename_i hu
              split at h
              · rename_i hm
                injection h with h1
                refine ⟨c, hs, hp, by simpa [lineOf] using ht, rfl, hm, ?_, ?_, by simpa using hu, h1.symm⟩
                · intro ha
                  rw [(defaults_none _).mpr ha] at hd
                  cases hd
                · simpa [hm] using hl
              · cases h
  · rintro ⟨gs, c, hs, hp, ht, hc, hm, hn, hl, hu, rfl⟩
    rw [C96_line hs hp, start_eq, hc]
    have hd : ∃ l', (lineOf conffile gs).defaults = some l' := by
      cases hd : (lineOf conffile gs).defaults with
      | none => exact absurd ((defaults_none _).mp hd) hn
      | some l' => exact ⟨l', rfl⟩
    obtain ⟨l', hd⟩ := hd
    have ht' : (lineOf conffile gs).test = false := ht
    simp [ht', hd, hm, hu, hl]

/-- Nothing is deleted unless `delete` is spelled out in the last `-a`, and a backup is given. -/
theorem C96_delete {e : Env} {conffile : Str} {ws : List Str} {l : Line} {d : Int} {k : Bool}
    (h : main e conffile ws = .client l d k) (ha : l.act = .delete) :
    ∃ gs v b, Spells gs ws ∧ (vals .action gs).getLast? = some v ∧ bytes "delete" <+: v ∧
      (vals .backup gs).head? = some b ∧ l.backup = some b := by
  obtain ⟨gs, c, hs, hp, -, -, -, hn, -, rfl, -⟩ := (C96_client e conffile ws l d k).mp h
  have ha' : (lineOf conffile gs).act = .delete := ha
  have hb : (lineOf conffile gs).backup ≠ none := fun hb => hn ⟨ha', hb⟩
  obtain ⟨b, hb⟩ := Option.ne_none_iff_exists'.mp hb
  have ho : ((vals .action gs).getLast?.bind actionOf).getD .list = .delete := ha'
  cases hv : (vals .action gs).getLast? with
  | none =>
    rw [hv] at ho
    cases ho
  | some v =>
    rw [hv] at ho
    simp only [Option.bind_some] at ho
    refine ⟨gs, v, b, hs, hv, ?_, ?_, ?_⟩
    · unfold actionOf at ho
      cases hf : actions.find? (fun x => (bytes x.1).isPrefixOf v) with
      | none =>
        rw [hf] at ho
        cases ho
      | some x =>
        rw [hf] at ho
        have h1 : x.2 = .delete := ho
        have h2 := List.find?_some hf
        have h3 : ∀ x ∈ actions, x.2 = .delete → x.1 = "delete" := by decide
        rw [h3 x (List.mem_of_find?_eq_some hf) h1] at h2
        exact List.isPrefixOf_iff_prefix.mp h2
    · rw [List.head?_eq_getElem?]
      exact hb
    · simp [effective, hb]

/-- What a client asks the server for is what the options say, with the defaults of `Verif.Model.Request`. -/
theorem C96_request {e : Env} {conffile : Str} {ws : List Str} {gs : List Given} {l : Line} {d : Int} {k : Bool}
    (h : main e conffile ws = .client l d k) (hs : Spells gs ws) (rl : Bool) {a : Request.Args}
    (ha : (lineOf conffile gs).args rl = some a) : Request.defaults a = l.args rl := by
  obtain ⟨gs', c, hs', hp, -, -, -, hn, -, rfl, -⟩ := (C96_client e conffile ws l d k).mp h
  rw [C96_unique hs' hs] at hn ⊢
  generalize lineOf conffile gs = x at *
  obtain ⟨act, b, b2, oc, cf, dir, d2, f, g, lf, fk, ov, ra, re, ci, st, vs, te, bf⟩ := x
  cases act <;> simp [Line.args] at ha <;> subst ha <;> cases b <;> cases b2 <;>
    first
    | (exfalso; exact hn ⟨rfl, rfl⟩)
    | simp [Request.defaults, effective, Line.args]

/-! ## The order of options -/

theorem vals_subject (l : Letter) : ∀ gs : List Given,
    vals l gs = vals l (gs.filter (fun g => decide (g.1.subject = l.subject)))
  | [] => rfl
  | g :: gs => by
    have ih := vals_subject l gs
    by_cases h : g.1.subject = l.subject
    · simp only [List.filter, h, decide_true]
      unfold vals at ih ⊢
      simp only [List.filterMap_cons, ih]
    · have hne : g.1 ≠ l := fun e => h (by rw [e])
      simp only [List.filter, h, decide_false]
      rw [← ih]
      simp [vals, hne]

theorem has_subject (l : Letter) : ∀ gs : List Given,
    has l gs = has l (gs.filter (fun g => decide (g.1.subject = l.subject)))
  | [] => rfl
  | g :: gs => by
    have ih := has_subject l gs
    by_cases h : g.1.subject = l.subject
    · simp only [List.filter, h, decide_true]
      unfold has at ih ⊢
      simp only [List.any_cons, ih]
    · have hne : g.1 ≠ l := fun e => h (by rw [e])
      simp only [List.filter, h, decide_false]
      rw [← ih]
      simp [has, hne]

theorem lastOf_subject {a b : Letter} (hab : a.subject = b.subject) (gs : List Given) :
    lastOf a b gs = lastOf a b (gs.filter (fun g => decide (g.1.subject = a.subject))) := by
  unfold lastOf
  rw [List.filter_filter]
  congr 1
  apply List.filter_congr
  intro g _
  by_cases h1 : g.1 = a
  · simp [h1]
  · by_cases h2 : g.1 = b
    · simp [h2, hab]
    · simp [h1, h2]

theorem overrides_subject : ∀ gs : List Given,
    gs.flatMap overridesOf = (gs.filter (fun g => decide (g.1.subject = 0))).flatMap overridesOf
  | [] => rfl
  | g :: gs => by
    have ih := overrides_subject gs
    by_cases h : g.1.subject = 0
    · simp only [List.filter, h, decide_true, List.flatMap_cons, ih]
    · simp only [List.filter, h, decide_false, List.flatMap_cons]
      rw [← ih]
      obtain ⟨k, v⟩ := g
      cases k <;> first | (exfalso; exact h rfl) | rfl

theorem lineOf_subject (conffile : Str) {gs gs' : List Given}
    (h : ∀ n, gs.filter (fun g => decide (g.1.subject = n)) = gs'.filter (fun g => decide (g.1.subject = n))) :
    lineOf conffile gs = lineOf conffile gs' := by
  have hv : ∀ l, vals l gs = vals l gs' := fun l => by rw [vals_subject, h, ← vals_subject]
  have hh : ∀ l, has l gs = has l gs' := fun l => by rw [has_subject, h, ← has_subject]
  have h1 : lastOf .regex .iregex gs = lastOf .regex .iregex gs' := by
    rw [lastOf_subject (a := .regex) (b := .iregex) rfl, h, ← lastOf_subject (a := .regex) (b := .iregex) rfl]
  have h2 : lastOf .vssOff .vssStrip gs = lastOf .vssOff .vssStrip gs' := by
    rw [lastOf_subject (a := .vssOff) (b := .vssStrip) rfl, h, ← lastOf_subject (a := .vssOff) (b := .vssStrip) rfl]
  have h3 : gs.flatMap overridesOf = gs'.flatMap overridesOf := by
    rw [overrides_subject, h, ← overrides_subject]
  simp only [lineOf, hv, hh, h1, h2, h3]

/-- The order of options that have nothing to do with each other does not matter, nor how they are written. -/
theorem C96_order {ws ws' : List Str} {gs gs' : List Given} (hs : Spells gs ws) (hs' : Spells gs' ws')
    (hp : ∀ g ∈ gs, Plain g)
    (h : ∀ n, gs.filter (fun g => decide (g.1.subject = n)) = gs'.filter (fun g => decide (g.1.subject = n)))
    (e : Env) (conffile : Str) : main e conffile ws = main e conffile ws' := by
  have hp' : ∀ g ∈ gs', Plain g := by
    intro g hg
    refine hp g ?_
    have : g ∈ gs'.filter (fun x => decide (x.1.subject = g.1.subject)) := by simp [hg]
    rw [← h] at this
    exact (List.mem_filter.mp this).1
  rw [C96_line hs hp, C96_line hs' hp', lineOf_subject conffile h]

/-- The program reports success by itself only if it has shown something or has tested a configuration. -/
theorem C96_code_partial {e : Env} {conffile : Str} {ws : List Str} (h : (main e conffile ws).code = some 0) :
    main e conffile ws = .shown ∨ (main e conffile ws = .tested 0 ∧ ∃ gs c, Spells gs ws ∧ has .test gs = true ∧
      (vals .client gs) = [] ∧
      e.load (lineOf conffile gs).conffile (allOverrides (lineOf conffile gs)) = some c) := by
  by_cases hu : main e conffile ws = .usage
  · rw [hu] at h; cases h
  · by_cases hsh : main e conffile ws = .shown
    · exact Or.inl hsh
    · right
      obtain ⟨gs, hs, hp⟩ := (C96_refused e conffile ws).mp ⟨hu, hsh⟩
      rw [C96_line hs hp, start_eq] at h ⊢
      cases hc : e.load (lineOf conffile gs).conffile (allOverrides (lineOf conffile gs)) with
      | none => rw [hc] at h; cases h
      | some c =>
        rw [hc] at h
        simp only at h ⊢
        by_cases ht : (lineOf conffile gs).test = true
        · simp only [ht, if_true] at h ⊢
          cases ho : (lineOf conffile gs).origClient with
          | some v =>
            rw [ho] at h
            simp [runTestConfs, Out.code] at h
          | none => exact ⟨rfl, gs, c, hs, ht, List.getLast?_eq_none_iff.mp ho, hc⟩
        · simp only [ht] at h
          exfalso
          cases hd : (lineOf conffile gs).defaults with
          | none => rw [hd] at h; cases h
          | some l' =>
            rw [hd] at h
            simp only [Bool.false_eq_true, if_false] at h
            split at h
            · cases h
            · split at h
              · cases h
              · split at h <;> cases h

end Verif
