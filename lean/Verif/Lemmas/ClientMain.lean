import Verif.Spec.ClientMain
import Verif.Props.RunAction
import Verif.Lemmas.SendConf

/-!
# Facts about the courses a client may take
-/

namespace Verif.ClientMain
open Verif RunAction

theorem scriptRet_good (e : Ended) : decide (scriptRet e = 0) = e.good := by
  cases e with
  | failed => rfl
  | exited n =>
    unfold scriptRet Ended.good
    rw [Bool.eq_iff_iff, decide_eq_true_eq, beq_iff_eq]
    exact Int.natCast_eq_zero
  | signalled n => rfl

/-- What is true of scripts and work in one go. -/
structure Facts (o : Opts) (e : Env) (a : Act) (rs : Bool) (lv : Int) (l : List Event) (ok : Bool) : Prop where
  sound : ok = true → .worked a rs lv true ∈ l ∧ ∀ x ∈ l, x.bad = false
  complete : e.globOk = true → .worked a rs lv true ∈ l → (∀ x ∈ l, x.bad = false) → ok = true
  rank : ∀ x ∈ l, 2 ≤ x.rank
  order : l.Pairwise (fun x y => x.rank < y.rank)
  preBad : ∀ args r, .pre args r ∈ l → r.good = false → ∀ x ∈ l, x.isWork = false
  work : ∀ a' rs' lv' ok', .worked a' rs' lv' ok' ∈ l → a' = a ∧ rs' = rs ∧ lv' = lv
  postRun : ∀ p, o.postScript = some p → e.globOk = true →
      ((∃ x ∈ l, x.isPost = true) ↔ o.postOnFail = true ∨ ∀ x ∈ l, x.isPost = false → x.bad = false)
  postArgs : ∀ p, o.postScript = some p → e.globOk = true → o.reserved = true → ∀ args r, .post args r ∈ l →
      args.take 3 = [p, bytes "post", if ∀ x ∈ l, x.isPost = false → x.bad = false then bytes "0" else bytes "1"]
  noPost : o.postScript = none → ∀ x ∈ l, x.isPost = false
  pre : ∀ p, o.preScript = some p → ∃ args r, .pre (p :: args) r ∈ l
  noPre : o.preScript = none → ∀ x ∈ l, x.isPre = false

theorem scriptArgs_head (p : Str) (x y : List Str) : ∃ z, scriptArgs (p :: x) y = p :: z :=
  ⟨(x ++ y).take 62, rfl⟩

theorem post_args (o : Opts) (h : o.reserved = true) (p : Str) (f : Bool) (y : List Str) :
    (scriptArgs (p :: reserved o false f) y).take 3 = [p, bytes "post", if f then bytes "1" else bytes "0"] := by
  unfold reserved
  rw [h]
  rfl

/-- The possible courses: before, during and after. -/
theorem around_cases {o : Opts} {e : Env} {glob : Bool} {ev : Event} {l : List Event} {ok : Bool}
    (h : around o e glob ev = (l, ok)) :
    ∃ (l1 : List Event) (ok1 : Bool) (ok2 : Bool) (l3 : List Event),
      l = l1 ++ (if ok1 then [ev] else []) ++ l3 ∧ ok2 = (ok1 && e.work) ∧
      (o.preScript = none ∧ l1 = [] ∧ ok1 = true ∨
        ∃ p args, o.preScript = some p ∧ l1 = [.pre (p :: args) e.pre] ∧ (ok1 = true → e.pre.good = true) ∧
          (e.globOk = true → ok1 = e.pre.good)) ∧
      (o.postScript = none ∧ l3 = [] ∧ ok = ok2 ∨
        ∃ p, o.postScript = some p ∧
          ((ok2 || o.postOnFail) = false ∧ l3 = [] ∧ ok = ok2 ∨
           (ok2 || o.postOnFail) = true ∧ ok = (ok2 && e.post.good) ∧
             l3 = [.post (scriptArgs (p :: reserved o false (!ok2)) o.postArgs) e.post])) := by
  have key : around o e glob ev = ((runPre o e glob).1 ++ (if (runPre o e glob).2 then [ev] else []) ++
      (runPost o e ((runPre o e glob).2 && e.work)).1, (runPost o e ((runPre o e glob).2 && e.work)).2) := by
    unfold around
    generalize runPre o e glob = r
    rcases r with ⟨x, y⟩
    cases y <;> rfl
  rw [key] at h
  obtain ⟨h1, h2⟩ := Prod.mk.inj h
  refine ⟨(runPre o e glob).1, (runPre o e glob).2, (runPre o e glob).2 && e.work,
    (runPost o e ((runPre o e glob).2 && e.work)).1, h1.symm, rfl, ?_, ?_⟩
  · clear key h h1 h2
    unfold runPre
    cases o.preScript with
    | none => exact Or.inl ⟨rfl, rfl, rfl⟩
    | some p =>
      obtain ⟨z, hz⟩ := scriptArgs_head p (reserved o true false) o.preArgs
      dsimp only
      refine Or.inr ⟨p, z, rfl, by rw [hz], ?_, ?_⟩
      · rw [scriptRet_good, Bool.and_eq_true]
        exact fun h => h.1
      · intro hg
        rw [scriptRet_good, hg, Bool.or_true, Bool.and_true]
  · rw [← h2]
    clear key h h1 h2
    generalize ((runPre o e glob).2 && e.work) = k
    unfold runPost
    cases o.postScript with
    | none => exact Or.inl ⟨rfl, rfl, rfl⟩
    | some p =>
      refine Or.inr ⟨p, rfl, ?_⟩
      dsimp only
      rw [scriptRet_good]
      cases hb : (k || o.postOnFail) with
      | false => exact Or.inl ⟨rfl, rfl, rfl⟩
      | true => exact Or.inr ⟨rfl, rfl, rfl⟩

theorem around_facts {o : Opts} {e : Env} {glob : Bool} {a : Act} {rs : Bool} {lv : Int} {l : List Event} {ok : Bool}
    (h : around o e glob (.worked a rs lv e.work) = (l, ok)) : Facts o e a rs lv l ok := by
  obtain ⟨l1, ok1, ok2, l3, rfl, h2, h3, h4⟩ := around_cases h
  clear h
  have pa := post_args o
  generalize e.work = w at *
  generalize e.pre = pe at *
  generalize e.post = qe at *
  rcases h3 with ⟨h3, rfl, rfl⟩ | ⟨p, args, h3, rfl, h31, h32⟩ <;>
  rcases h4 with ⟨h4, rfl, rfl⟩ | ⟨q, h4, ⟨h41, rfl, rfl⟩ | ⟨h41, h42, rfl⟩⟩
  all_goals cases w <;> first
    | (constructor <;> simp_all [Event.bad, Event.isPost, Event.isPre, Event.isWork, Event.rank]; done)
    | (cases ok1 <;> constructor <;> simp_all [Event.bad, Event.isPost, Event.isPre, Event.isWork, Event.rank]; done)

theorem begins_prefix {s t : Str} (h : begins s t = true) : t <+: s := by
  obtain ⟨r, hr⟩ := (begins_iff s t).1 h
  exact ⟨r, hr⟩

/-- What answers mean. -/
theorem answer_cases (s : Str) :
    (s = bytes "max parallel backups" ∧ answer s = .stop .maxParallel) ∨
    (s = bytes "timer conditions not met" ∧ answer s = .stop .timer) ∨
    (s = bytes "timer conditions met" ∧ answer s = .stop .ok) ∨
    (bytes "ok" <+: s ∧ ∃ lv, answer s = .go false lv) ∨
    (bytes "resume" <+: s ∧ ∃ lv, answer s = .go true lv) ∨
    (s = bytes "resume" ∧ answer s = .beyond) ∨
    (answer s = .unexpected ∧ ¬ letsBegin s) := by
  unfold answer
  split
  · rename_i h; exact Or.inl ⟨h, rfl⟩
  · split
    · rename_i h; exact Or.inr (Or.inl ⟨h, rfl⟩)
    · split
      · rename_i h; exact Or.inr (Or.inr (Or.inl ⟨h, rfl⟩))
      · rename_i hn
        split
        · rename_i h; exact Or.inr (Or.inr (Or.inr (Or.inl ⟨begins_prefix h, _, rfl⟩)))
        · rename_i h1
          split
          · rename_i h2
            have hp := begins_prefix h2
            split
            · rename_i h3
              refine Or.inr (Or.inr (Or.inr (Or.inr (Or.inr (Or.inl ⟨?_, rfl⟩)))))
              exact (hp.eq_of_length_le (by show s.length ≤ 6; omega)).symm
            · exact Or.inr (Or.inr (Or.inr (Or.inr (Or.inl ⟨hp, _, rfl⟩))))
          · rename_i h2
            refine Or.inr (Or.inr (Or.inr (Or.inr (Or.inr (Or.inr ⟨rfl, ?_⟩)))))
            rintro (h | h | h)
            · exact h1 ((begins_iff _ _).2 h)
            · exact h2 ((begins_iff _ _).2 h)
            · exact hn h

inductive BackupCourse (a : Act) (e : Env) : List Event → Ret → Prop where
  | early : e.incexc = false ∨ e.bopts.startDirs = false → BackupCourse a e [] .error
  | timer : e.incexc = true → e.bopts.startDirs = true → e.answer = some (bytes "timer conditions not met") →
      BackupCourse a e [.asked (phase1str a) e.answer] .timer
  | max : e.incexc = true → e.bopts.startDirs = true → e.answer = some (bytes "max parallel backups") →
      BackupCourse a e [.asked (phase1str a) e.answer] .maxParallel
  | refused : (∀ s, e.answer = some s → ¬ letsBegin s ∧ s ≠ bytes "timer conditions not met" ∧ s ≠ bytes "max parallel backups") →
      BackupCourse a e [.asked (phase1str a) e.answer] .error
  | checked (s : Str) : a = .check → e.answer = some s → letsBegin s → BackupCourse a e [.asked (phase1str a) e.answer] .ok
  | went (s : Str) (rs : Bool) (lv : Int) (l : List Event) (ok : Bool) : a ≠ .check → e.answer = some s → letsBegin s →
      (bytes "resume" <+: s → rs = true) → (¬ bytes "resume" <+: s → rs = false) →
      Facts e.bopts e a rs lv l ok → BackupCourse a e (.asked (phase1str a) e.answer :: l) (if ok then .ok else .error)

theorem not_begin_timer : ¬ letsBegin (bytes "timer conditions not met") := by unfold letsBegin; decide
theorem not_begin_max : ¬ letsBegin (bytes "max parallel backups") := by unfold letsBegin; decide

theorem backup_course {a : Act} {e : Env} {l : List Event} {r : Ret} (h : backupWrapper a e = .done l r) :
    BackupCourse a e l r := by
  unfold backupWrapper at h
  split at h
  · cases h; rename_i h1; exact .early (Or.inl h1)
  · rename_i h1
    split at h
    · cases h; rename_i h2; exact .early (Or.inr h2)
    · rename_i h2
      have h1 : e.incexc = true := by simpa using h1
      have h2 : e.bopts.startDirs = true := by simpa using h2
      have go : ∀ s rs lv, a ≠ .check → e.answer = some s → letsBegin s →
          (bytes "resume" <+: s → rs = true) → (¬ bytes "resume" <+: s → rs = false) →
          Out.done (.asked (phase1str a) e.answer :: (around e.bopts e true (.worked a rs lv e.work)).1)
            (if (around e.bopts e true (.worked a rs lv e.work)).2 then .ok else .error) = .done l r → BackupCourse a e l r := by
        intro s rs lv ha hs hb hr hr' hd
        injection hd with d1 d2
        rw [← d1, ← d2]
        exact .went s rs lv _ _ ha hs hb hr hr' (around_facts rfl)
      cases ha : e.answer with
      | none =>
        rw [ha] at h
        cases h
        rw [← ha]
        exact .refused (by rw [ha]; intro s h; cases h)
      | some s =>
        rw [ha] at h
        have no : ∀ w, s = w → ¬ bytes "resume" <+: w → ¬ bytes "resume" <+: s := fun w h1 h2 => h1 ▸ h2
        rcases answer_cases s with ⟨hs, hv⟩ | ⟨hs, hv⟩ | ⟨hs, hv⟩ | ⟨hs, lv, hv⟩ | ⟨hs, lv, hv⟩ | ⟨hs, hv⟩ | ⟨hv, hs⟩ <;>
          simp only [hv] at h
        · cases h; rw [← ha]; exact .max h1 h2 (by rw [ha, hs])
        · cases h; rw [← ha]; exact .timer h1 h2 (by rw [ha, hs])
        · split at h
          · rename_i hc
            cases h; rw [← ha]; exact .checked s hc ha (Or.inr (Or.inr hs))
          · rename_i hc
            rw [← ha] at h
            exact go s _ _ hc ha (Or.inr (Or.inr hs)) (fun h => absurd h (no _ hs (by decide))) (fun _ => rfl) h
        · split at h
          · rename_i hc
            cases h; rw [← ha]; exact .checked s hc ha (Or.inl hs)
          · rename_i hc
            rw [← ha] at h
            refine go s _ _ hc ha (Or.inl hs) (fun h => ?_) (fun _ => rfl) h
            obtain ⟨x, rfl⟩ := hs
            obtain ⟨y, hy⟩ := h
            have := congrArg (List.take 1) hy
            revert this; exact (by decide : ¬ ([114] : Str) = [111]).elim
        · split at h
          · rename_i hc
            cases h; rw [← ha]; exact .checked s hc ha (Or.inr (Or.inl hs))
          · rename_i hc
            rw [← ha] at h
            exact go s _ _ hc ha (Or.inr (Or.inl hs)) (fun _ => rfl) (fun h => absurd hs h) h
        · cases h
        · cases h
          rw [← ha]
          refine .refused ?_
          intro s' hs'
          rw [ha] at hs'
          injection hs' with hs'
          subst hs'
          refine ⟨hs, ?_, ?_⟩ <;> intro he <;> subst he
          · have : answer (bytes "timer conditions not met") = .stop .timer := by decide
            rw [this] at hv; cases hv
          · have : answer (bytes "max parallel backups") = .stop .maxParallel := by decide
            rw [this] at hv; cases hv

end Verif.ClientMain
