import Verif.Lemmas.ClientMain

/-!
# C78: exit codes, scripts and other servers
-/

namespace Verif.ClientMain
open Verif RunAction

inductive Course (s : Str) (e : Env) : List Event → Ret → Prop where
  | away : e.connected = false → Course s e [.connecting s] .connect
  | nothing : e.connected = true → e.setup = false → Course s e [.connecting s] .ok
  | error : e.connected = true → e.setup = true → e.comms = .error → Course s e [.connecting s] .error
  | again : e.connected = true → e.setup = true → e.comms = .reconnect → Course s e [.connecting s] .reconnect
  | did (a' : Act) (l : List Event) (r : Ret) : e.connected = true → e.setup = true → e.comms = .ok a' →
      perform a' e = .done l r → Course s e (.connecting s :: l) (if e.flush then r else .error)

theorem course {a : Act} {s : Str} {e : Env} {l : List Event} {r : Ret} (ha : a.connects = true)
    (h : doClient a s e = .done l r) : Course s e l r := by
  have h' : (let c := Event.connecting s
    if e.connected = false then Out.done [c] .connect
    else if e.setup = false then .done [c] .ok
    else match e.comms with
      | .error => .done [c] .error
      | .reconnect => .done [c] .reconnect
      | .ok a' => match flush e (perform a' e) with
        | .done l r => .done (c :: l) r
        | .undefined l => .undefined (c :: l)) = .done l r := by
    cases a <;> first | exact h | cases ha
  clear h ha
  dsimp only at h'
  split at h'
  · rename_i h1; cases h'; exact .away h1
  · rename_i h1
    have h1 : e.connected = true := by simpa using h1
    split at h'
    · rename_i h2; cases h'; exact .nothing h1 h2
    · rename_i h2
      have h2 : e.setup = true := by simpa using h2
      cases hc : e.comms with
      | error => rw [hc] at h'; cases h'; exact .error h1 h2 hc
      | reconnect => rw [hc] at h'; cases h'; exact .again h1 h2 hc
      | ok a' =>
        rw [hc] at h'
        dsimp only at h'
        cases hp : perform a' e with
        | undefined l' => rw [hp] at h'; cases h'
        | done l' r' =>
          rw [hp] at h'
          unfold flush at h'
          dsimp only at h'
          injection h' with e1 e2
          subst e1 e2
          exact .did a' l' r' h1 h2 hc hp

/-- Kinds of work. -/
theorem perform_cases {a : Act} {e : Env} {l : List Event} {r : Ret} (h : perform a e = .done l r) :
    ((a.isBackup = true ∨ a = .check) ∧ BackupCourse a e l r) ∨
    ((a = .restore ∨ a = .verify) ∧ ∃ ok, Facts e.ropts e a false e.ropts.compression l ok ∧
      r = if ok then (if 0 < e.warned then .warnings else .ok) else .error) ∨
    (a.isBackup = false ∧ a ≠ .check ∧ a ≠ .restore ∧ a ≠ .verify ∧ l = [.worked a false 0 e.work] ∧
      r = if e.work then .ok else .error) := by
  have rest : ∀ a, restoreWrapper a e = .done l r → ∃ ok, Facts e.ropts e a false e.ropts.compression l ok ∧
      r = if ok then (if 0 < e.warned then .warnings else .ok) else .error := by
    intro a h
    unfold restoreWrapper at h
    injection h with e1 e2
    subst e1 e2
    exact ⟨_, around_facts rfl, rfl⟩
  cases a
  case backup => exact Or.inl ⟨Or.inl rfl, backup_course h⟩
  case timed => exact Or.inl ⟨Or.inl rfl, backup_course h⟩
  case check => exact Or.inl ⟨Or.inr rfl, backup_course h⟩
  case restore => exact Or.inr (Or.inl ⟨Or.inl rfl, rest _ h⟩)
  case verify => exact Or.inr (Or.inl ⟨Or.inr rfl, rest _ h⟩)
  all_goals
    unfold perform at h
    dsimp only at h
    injection h with e1 e2
    subst e1 e2
    exact Or.inr (Or.inr ⟨rfl, by decide, by decide, by decide, rfl, rfl⟩)

end Verif.ClientMain

namespace Verif
open Verif.ClientMain

/-- C78: success is only reported for an attempt if the work was done, and no script and nothing else that is seen went
wrong. The assumption is that there is memory for the connection; for the case without, see C78_setup_violated. -/
theorem C78_zero_partial (a : Act) (s : Str) (e : Env) (l : List Event) (ha : a.connects = true) (hs : e.setup = true)
    (hc : e.comms ≠ .ok .check) (h : doClient a s e = .done l .ok) :
    ∃ a' rs lv, e.comms = .ok a' ∧ .worked a' rs lv true ∈ l ∧ ∀ x ∈ l, x.bad = false := by
  generalize hr : Ret.ok = r at h
  cases course ha h with
  | away => cases hr
  | nothing _ h2 => rw [hs] at h2; cases h2
  | error => cases hr
  | again => cases hr
  | did a' l r h1 h2 h3 h4 =>
    have hr : r = .ok := by
      cases hf : e.flush <;> rw [hf] at hr
      · cases hr
      · exact hr.symm
    subst hr
    have fin : ∀ rs lv (l' : List Event), .worked a' rs lv true ∈ l' → (∀ x ∈ l', x.bad = false) →
        ∃ a' rs lv, e.comms = .ok a' ∧ .worked a' rs lv true ∈ .connecting s :: l' ∧
          ∀ x ∈ (.connecting s :: l' : List Event), x.bad = false := by
      intro rs lv l' h1 h2
      refine ⟨a', rs, lv, h3, List.mem_cons_of_mem _ h1, ?_⟩
      intro x hx
      rcases List.mem_cons.1 hx with rfl | hx
      · rfl
      · exact h2 x hx
    rcases perform_cases h4 with ⟨_, hb⟩ | ⟨_, ok, hf, ho⟩ | ⟨_, _, _, _, hl, ho⟩
    · generalize hr : Ret.ok = r at hb
      cases hb with
      | early => cases hr
      | timer => cases hr
      | max => cases hr
      | refused => cases hr
      | checked _ hk => subst hk; exact absurd h3 hc
      | went s' rs lv l' ok _ _ _ _ _ hf =>
        have : ok = true := by cases ok <;> first | rfl | cases hr
        obtain ⟨k1, k2⟩ := hf.sound this
        refine fin rs lv _ (List.mem_cons_of_mem _ k1) ?_
        intro x hx
        rcases List.mem_cons.1 hx with rfl | hx
        · rfl
        · exact k2 x hx
    · have : ok = true := by cases ok <;> first | rfl | cases ho
      obtain ⟨k1, k2⟩ := hf.sound this
      exact fin _ _ _ k1 k2
    · have hw : e.work = true := by cases hw : e.work <;> rw [hw] at ho <;> first | rfl | cases ho
      rw [hw] at hl
      subst hl
      refine fin false 0 _ (by simp) ?_
      intro x hx
      rw [List.mem_singleton.1 hx]
      rfl

/-- C78: and if the work was done and nothing went wrong, success is reported; or warnings, for a restore with warnings. -/
theorem C78_zero_conv (a : Act) (s : Str) (e : Env) (l : List Event) (r : Ret) (ha : a.connects = true) (hq : e.Quiet)
    (h : doClient a s e = .done l r) (a' : Act) (rs : Bool) (lv : Int) (hw : .worked a' rs lv true ∈ l)
    (hb : ∀ x ∈ l, x.bad = false) :
    r = if (a' = .restore ∨ a' = .verify) ∧ 0 < e.warned then .warnings else .ok := by
  cases course ha h with
  | away => simp at hw
  | nothing _ h2 => rw [hq.setup] at h2; cases h2
  | error => simp at hw
  | again => simp at hw
  | did a'' l r h1 h2 h3 h4 =>
    rw [hq.flush, if_pos rfl]
    have hw : .worked a' rs lv true ∈ l := by simpa using hw
    have hb : ∀ x ∈ l, x.bad = false := fun x hx => hb x (List.mem_cons_of_mem _ hx)
    rcases perform_cases h4 with ⟨hk, hc⟩ | ⟨hk, ok, hf, ho⟩ | ⟨k1, k2, k3, k4, hl, ho⟩
    · have fin : a' = a'' → ¬ ((a' = .restore ∨ a' = .verify) ∧ 0 < e.warned) := by
        rintro rfl ⟨h, _⟩
        rcases h with rfl | rfl <;> rcases hk with h | h <;> cases h
      cases hc with
      | early => cases hw
      | timer => simp at hw
      | max => simp at hw
      | refused => simp at hw
      | checked => simp at hw
      | went s' rs' lv' l' ok _ _ _ _ _ hf =>
        have hw : .worked a' rs lv true ∈ l' := by simpa using hw
        have hx := hf.work _ _ _ _ hw
        rw [if_neg (fin hx.1)]
        obtain ⟨rfl, rfl, rfl⟩ := hx
        rw [hf.complete hq.glob (by simpa using hw) (fun x hx => hb x (List.mem_cons_of_mem _ hx)), if_pos rfl]
    · obtain ⟨rfl, rfl, rfl⟩ := hf.work _ _ _ _ hw
      rw [hf.complete hq.glob hw hb, if_pos rfl] at ho
      rw [ho]
      by_cases hz : 0 < e.warned
      · rw [if_pos hz, if_pos ⟨hk, hz⟩]
      · rw [if_neg hz, if_neg (fun h => hz h.2)]
    · subst hl
      have := List.mem_singleton.1 hw
      injection this with e1 e2 e3 e4
      subst e1
      rw [ho, ← e4, if_pos rfl, if_neg]
      rintro ⟨h | h, _⟩
      · exact k3 h
      · exact k4 h

/-- C78: in one attempt, things happen in order and once at most: connecting, asking, script, work, script. -/
theorem C78_order (a : Act) (s : Str) (e : Env) (l : List Event) (r : Ret) (ha : a.connects = true)
    (h : doClient a s e = .done l r) : l.Pairwise (fun x y => x.rank < y.rank) := by
  have cons : ∀ (x : Event) (l : List Event), (∀ y ∈ l, x.rank < y.rank) → l.Pairwise (fun x y => x.rank < y.rank) →
      (x :: l).Pairwise (fun x y => x.rank < y.rank) := fun x l h1 h2 => List.Pairwise.cons h1 h2
  cases course ha h with
  | away => simp
  | nothing => simp
  | error => simp
  | again => simp
  | did a' l r h1 h2 h3 h4 =>
    have key : (∀ y ∈ l, 1 ≤ y.rank) ∧ l.Pairwise (fun x y => x.rank < y.rank) := by
      rcases perform_cases h4 with ⟨hk, hc⟩ | ⟨hk, ok, hf, ho⟩ | ⟨k1, k2, k3, k4, hl, ho⟩
      · cases hc with
        | early => simp
        | timer => simp [Event.rank]
        | max => simp [Event.rank]
        | refused => simp [Event.rank]
        | checked => simp [Event.rank]
        | went s' rs' lv' l' ok _ _ _ _ _ hf =>
          refine ⟨?_, cons _ _ (fun y hy => hf.rank y hy) hf.order⟩
          intro y hy
          rcases List.mem_cons.1 hy with rfl | hy
          · exact Nat.le_refl _
          · have := hf.rank y hy; omega
      · exact ⟨fun y hy => by have := hf.rank y hy; omega, hf.order⟩
      · subst hl; simp [Event.rank]
    exact cons _ _ key.1 key.2

/-- C78: a backup begins, and scripts are run for it, only when the server has said so. -/
theorem C78_asked (a : Act) (s : Str) (e : Env) (l : List Event) (r : Ret) (ha : a.connects = true)
    (h : doClient a s e = .done l r) (a' : Act) (hc : e.comms = .ok a') (hb : a'.isBackup = true ∨ a' = .check)
    (x : Event) (hx : x ∈ l) (hw : x.isWork = true ∨ x.isScript = true) :
    a' ≠ .check ∧ ∃ t, .asked (phase1str a') (some t) ∈ l ∧ letsBegin t := by
  cases course ha h with
  | away => have := List.mem_singleton.1 hx; subst this; rcases hw with h | h <;> cases h
  | nothing => have := List.mem_singleton.1 hx; subst this; rcases hw with h | h <;> cases h
  | error => have := List.mem_singleton.1 hx; subst this; rcases hw with h | h <;> cases h
  | again => have := List.mem_singleton.1 hx; subst this; rcases hw with h | h <;> cases h
  | did a'' l r h1 h2 h3 h4 =>
    rw [hc] at h3
    injection h3 with h3
    subst h3
    rcases List.mem_cons.1 hx with rfl | hx
    · rcases hw with h | h <;> cases h
    rcases perform_cases h4 with ⟨hk, hc⟩ | ⟨hk, _⟩ | ⟨k1, k2, _⟩
    · cases hc with
      | early => cases hx
      | timer => have := List.mem_singleton.1 hx; subst this; rcases hw with h | h <;> cases h
      | max => have := List.mem_singleton.1 hx; subst this; rcases hw with h | h <;> cases h
      | refused => have := List.mem_singleton.1 hx; subst this; rcases hw with h | h <;> cases h
      | checked => have := List.mem_singleton.1 hx; subst this; rcases hw with h | h <;> cases h
      | went s' rs' lv' l' ok k1 k2 k3 _ _ hf =>
        refine ⟨k1, s', ?_, k3⟩
        rw [k2]
        simp
    · rcases hk with rfl | rfl <;> rcases hb with h | h <;> cases h
    · rcases hb with h | h
      · rw [k1] at h; cases h
      · exact absurd h k2

/-- C78: if the script before fails, no work is done. -/
theorem C78_pre (a : Act) (s : Str) (e : Env) (l : List Event) (r : Ret) (ha : a.connects = true)
    (h : doClient a s e = .done l r) (args : List Str) (f : Ended) (hx : .pre args f ∈ l) (hf : f.good = false) :
    (∀ x ∈ l, x.isWork = false) ∧ r ≠ .ok ∧ r ≠ .warnings := by
  cases course ha h with
  | away => simp at hx
  | nothing => simp at hx
  | error => simp at hx
  | again => simp at hx
  | did a' l r h1 h2 h3 h4 =>
    have hx : .pre args f ∈ l := by simpa using hx
    have key : (∀ x ∈ l, x.isWork = false) ∧ r ≠ .ok ∧ r ≠ .warnings := by
      rcases perform_cases h4 with ⟨hk, hc⟩ | ⟨hk, ok, hf', ho⟩ | ⟨k1, k2, k3, k4, hl, ho⟩
      · cases hc with
        | early => cases hx
        | timer => simp at hx
        | max => simp at hx
        | refused => simp at hx
        | checked => simp at hx
        | went s' rs' lv' l' ok _ _ _ _ _ hf' =>
          have hx : .pre args f ∈ l' := by simpa using hx
          refine ⟨?_, ?_⟩
          · intro x hx'
            rcases List.mem_cons.1 hx' with rfl | hx'
            · rfl
            · exact hf'.preBad _ _ hx hf x hx'
          · cases ok with
            | false => exact ⟨by decide, by decide⟩
            | true =>
              have := (hf'.sound rfl).2 _ hx
              simp [Event.bad, hf] at this
      · refine ⟨hf'.preBad _ _ hx hf, ?_⟩
        cases ok with
        | false => rw [ho, if_neg Bool.false_ne_true]; exact ⟨by decide, by decide⟩
        | true =>
          have := (hf'.sound rfl).2 _ hx
          simp [Event.bad, hf] at this
      · subst hl; simp at hx
    refine ⟨?_, ?_⟩
    · intro x hx
      rcases List.mem_cons.1 hx with rfl | hx
      · rfl
      · exact key.1 x hx
    · cases hfl : e.flush with
      | false => rw [if_neg Bool.false_ne_true]; exact ⟨by decide, by decide⟩
      | true => rw [if_pos rfl]; exact key.2

/-- C78: once scripts or work have begun, the script after is run unless something went wrong before and it is not wanted
then; and it is told whether something went wrong. -/
theorem C78_post (a : Act) (s : Str) (e : Env) (l : List Event) (r : Ret) (ha : a.connects = true) (hg : e.globOk = true)
    (h : doClient a s e = .done l r) (a' : Act) (hc : e.comms = .ok a') (o : Opts)
    (ho : o = if a'.isBackup then e.bopts else e.ropts) (hk : a'.isBackup = true ∨ a' = .restore ∨ a' = .verify)
    (x : Event) (hx : x ∈ l) (hw : x.isWork = true ∨ x.isPre = true) (p : Str) (hp : o.postScript = some p) :
    ((∃ x ∈ l, x.isPost = true) ↔ o.postOnFail = true ∨ ∀ x ∈ l, x.isPost = false → x.bad = false) ∧
    (o.reserved = true → ∀ args f, .post args f ∈ l → args.take 3 =
      [p, bytes "post", if ∀ x ∈ l, x.isPost = false → x.bad = false then bytes "0" else bytes "1"]) := by
  have lift : ∀ (y : Event) (l : List Event), y.isPost = false → y.bad = false →
      ((∃ x ∈ y :: l, x.isPost = true) ↔ ∃ x ∈ l, x.isPost = true) ∧
      ((∀ x ∈ y :: l, x.isPost = false → x.bad = false) ↔ ∀ x ∈ l, x.isPost = false → x.bad = false) := by
    intro y l h1 h2
    simp [h1, h2]
  have step : ∀ (y : Event) (l : List Event), y.isPost = false → y.bad = false →
      (((∃ x ∈ l, x.isPost = true) ↔ o.postOnFail = true ∨ ∀ x ∈ l, x.isPost = false → x.bad = false) ∧
      (o.reserved = true → ∀ args f, .post args f ∈ l → args.take 3 =
        [p, bytes "post", if ∀ x ∈ l, x.isPost = false → x.bad = false then bytes "0" else bytes "1"])) →
      (((∃ x ∈ y :: l, x.isPost = true) ↔ o.postOnFail = true ∨ ∀ x ∈ y :: l, x.isPost = false → x.bad = false) ∧
      (o.reserved = true → ∀ args f, .post args f ∈ y :: l → args.take 3 =
        [p, bytes "post", if ∀ x ∈ y :: l, x.isPost = false → x.bad = false then bytes "0" else bytes "1"])) := by
    intro y l h1 h2 ⟨h3, h4⟩
    obtain ⟨l1, l2⟩ := lift y l h1 h2
    refine ⟨by rw [l1, l2]; exact h3, ?_⟩
    intro hr args f hf
    have hf : .post args f ∈ l := by
      rcases List.mem_cons.1 hf with rfl | hf
      · cases h1
      · exact hf
    simp only [l2]
    exact h4 hr args f hf
  cases course ha h with
  | away => have := List.mem_singleton.1 hx; subst this; rcases hw with h | h <;> cases h
  | nothing => have := List.mem_singleton.1 hx; subst this; rcases hw with h | h <;> cases h
  | error => have := List.mem_singleton.1 hx; subst this; rcases hw with h | h <;> cases h
  | again => have := List.mem_singleton.1 hx; subst this; rcases hw with h | h <;> cases h
  | did a'' l r h1 h2 h3 h4 =>
    rw [hc] at h3
    injection h3 with h3
    subst h3
    refine step _ _ rfl rfl ?_
    rcases List.mem_cons.1 hx with rfl | hx
    · rcases hw with h | h <;> cases h
    rcases perform_cases h4 with ⟨hk', hc'⟩ | ⟨hk', ok, hf, _⟩ | ⟨k1, k2, k3, k4, _⟩
    · have hb : a'.isBackup = true := by
        rcases hk' with h | h
        · exact h
        · subst h
          rcases hk with h | h | h <;> cases h
      rw [hb, if_pos rfl] at ho
      subst ho
      cases hc' with
      | early => cases hx
      | timer => have := List.mem_singleton.1 hx; subst this; rcases hw with h | h <;> cases h
      | max => have := List.mem_singleton.1 hx; subst this; rcases hw with h | h <;> cases h
      | refused => have := List.mem_singleton.1 hx; subst this; rcases hw with h | h <;> cases h
      | checked => have := List.mem_singleton.1 hx; subst this; rcases hw with h | h <;> cases h
      | went s' rs' lv' l' ok k1 k2 k3 _ _ hf =>
        exact step _ _ rfl rfl ⟨hf.postRun p hp hg, hf.postArgs p hp hg⟩
    · have hb : a'.isBackup = false := by rcases hk' with rfl | rfl <;> rfl
      rw [hb, if_neg Bool.false_ne_true] at ho
      subst ho
      exact ⟨hf.postRun p hp hg, hf.postArgs p hp hg⟩
    · rcases hk with h | h | h
      · rw [k1] at h; cases h
      · exact absurd h k3
      · exact absurd h k4

/-- C78: what the other exit codes mean, for a backup. -/
theorem C78_codes (a : Act) (s : Str) (e : ClientMain.Env) (l : List Event) (r : Ret) (ha : a.connects = true) (hq : e.Quiet)
    (h : doClient a s e = .done l r) :
    (r = .connect ↔ e.connected = false) ∧
    (r = .reconnect ↔ e.connected = true ∧ e.comms = .reconnect) ∧
    (∀ a', e.connected = true → e.comms = .ok a' → a'.isBackup = true ∨ a' = .check →
      (r = .timer ↔ e.answer = some (bytes "timer conditions not met")) ∧
      (r = .maxParallel ↔ e.answer = some (bytes "max parallel backups")) ∧
      (a' = .check → (r = .ok ↔ ∃ t, e.answer = some t ∧ letsBegin t))) ∧
    (r = .warnings → 0 < e.warned ∧ (∃ a' lv, (a' = .restore ∨ a' = .verify) ∧ .worked a' false lv true ∈ l) ∧
      ∀ x ∈ l, x.bad = false) := by
  have nt : ∀ {t : Str}, letsBegin t → t ≠ bytes "timer conditions not met" ∧ t ≠ bytes "max parallel backups" := by
    intro t ht
    exact ⟨fun he => not_begin_timer (he ▸ ht), fun he => not_begin_max (he ▸ ht)⟩
  have hcourse := course ha h
  clear h
  cases hcourse with
  | away h1 => exact ⟨by simp [h1], by simp [h1], by simp [h1], by simp⟩
  | nothing _ h2 => rw [hq.setup] at h2; cases h2
  | error h1 h2 h3 => exact ⟨by simp [h1], by simp [h3], by simp [h3], by simp⟩
  | again h1 h2 h3 => exact ⟨by simp [h1], by simp [h1, h3], by simp [h3], by simp⟩
  | did a' l r h1 h2 h3 h4 =>
    rw [hq.flush, if_pos rfl]
    rcases perform_cases h4 with ⟨hk, hc⟩ | ⟨hk, ok, hf, ho⟩ | ⟨k1, k2, k3, k4, hl, ho⟩
    · have key : r ≠ .connect ∧ r ≠ .reconnect ∧ r ≠ .warnings ∧
          (r = .timer ↔ e.answer = some (bytes "timer conditions not met")) ∧
          (r = .maxParallel ↔ e.answer = some (bytes "max parallel backups")) ∧
          (a' = .check → (r = .ok ↔ ∃ t, e.answer = some t ∧ letsBegin t)) := by
        cases hc with
        | early h => rcases h with h | h
                     · rw [hq.incexc] at h; cases h
                     · rw [hq.dirs] at h; cases h
        | timer _ _ h =>
          refine ⟨by decide, by decide, by decide, by simp [h], ?_, ?_⟩
          · rw [h]; decide
          · intro _
            constructor
            · intro h; cases h
            · rintro ⟨t, ht, hb⟩; rw [h] at ht; injection ht with ht; exact absurd rfl (ht ▸ (nt hb).1)
        | max _ _ h =>
          refine ⟨by decide, by decide, by decide, ?_, by simp [h], ?_⟩
          · rw [h]; decide
          · intro _
            constructor
            · intro h; cases h
            · rintro ⟨t, ht, hb⟩; rw [h] at ht; injection ht with ht; exact absurd rfl (ht ▸ (nt hb).2)
        | refused h =>
          refine ⟨by decide, by decide, by decide, ?_, ?_, ?_⟩
          · constructor
            · intro h; cases h
            · intro hx; exact absurd rfl (h _ hx).2.1
          · constructor
            · intro h; cases h
            · intro hx; exact absurd rfl (h _ hx).2.2
          · intro _
            constructor
            · intro h; cases h
            · rintro ⟨t, ht, hb⟩; exact absurd hb (h t ht).1
        | checked t hk ht hb =>
          refine ⟨by decide, by decide, by decide, ?_, ?_, fun _ => ⟨fun _ => ⟨t, ht, hb⟩, fun _ => rfl⟩⟩
          · constructor
            · intro h; cases h
            · intro hx; rw [ht] at hx; injection hx with hx; exact absurd hx (nt hb).1
          · constructor
            · intro h; cases h
            · intro hx; rw [ht] at hx; injection hx with hx; exact absurd hx (nt hb).2
        | went t rs lv l' ok hk ht hb =>
          refine ⟨by cases ok <;> decide, by cases ok <;> decide, by cases ok <;> decide, ?_, ?_, fun h => absurd h hk⟩
          · constructor
            · intro h; cases ok <;> cases h
            · intro hx; rw [ht] at hx; injection hx with hx; exact absurd hx (nt hb).1
          · constructor
            · intro h; cases ok <;> cases h
            · intro hx; rw [ht] at hx; injection hx with hx; exact absurd hx (nt hb).2
      obtain ⟨q1, q2, q3, q4⟩ := key
      refine ⟨by simp [h1, q1], by simp [h3, q2], ?_, fun h => absurd h q3⟩
      intro a'' _ he _
      rw [h3] at he
      injection he with he
      subst he
      exact q4
    · have q : r ≠ .connect ∧ r ≠ .reconnect := by
        rw [ho]
        cases ok with
        | false => rw [if_neg Bool.false_ne_true]; exact ⟨by decide, by decide⟩
        | true =>
          rw [if_pos rfl]
          split <;> exact ⟨by decide, by decide⟩
      refine ⟨by simp [h1, q.1], by simp [h3, q.2], ?_, ?_⟩
      · intro a'' _ he hb
        rw [h3] at he
        injection he with he
        subst he
        rcases hk with rfl | rfl <;> rcases hb with h | h <;> cases h
      · intro hr
        rw [ho] at hr
        cases ok with
        | false => cases hr
        | true =>
          rw [if_pos rfl] at hr
          obtain ⟨f1, f2⟩ := hf.sound rfl
          refine ⟨?_, ⟨a', _, hk, List.mem_cons_of_mem _ f1⟩, ?_⟩
          · by_cases hz : 0 < e.warned
            · exact hz
            · rw [if_neg hz] at hr; cases hr
          · intro x hx
            rcases List.mem_cons.1 hx with rfl | hx
            · rfl
            · exact f2 x hx
    · have q : r ≠ .connect ∧ r ≠ .reconnect ∧ r ≠ .warnings := by
        rw [ho]
        cases e.work
        · exact ⟨by decide, by decide, by decide⟩
        · exact ⟨by decide, by decide, by decide⟩
      refine ⟨by simp [h1, q.1], by simp [h3, q.2.1], ?_, fun h => absurd h q.2.2⟩
      intro a'' _ he hb
      rw [h3] at he
      injection he with he
      subst he
      rcases hb with h | h
      · rw [k1] at h; cases h
      · exact absurd h k2

/-- C78: an answer of the server that lets the client begin is understood, with the level of compression. -/
theorem C78_level (resume : Bool) (level : Int) : answer (goAhead resume level) = .go resume (some level) := by
  have hs := Confs.atoi_showInt level
  have hne : Confs.showInt level ≠ [] := by
    intro h
    rw [h] at hs
    have : level = 0 := by rw [← hs]; rfl
    subst this
    revert h; decide +kernel
  have hlen : 0 < (Confs.showInt level).length := by
    cases h : Confs.showInt level with
    | nil => exact absurd h hne
    | cons c t => simp
  cases resume with
  | false =>
    have h1 : goAhead false level = bytes "ok" ++ 58 :: Confs.showInt level := rfl
    have hl : 3 < (goAhead false level).length := by rw [h1]; simp [bytes]; omega
    show (if _ then _ else if _ then _ else if _ then _ else if _ then _ else _) = _
    have n : ∀ w : Str, w.head? ≠ some 111 → goAhead false level ≠ w := by
      intro w hw he
      rw [h1] at he
      rw [← he] at hw
      exact hw rfl
    rw [if_neg (n _ (by decide)), if_neg (n _ (by decide)), if_neg (n _ (by decide)),
      if_pos (show RunAction.begins (goAhead false level) (bytes "ok") = true from rfl), if_pos hl]
    have hd : (goAhead false level).drop 3 = Confs.showInt level := rfl
    rw [hd, hs]
  | true =>
    have h1 : goAhead true level = bytes "resume" ++ 58 :: Confs.showInt level := rfl
    have hl : ¬ (goAhead true level).length < 7 := by rw [h1]; simp [bytes]
    show (if _ then _ else if _ then _ else if _ then _ else if _ then _ else if _ then _ else _) = _
    have n : ∀ w : Str, w.head? ≠ some 114 → goAhead true level ≠ w := by
      intro w hw he
      rw [h1] at he
      rw [← he] at hw
      exact hw rfl
    rw [if_neg (n _ (by decide)), if_neg (n _ (by decide)), if_neg (n _ (by decide)),
      if_neg (show ¬ RunAction.begins (goAhead true level) (bytes "ok") = true from Bool.false_ne_true),
      if_pos (show RunAction.begins (goAhead true level) (bytes "resume") = true from rfl), if_neg hl]
    have hd : (goAhead true level).drop 7 = Confs.showInt level := rfl
    rw [hd, hs]

/-- C78: an attempt is repeated with the same server once at most, and only if the client was told to reconnect. -/
theorem C78_reconnect (a : Act) (s : Str) (e e' : ClientMain.Env) (l : List Event) (r : Ret) (ha : a.connects = true)
    (h : twice a s e e' = .done l r) :
    doClient a s e = .done l r ∧ r ≠ .reconnect ∨
    e.comms = .reconnect ∧ ∃ l', l = .connecting s :: l' ∧ doClient a s e' = .done l' r := by
  unfold twice at h
  cases hd : doClient a s e with
  | undefined l' => rw [hd] at h; cases h
  | done l' r' =>
    rw [hd] at h
    cases r' with
    | reconnect =>
      right
      dsimp only at h
      have hcourse := course ha hd
      have hc : e.comms = .reconnect ∧ l' = [.connecting s] := by
        clear h
        clear hd
        generalize hr : Ret.reconnect = r' at hcourse
        cases hcourse with
        | away => cases hr
        | nothing => cases hr
        | error => cases hr
        | again _ _ h3 => exact ⟨h3, rfl⟩
        | did a' l r h1 h2 h3 h4 =>
          exfalso
          have hr : r = .reconnect := by
            cases hf : e.flush <;> rw [hf] at hr
            · cases hr
            · exact hr.symm
          subst hr
          rcases perform_cases h4 with ⟨_, hb⟩ | ⟨_, ok, _, ho⟩ | ⟨_, _, _, _, _, ho⟩
          · generalize hr : Ret.reconnect = r at hb
            cases hb with
            | early => cases hr
            | timer => cases hr
            | max => cases hr
            | refused => cases hr
            | checked => cases hr
            | went _ _ _ _ ok => cases ok <;> cases hr
          · cases ok
            · cases ho
            · rw [if_pos rfl] at ho
              split at ho <;> cases ho
          · cases hw : e.work <;> rw [hw] at ho <;> cases ho
      obtain ⟨hc, rfl⟩ := hc
      cases hd' : doClient a s e' with
      | undefined l' => rw [hd'] at h; cases h
      | done l' r' =>
        rw [hd'] at h
        cases h
        exact ⟨hc, l', rfl, rfl⟩
    | _ =>
      left
      cases h
      exact ⟨rfl, by decide⟩

theorem contacts_attempt {a : Act} {s : Str} {e : ClientMain.Env} {l : List Event} {r : Ret} (ha : a.connects = true)
    (h : doClient a s e = .done l r) : contacts l = [s] ∧ l.head? = some (.connecting s) := by
  have ho := C78_order a s e l r ha h
  have hl : ∃ l', l = .connecting s :: l' := by
    cases course ha h with
    | away => exact ⟨_, rfl⟩
    | nothing => exact ⟨_, rfl⟩
    | error => exact ⟨_, rfl⟩
    | again => exact ⟨_, rfl⟩
    | did => exact ⟨_, rfl⟩
  obtain ⟨l', rfl⟩ := hl
  refine ⟨?_, rfl⟩
  have h1 := (List.pairwise_cons.1 ho).1
  unfold contacts
  rw [List.filterMap_cons]
  dsimp only
  rw [List.filterMap_eq_nil_iff.2]
  intro x hx
  have := h1 x hx
  cases x with
  | connecting => exact absurd this (by simp [Event.rank])
  | _ => rfl

theorem again_iff (a : Act) (onError : Bool) (r : Ret) : tryOther a onError r = true ↔ Again a onError r := by
  unfold Again tryOther
  cases r <;> cases a <;> cases onError <;> simp [Act.isBackup]

/-- The course over all servers. -/
theorem servers_course {a : Act} {onError : Bool} {env env' : Nat → ClientMain.Env} : ∀ (others : List Str) (n : Nat) (s : Str)
    {l : List Event} {r : Ret}, servers a onError env env' n s others = .done l r →
    ∃ parts : List (List Event × Ret), parts ≠ [] ∧ parts.length ≤ others.length + 1 ∧ l = parts.flatMap Prod.fst ∧
      parts.getLast?.map Prod.snd = some r ∧
      (∀ i p, parts[i]? = some p → ∃ t, (s :: others)[i]? = some t ∧
        twice a t (env (n + i)) (env' (n + i)) = .done p.1 p.2) ∧
      (∀ i p, parts[i]? = some p → i + 1 < parts.length → Again a onError p.2) ∧
      (Again a onError r → parts.length = others.length + 1) := by
  intro others
  induction others with
  | nil =>
    intro n s l r h
    rw [servers] at h
    cases ht : twice a s (env n) (env' n) with
    | undefined l' => rw [ht] at h; cases h
    | done l' r' =>
      rw [ht] at h
      dsimp only at h
      have hh : Out.done l' r' = .done l r := by split at h <;> exact h
      cases hh
      refine ⟨[(l, r)], by simp, by simp, by simp, by simp, ?_, ?_, by simp⟩
      · intro i p hp
        cases i with
        | zero => cases hp; exact ⟨s, rfl, ht⟩
        | succ i => cases hp
      · intro i p hp hi
        simp at hi
  | cons t others ih =>
    intro n s l r h
    rw [servers] at h
    cases ht : twice a s (env n) (env' n) with
    | undefined l' => rw [ht] at h; cases h
    | done l' r' =>
      rw [ht] at h
      dsimp only at h
      split at h
      · rename_i hag
        cases hs : servers a onError env env' (n + 1) t others with
        | undefined l'' => rw [hs] at h; cases h
        | done l'' r'' =>
          rw [hs] at h
          cases h
          obtain ⟨parts, p1, p2, p3, p4, p5, p6, p7⟩ := ih (n + 1) t hs
          refine ⟨(l', r') :: parts, by simp, by simp; omega, by simp [p3], ?_, ?_, ?_, ?_⟩
          · cases parts with
            | nil => exact absurd rfl p1
            | cons q parts => rw [List.getLast?_cons_cons]; exact p4
          · intro i p hp
            cases i with
            | zero => cases hp; exact ⟨s, rfl, ht⟩
            | succ i =>
              obtain ⟨u, hu, hv⟩ := p5 i p hp
              refine ⟨u, hu, ?_⟩
              rw [show n + (i + 1) = n + 1 + i from by omega]
              exact hv
          · intro i p hp hi
            cases i with
            | zero => cases hp; exact (again_iff _ _ _).1 hag
            | succ i => exact p6 i p hp (by simpa using hi)
          · intro hr
            rw [List.length_cons, p7 hr, List.length_cons]
      · rename_i hag
        cases h
        refine ⟨[(l, r)], by simp, by simp, by simp, by simp, ?_, ?_, ?_⟩
        · intro i p hp
          cases i with
          | zero => cases hp; exact ⟨s, rfl, ht⟩
          | succ i => cases hp
        · intro i p hp hi
          simp at hi
        · intro hr
          exact absurd ((again_iff _ _ _).2 hr) hag

/-- C78: the servers are tried in the order in which they are given. The next one is tried if there was no connection, or if
a backup failed and it is wanted then, and only in these cases; what is reported is the result with the last one. -/
theorem C78_servers (a : Act) (onError : Bool) (s : Str) (others : List Str) (env env' : Nat → ClientMain.Env) (l : List Event)
    (r : Ret) (h : client true a onError s others env env' = .done l r) :
    ∃ parts : List (List Event × Ret), parts ≠ [] ∧ parts.length ≤ others.length + 1 ∧ l = parts.flatMap Prod.fst ∧
      parts.getLast?.map Prod.snd = some r ∧
      (∀ i p, parts[i]? = some p → ∃ t, (s :: others)[i]? = some t ∧ twice a t (env i) (env' i) = .done p.1 p.2) ∧
      (∀ i p, parts[i]? = some p → i + 1 < parts.length → Again a onError p.2) ∧
      (Again a onError r → parts.length = others.length + 1) := by
  have := servers_course others 0 s (show servers a onError env env' 0 s others = .done l r from h)
  simpa using this

/-- C78: no server is tried that is not in the settings, and none more often than to reconnect. -/
theorem C78_contacts (a : Act) (onError : Bool) (s : Str) (others : List Str) (env env' : Nat → ClientMain.Env)
    (l : List Event) (r : Ret) (ha : a.connects = true) (h : client true a onError s others env env' = .done l r) :
    ∃ ts : List (Str × Nat), ts ≠ [] ∧ ts.map Prod.fst <+: s :: others ∧ (∀ t ∈ ts, t.2 = 1 ∨ t.2 = 2) ∧
      contacts l = ts.flatMap (fun t => List.replicate t.2 t.1) := by
  obtain ⟨parts, p1, p2, p3, _, p5, _⟩ := C78_servers a onError s others env env' l r h
  subst p3
  clear h
  have key : ∀ (parts : List (List Event × Ret)) (all : List Str) (n : Nat), 
      (∀ i p, parts[i]? = some p → ∃ t, all[i]? = some t ∧ twice a t (env (n + i)) (env' (n + i)) = .done p.1 p.2) →
      ∃ ts : List (Str × Nat), ts.length = parts.length ∧ ts.map Prod.fst <+: all ∧ (∀ t ∈ ts, t.2 = 1 ∨ t.2 = 2) ∧
        contacts (parts.flatMap Prod.fst) = ts.flatMap (fun t => List.replicate t.2 t.1) := by
    intro parts
    induction parts with
    | nil => intro all n _; exact ⟨[], rfl, List.nil_prefix, by simp, rfl⟩
    | cons q parts ih =>
      intro all n hp
      obtain ⟨t, ht, hq⟩ := hp 0 q rfl
      cases all with
      | nil => cases ht
      | cons t' all =>
        have : t' = t := by injection ht
        subst this
        obtain ⟨ts, k1, k2, k3, k4⟩ := ih all (n + 1) (fun i p hip => by
          obtain ⟨u, hu, hv⟩ := hp (i + 1) p hip
          refine ⟨u, hu, ?_⟩
          rw [show n + 1 + i = n + (i + 1) from by omega]
          exact hv)
        have hcount : ∃ m, (m = 1 ∨ m = 2) ∧ contacts q.1 = List.replicate m t' := by
          rcases C78_reconnect a t' _ _ _ _ ha hq with ⟨hd, _⟩ | ⟨_, l', hl, hd⟩
          · exact ⟨1, Or.inl rfl, (contacts_attempt ha hd).1⟩
          · refine ⟨2, Or.inr rfl, ?_⟩
            have := (contacts_attempt ha hd).1
            rw [hl]
            unfold contacts at this ⊢
            rw [List.filterMap_cons]
            dsimp only
            rw [this]
            rfl
        obtain ⟨m, hm, hcm⟩ := hcount
        refine ⟨(t', m) :: ts, by simp [k1], ?_, ?_, ?_⟩
        · rw [List.map_cons, List.cons_prefix_cons]
          exact ⟨rfl, k2⟩
        · intro x hx
          rcases List.mem_cons.1 hx with rfl | hx
          · exact hm
          · exact k3 x hx
        · rw [List.flatMap_cons, List.flatMap_cons, ← k4, ← hcm]
          unfold contacts
          rw [List.filterMap_append]
  obtain ⟨ts, k1, k2, k3, k4⟩ := key parts (s :: others) 0 (by simpa using p5)
  refine ⟨ts, ?_, k2, k3, k4⟩
  intro h
  rw [h] at k1
  exact p1 (List.eq_nil_of_length_eq_zero k1.symm)

/-- C78: exit code 0 means that the work was done with the last server that was tried, and that nothing went wrong with it. -/
theorem C78_exit_partial (a : Act) (onError : Bool) (s : Str) (others : List Str) (env env' : Nat → ClientMain.Env)
    (l : List Event) (r : Ret) (ha : a.connects = true) (h : client true a onError s others env env' = .done l r)
    (hr : r.code = 0) (hs : ∀ n, (env n).setup = true ∧ (env' n).setup = true)
    (hc : ∀ n, (env n).comms ≠ .ok .check ∧ (env' n).comms ≠ .ok .check) :
    ∃ l₁ l₀ t a' rs lv, l = l₁ ++ l₀ ∧ t ∈ s :: others ∧ l₀.head? = some (.connecting t) ∧ .worked a' rs lv true ∈ l₀ ∧
      ∀ x ∈ l₀, x.bad = false := by
  have hr : r = .ok := by cases r <;> first | rfl | cases hr
  subst hr
  obtain ⟨parts, p1, p2, p3, p4, p5, _⟩ := C78_servers a onError s others env env' l .ok h
  obtain ⟨init, q, rfl⟩ : ∃ init q, parts = init ++ [q] :=
    ⟨parts.dropLast, parts.getLast p1, (List.dropLast_concat_getLast p1).symm⟩
  rw [List.getLast?_concat] at p4
  have hq : q.2 = .ok := by simpa using p4
  obtain ⟨t, ht, htw⟩ := p5 init.length q (by simp)
  rw [hq] at htw
  have mem : t ∈ s :: others := List.mem_of_getElem? ht
  rcases C78_reconnect a t _ _ _ _ ha htw with ⟨hd, _⟩ | ⟨_, l', hl, hd⟩
  · obtain ⟨a', rs, lv, _, k1, k2⟩ := C78_zero_partial a t _ _ ha (hs _).1 (hc _).1 hd
    exact ⟨init.flatMap Prod.fst, q.1, t, a', rs, lv, by rw [p3]; simp, mem, (contacts_attempt ha hd).2, k1, k2⟩
  · obtain ⟨a', rs, lv, _, k1, k2⟩ := C78_zero_partial a t _ _ ha (hs _).2 (hc _).2 hd
    refine ⟨init.flatMap Prod.fst ++ [.connecting t], l', t, a', rs, lv, ?_, mem, (contacts_attempt ha hd).2, k1, k2⟩
    rw [p3]
    simp [hl]

/-- A client with scripts and two servers. The first is away, the backup is made with the second. -/
def exCli : Opts :=
  { preScript := some (bytes "/pre"), postScript := some (bytes "/post"), reserved := true, postOnFail := true }

def exEnv (n : Nat) : ClientMain.Env :=
  { connected := n != 0, comms := .ok .timed, bopts := exCli, answer := some (bytes "ok:3") }

example : (client true .timed false (bytes "one:4971") [bytes "two:4971"] exEnv exEnv) =
    .done [.connecting (bytes "one:4971"), .connecting (bytes "two:4971"),
      .asked (bytes "backupphase1timed") (some (bytes "ok:3")),
      .pre [bytes "/pre", bytes "pre", bytes "reserved2", bytes "reserved3", bytes "reserved4", bytes "reserved5"] (.exited 0),
      .worked .timed false 3 true,
      .post [bytes "/post", bytes "post", bytes "0", bytes "reserved3", bytes "reserved4", bytes "reserved5"] (.exited 0)] .ok := by
  decide +kernel

example : (exEnv 1).Quiet ∧ ∀ n, (exEnv n).setup = true ∧ (exEnv n).comms ≠ .ok .check :=
  ⟨⟨rfl, rfl, rfl, rfl, rfl⟩, fun _ => ⟨rfl, by intro h; cases h⟩⟩

/-- C78 fails: if memory or the like runs out while the connection is set up, the client ends with exit code 0 although it has
done nothing, and no other server is tried. -/
theorem C78_setup_violated :
    client true .backup true (bytes "one:4971") [bytes "two:4971"] (fun n => { exEnv 1 with setup := n != 0 }) exEnv =
      .done [.connecting (bytes "one:4971")] .ok := by decide +kernel

/-- C78 fails: a server that answers `resume` without a level of compression makes the client read memory after the end of
the answer. -/
theorem C78_resume_violated :
    doClient .backup (bytes "one") { comms := .ok .backup, answer := some (bytes "resume") } =
      .undefined [.connecting (bytes "one"), .asked (bytes "backupphase1") (some (bytes "resume"))] := by decide +kernel

/-- C78 fails: a backup that was made is made again with another server if only the script after it fails. -/
theorem C78_again_violated :
    (match client true .backup true (bytes "one") [bytes "two"]
      (fun _ => { exEnv 1 with comms := .ok .backup, post := .exited 1 }) exEnv with
    | .done l r => (l.filter Event.isWork, contacts l, r)
    | .undefined l => (l, [], .ok)) =
    ([.worked .backup false 3 true, .worked .backup false 3 true], [bytes "one", bytes "two"], .error) := by decide +kernel

/-- C78 fails: the script after is not run, although it is wanted when a backup fails, if the backup fails because nothing is
included or because the server refuses it. -/
theorem C78_unrun_violated :
    doClient .backup (bytes "one") { exEnv 1 with comms := .ok .backup, bopts := { exCli with startDirs := false } } =
      .done [.connecting (bytes "one")] .error ∧
    doClient .backup (bytes "one") { exEnv 1 with comms := .ok .backup, answer := some (bytes "Forced backup is not allowed") } =
      .done [.connecting (bytes "one"), .asked (bytes "backupphase1") (some (bytes "Forced backup is not allowed"))] .error := by
  decide +kernel

/-- C78 fails: of the arguments of a script, those after the first 63 are left out. -/
theorem C78_args_violated (x : Str) : scriptArgs [bytes "/pre"] (List.replicate 62 x ++ [bytes "--last"]) =
    bytes "/pre" :: List.replicate 62 x := by
  rfl

end Verif
