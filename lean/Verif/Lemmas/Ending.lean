import Verif.Spec.Ending
import Verif.Props.Merge

/-!
# Lemmas on the end of a backup
-/

namespace Verif.Ending
open Verif.Rubble Verif.Manifest

variable {E : Type}

theorem applyAll_nil (s : St E) : applyAll s [] = s := rfl

theorem applyAll_cons (s : St E) (o : Op E) (ops : List (Op E)) :
    applyAll s (o :: ops) = applyAll (apply s o) ops := rfl

theorem applyAll_append (s : St E) (a b : List (Op E)) :
    applyAll s (a ++ b) = applyAll (applyAll s a) b := by
  unfold applyAll
  exact List.foldl_append

/-- A property holds at every point of a list of operations. -/
def Throughout (P : St E → Prop) (s : St E) (ops : List (Op E)) : Prop :=
  ∀ n, P (applyAll s (ops.take n))

theorem through_nil {P : St E → Prop} {s : St E} (h : P s) : Throughout P s [] := by
  intro n
  rw [List.take_nil]
  exact h

theorem through_cons {P : St E → Prop} {s : St E} {o : Op E} {ops : List (Op E)} (h : P s)
    (ht : Throughout P (apply s o) ops) : Throughout P s (o :: ops) := by
  intro n
  cases n with
  | zero => exact h
  | succ n => exact ht n

theorem through_append {P : St E → Prop} {s : St E} {a b : List (Op E)} (ha : Throughout P s a)
    (hb : Throughout P (applyAll s a) b) : Throughout P s (a ++ b) := by
  intro n
  rw [List.take_append, applyAll_append]
  by_cases hn : n ≤ a.length
  · rw [show n - a.length = 0 by omega, List.take_zero, applyAll_nil]
    exact ha n
  · rw [List.take_of_length_le (by omega)]
    exact hb _

theorem through_head {P : St E → Prop} {s : St E} {ops : List (Op E)} (h : Throughout P s ops) : P s :=
  h 0

theorem through_end {P : St E → Prop} {s : St E} {ops : List (Op E)} (h : Throughout P s ops) :
    P (applyAll s ops) := by
  have := h ops.length
  rwa [List.take_length] at this

theorem through_mono {P Q : St E → Prop} {s : St E} {ops : List (Op E)} (h : Throughout P s ops)
    (hpq : ∀ t, P t → Q t) : Throughout Q s ops := fun n => hpq _ (h n)

/-- An operation of a kind that keeps a property. -/
theorem through_all {P : St E → Prop} {ops : List (Op E)} (h : ∀ o ∈ ops, ∀ t, P t → P (apply t o)) :
    ∀ {s : St E}, P s → Throughout P s ops := by
  induction ops with
  | nil => exact fun hs => through_nil hs
  | cons o ops ih =>
    intro s hs
    exact through_cons hs (ih (fun o' ho' => h o' (List.mem_cons_of_mem _ ho'))
      (h o List.mem_cons_self s hs))

/-! ## Phase 2 -/

/-- The scan is still there. -/
def Second (s : St E) : Prop := s.link = some .working ∧ s.phase1 = true ∧ s.manifest = none

/-- The lists are there, and the manifest is `m`. -/
def Third (c u : List E) (m : Option (List E)) (s : St E) : Prop :=
  s.link = some .working ∧ s.phase1 = false ∧ s.changed = some c ∧ s.unchanged = some u ∧ s.manifest = m

/-- The list of changed entries is gone, and perhaps the other. -/
def Gap (u : List E) (m : List E) (s : St E) : Prop :=
  s.link = some .working ∧ s.phase1 = false ∧ s.changed = none ∧
    (s.unchanged = some u ∨ s.unchanged = none) ∧ s.manifest = some m

/-- The backup counts as done. -/
def Finished (m : List E) (s : St E) : Prop := Done s ∧ s.manifest = some m

theorem phase2_through {ch un : List E} {steps : List (Nat × Nat)} {s : St E} (h : Second s) :
    Throughout (fun t => Second t ∨ Third ch un none t) s (phase2Ops ch un steps) ∧
      Third ch un none (applyAll s (phase2Ops ch un steps)) := by
  have hfirst : Throughout Second s ([.createChanged, .createUnchanged]
      ++ steps.flatMap (fun n => [Op.setChanged (ch.take n.1), Op.setUnchanged (un.take n.2)])) := by
    refine through_all ?_ h
    intro o ho t ht
    obtain ⟨h1, h2, h3⟩ := ht
    rcases List.mem_append.mp ho with ho | ho
    · rcases List.mem_cons.mp ho with rfl | ho
      · exact ⟨h1, h2, h3⟩
      · rcases List.mem_cons.mp ho with rfl | ho
        · exact ⟨h1, h2, h3⟩
        · cases ho
    · obtain ⟨n, _, hn⟩ := List.mem_flatMap.mp ho
      rcases List.mem_cons.mp hn with rfl | hn
      · exact ⟨h1, h2, h3⟩
      · rcases List.mem_cons.mp hn with rfl | hn
        · exact ⟨h1, h2, h3⟩
        · cases hn
  have hmid := through_end hfirst
  generalize hm : applyAll s ([.createChanged, .createUnchanged]
      ++ steps.flatMap (fun n => [Op.setChanged (ch.take n.1), Op.setUnchanged (un.take n.2)])) = m
    at hmid
  obtain ⟨h1, h2, h3⟩ := hmid
  constructor
  · unfold phase2Ops
    refine through_append (through_mono hfirst fun t ht => Or.inl ht) ?_
    rw [hm]
    refine through_cons (Or.inl ⟨h1, h2, h3⟩) ?_
    refine through_cons (Or.inl ⟨h1, h2, h3⟩) ?_
    refine through_cons (Or.inl ⟨h1, h2, h3⟩) ?_
    refine through_cons (Or.inl ⟨h1, h2, h3⟩) ?_
    exact through_nil (Or.inr ⟨h1, rfl, rfl, rfl, h3⟩)
  · unfold phase2Ops
    rw [applyAll_append, hm]
    exact ⟨h1, rfl, rfl, rfl, h3⟩

/-! ## Phase 3 -/

theorem written {m : List E} {c u : List E} {m0 : Option (List E)} {s : St E} (h : Third c u m0 s) :
    Throughout (Third c u m0) s ((List.range (m.length + 1)).map fun n => Op.setTmp (m.take n)) ∧
      (applyAll s ((List.range (m.length + 1)).map fun n => Op.setTmp (m.take n))).tmp = some m := by
  constructor
  · refine through_all ?_ h
    intro o ho t ht
    obtain ⟨n, _, rfl⟩ := List.mem_map.mp ho
    exact ht
  · rw [List.range_succ, List.map_append, applyAll_append, List.map_cons, List.map_nil, applyAll_cons,
      applyAll_nil, List.take_length]
    rfl

/-- What can be met with in phase 3 and after it. -/
def Later (key : E → Cmd × Option Str) (c u : List E) (m0 : Option (List E)) (s : St E) : Prop :=
  Third c u m0 s ∨ Third c u (some (phase3 key u c)) s ∨ Gap u (phase3 key u c) s ∨
    Finished (phase3 key u c) s

theorem phase3_through {key : E → Cmd × Option Str} {c u : List E} {m0 : Option (List E)} {s : St E}
    (h : Third c u m0 s) :
    Throughout (Later key c u m0) s (phase3Ops key (some c) (some u) ++ endOps) ∧
      (applyAll s (phase3Ops key (some c) (some u) ++ endOps)).link = some .current ∧
      (applyAll s (phase3Ops key (some c) (some u) ++ endOps)).manifest = some (phase3 key u c) := by
  obtain ⟨hw, ht⟩ := written (m := phase3 key u c) h
  have hmid := through_end hw
  unfold phase3Ops endOps
  simp only [Option.getD_some]
  generalize hm : applyAll s
    ((List.range ((phase3 key u c).length + 1)).map fun n => Op.setTmp ((phase3 key u c).take n)) = m
    at hmid ht
  obtain ⟨h1, h2, h3, h4, h5⟩ := hmid
  refine ⟨?_, ?_⟩
  · rw [List.append_assoc]
    refine through_append (through_mono hw fun t ht => Or.inl ht) ?_
    rw [hm]
    refine through_cons (Or.inl ⟨h1, h2, h3, h4, h5⟩) ?_
    refine through_cons (Or.inr (Or.inl ⟨h1, h2, h3, h4, ht⟩)) ?_
    refine through_cons (Or.inr (Or.inr (Or.inl ⟨h1, h2, rfl, Or.inl h4, ht⟩))) ?_
    refine through_cons (Or.inr (Or.inr (Or.inl ⟨h1, h2, rfl, Or.inr rfl, ht⟩))) ?_
    refine through_cons (Or.inr (Or.inr (Or.inl ⟨h1, h2, rfl, Or.inr rfl, ht⟩))) ?_
    refine through_cons (Or.inr (Or.inr (Or.inr ⟨Or.inl rfl, ht⟩))) ?_
    exact through_nil (Or.inr (Or.inr (Or.inr ⟨Or.inr rfl, ht⟩)))
  · rw [List.append_assoc, applyAll_append, hm]
    exact ⟨rfl, ht⟩

/-! ## A connection -/

theorem backup_second {key : E → Cmd × Option Str} {ch un : List E} {steps : List (Nat × Nat)}
    {s : St E} (h : Second s) :
    Throughout (fun t => Second t ∨ Later key ch un none t) s (backupOps key ch un steps s) ∧
      (applyAll s (backupOps key ch un steps s)).link = some .current ∧
      (applyAll s (backupOps key ch un steps s)).manifest = some (phase3 key un ch) := by
  have hskip : skipPhase2 s = false := by
    unfold skipPhase2
    rw [h.2.1]
    rfl
  unfold backupOps
  rw [hskip, if_neg (by decide), if_pos h.2.1, List.append_assoc]
  obtain ⟨h2, hm⟩ := phase2_through (ch := ch) (un := un) (steps := steps) h
  obtain ⟨h3, he⟩ := phase3_through (key := key) hm
  refine ⟨?_, ?_⟩
  · refine through_append (through_mono h2 ?_) (through_mono h3 fun t ht => Or.inr ht)
    rintro t (ht | ht)
    · exact Or.inl ht
    · exact Or.inr (Or.inl ht)
  · rw [applyAll_append]
    exact he

theorem backup_third {key : E → Cmd × Option Str} {ch un c u : List E} {m0 : Option (List E)}
    {steps : List (Nat × Nat)} {s : St E} (h : Third c u m0 s) :
    Throughout (Later key c u m0) s (backupOps key ch un steps s) ∧
      (applyAll s (backupOps key ch un steps s)).link = some .current ∧
      (applyAll s (backupOps key ch un steps s)).manifest = some (phase3 key u c) := by
  have hskip : skipPhase2 s = true := by
    unfold skipPhase2
    rw [h.2.1, h.2.2.1, h.2.2.2.1]
    rfl
  unfold backupOps
  rw [hskip, if_pos rfl, h.2.2.1, h.2.2.2.1]
  exact phase3_through h

/-- The directory is not one whose scan is missing. -/
theorem scan_there {s : St E} {c : Conn} (h : s.phase1 = true ∨ s.changed.isSome = true ∨
    s.unchanged.isSome = true) : phase1Incomplete (leftover s c) = false := by
  unfold phase1Incomplete leftover
  rcases h with h | h | h <;> simp [h]

/-- With neither the scan nor a list the directory is removed. -/
theorem gap_removed {s : St E} {c : Conn} (h1 : s.phase1 = false) (h2 : s.changed = none)
    (h3 : s.unchanged = none) : recoverWorking (leftover s c) c.settings = .deleted := by
  have : phase1Incomplete (leftover s c) = true := by
    unfold phase1Incomplete leftover
    simp [h1, h2, h3]
  unfold recoverWorking
  rw [this]
  simp [byMethod, leftover]

/-! ## What holds without a stop in the window -/

/-- All that can be met with. -/
def Good (key : E → Cmd × Option Str) (ch un : List E) (s : St E) : Prop :=
  s.link = none ∨ Second s ∨ Third ch un none s ∨ Third ch un (some (phase3 key un ch)) s ∨
    Finished (phase3 key un ch) s

theorem good_of_later {key : E → Cmd × Option Str} {ch un : List E} {m0 : Option (List E)} {s : St E}
    (hm : m0 = none ∨ m0 = some (phase3 key un ch)) (h : Later key ch un m0 s) (hw : ¬ InWindow s) :
    Good key ch un s := by
  rcases h with h | h | h | h
  · rcases hm with rfl | rfl
    · exact Or.inr (Or.inr (Or.inl h))
    · exact Or.inr (Or.inr (Or.inr (Or.inl h)))
  · exact Or.inr (Or.inr (Or.inr (Or.inl h)))
  · exact absurd ⟨h.1, h.2.1, h.2.2.1⟩ hw
  · exact Or.inr (Or.inr (Or.inr (Or.inr h)))

theorem conn_of_working {key : E → Cmd × Option Str} {ch un : List E} {s : St E} {c : Conn}
    (h : s.link = some .working) :
    (recoverWorking (leftover s c) c.settings = .deleted) ∨
      conn key ch un s c = s ∨
      (recoverWorking (leftover s c) c.settings = .resume ∧ c.backup = true ∧
        conn key ch un s c = applyAll s ((backupOps key ch un c.steps s).take c.stop)) := by
  unfold conn connOps
  rw [h]
  cases hr : recoverWorking (leftover s c) c.settings with
  | deleted => exact Or.inl rfl
  | linkRemoved => exact Or.inr (Or.inl (by simp only [List.take_nil]; rfl))
  | refused => exact Or.inr (Or.inl (by simp only [List.take_nil]; rfl))
  | resume =>
    cases hb : c.backup with
    | false => exact Or.inr (Or.inl (by simp [applyAll]))
    | true => exact Or.inr (Or.inr ⟨rfl, rfl, by simp⟩)

theorem conn_done {key : E → Cmd × Option Str} {ch un : List E} {s : St E} {c : Conn} (h : Done s) :
    Done (conn key ch un s c) ∧ (conn key ch un s c).manifest = s.manifest := by
  unfold conn connOps
  rcases h with h | h
  · rw [h]
    cases hn : c.stop with
    | zero => exact ⟨Or.inl h, rfl⟩
    | succ n => simp [applyAll, apply, Done]
  · rw [h]
    simp only [List.take_nil]
    exact ⟨Or.inr h, rfl⟩

theorem conn_none {key : E → Cmd × Option Str} {ch un : List E} {s : St E} {c : Conn}
    (h : s.link = none) : conn key ch un s c = s := by
  unfold conn connOps
  rw [h]
  simp only [List.take_nil]
  rfl

theorem good_conn {key : E → Cmd × Option Str} {ch un : List E} {s : St E} {c : Conn}
    (h : Good key ch un s) (hr : RemovalWhole key ch un s c)
    (hw : ¬ InWindow (conn key ch un s c)) : Good key ch un (conn key ch un s c) := by
  have hgone : s.link = some .working → recoverWorking (leftover s c) c.settings = .deleted →
      Good key ch un (conn key ch un s c) := by
    intro h1 h2
    rcases hr h1 h2 with h3 | h3
    · rw [h3]; exact h
    · exact Or.inl h3
  rcases h with h0 | h0 | h0 | h0 | h0
  · rw [conn_none h0]; exact Or.inl h0
  · rcases conn_of_working (key := key) (ch := ch) (un := un) (c := c) h0.1 with h1 | h1 | ⟨_, _, h1⟩
    · exact hgone h0.1 h1
    · rw [h1]; exact Or.inr (Or.inl h0)
    · rw [h1] at hw ⊢
      rcases (backup_second (key := key) (ch := ch) (un := un) (steps := c.steps) h0).1 c.stop
        with h2 | h2
      · exact Or.inr (Or.inl h2)
      · exact good_of_later (Or.inl rfl) h2 hw
  · rcases conn_of_working (key := key) (ch := ch) (un := un) (c := c) h0.1 with h1 | h1 | ⟨_, _, h1⟩
    · exact hgone h0.1 h1
    · rw [h1]; exact Or.inr (Or.inr (Or.inl h0))
    · rw [h1] at hw ⊢
      exact good_of_later (Or.inl rfl)
        ((backup_third (key := key) (ch := ch) (un := un) (steps := c.steps) h0).1 c.stop) hw
  · rcases conn_of_working (key := key) (ch := ch) (un := un) (c := c) h0.1 with h1 | h1 | ⟨_, _, h1⟩
    · exact hgone h0.1 h1
    · rw [h1]; exact Or.inr (Or.inr (Or.inr (Or.inl h0)))
    · rw [h1] at hw ⊢
      exact good_of_later (Or.inr rfl)
        ((backup_third (key := key) (ch := ch) (un := un) (steps := c.steps) h0).1 c.stop) hw
  · obtain ⟨hd, hm⟩ := conn_done (key := key) (ch := ch) (un := un) (c := c) h0.1
    exact Or.inr (Or.inr (Or.inr (Or.inr ⟨hd, hm.trans h0.2⟩)))

theorem calm_head {key : E → Cmd × Option Str} {ch un : List E} {s : St E} {cs : List Conn}
    (h : Calm key ch un s cs) : ¬ InWindow s := by
  cases cs with
  | nil => exact h
  | cons c cs => exact h.1

theorem good_conns {key : E → Cmd × Option Str} {ch un : List E} (cs : List Conn) :
    ∀ s, Good key ch un s → Removals key ch un s cs → Calm key ch un s cs →
      Good key ch un (cs.foldl (conn key ch un) s) := by
  induction cs with
  | nil => exact fun s h _ _ => h
  | cons c cs ih =>
    intro s h hr hc
    exact ih _ (good_conn h hr.1 (calm_head hc.2)) hr.2 hc.2

/-- After the first connection. -/
theorem good_first {key : E → Cmd × Option Str} {ch un : List E} {steps : List (Nat × Nat)} {stop : Nat}
    (hw : ¬ InWindow (applyAll scanned ((firstOps key ch un steps).take stop))) :
    Good key ch un (applyAll scanned ((firstOps key ch un steps).take stop)) := by
  have h0 : Second (scanned : St E) := ⟨rfl, rfl, rfl⟩
  rcases (backup_second (key := key) (ch := ch) (un := un) (steps := steps) h0).1 stop with h2 | h2
  · exact Or.inr (Or.inl h2)
  · exact good_of_later (Or.inl rfl) h2 hw

/-! ## What holds always -/

/-- One of the two manifests there can be. -/
def Either (key : E → Cmd × Option Str) (ch un : List E) (m : Option (List E)) : Prop :=
  m = some (phase3 key un ch) ∨ m = some (phase3 key un [])

/-- All that can be met with. -/
def Weak (key : E → Cmd × Option Str) (ch un : List E) (s : St E) : Prop :=
  s.link = none ∨ Second s ∨ Third ch un none s ∨ Third ch un (some (phase3 key un ch)) s ∨
    (∃ m, (m = phase3 key un ch ∨ m = phase3 key un []) ∧
      (Third [] un (some m) s ∨ Gap un m s ∨ Finished m s))

theorem weak_of_later {key : E → Cmd × Option Str} {ch un : List E} {m0 : Option (List E)} {s : St E}
    (hm : m0 = none ∨ m0 = some (phase3 key un ch)) (h : Later key ch un m0 s) : Weak key ch un s := by
  rcases h with h | h | h | h
  · rcases hm with rfl | rfl
    · exact Or.inr (Or.inr (Or.inl h))
    · exact Or.inr (Or.inr (Or.inr (Or.inl h)))
  · exact Or.inr (Or.inr (Or.inr (Or.inl h)))
  · exact Or.inr (Or.inr (Or.inr (Or.inr ⟨_, Or.inl rfl, Or.inr (Or.inl h)⟩)))
  · exact Or.inr (Or.inr (Or.inr (Or.inr ⟨_, Or.inl rfl, Or.inr (Or.inr h)⟩)))

theorem weak_of_empty {key : E → Cmd × Option Str} {ch un m : List E} {s : St E}
    (hm : m = phase3 key un ch ∨ m = phase3 key un []) (h : Later key [] un (some m) s) :
    Weak key ch un s := by
  refine Or.inr (Or.inr (Or.inr (Or.inr ?_)))
  rcases h with h | h | h | h
  · exact ⟨m, hm, Or.inl h⟩
  · exact ⟨_, Or.inr rfl, Or.inl h⟩
  · exact ⟨_, Or.inr rfl, Or.inr (Or.inl h)⟩
  · exact ⟨_, Or.inr rfl, Or.inr (Or.inr h)⟩

theorem backup_gap {key : E → Cmd × Option Str} {ch un m : List E} {steps : List (Nat × Nat)}
    {s : St E} (h : Gap un m s) (hu : s.unchanged = some un) :
    Throughout (fun t => Gap un m t ∨ Third [] un (some m) t) s (backupOps key ch un steps s) := by
  have hskip : skipPhase2 s = false := by
    unfold skipPhase2
    rw [h.2.2.1]
    simp
  obtain ⟨h1, h2, h3, h4, h5⟩ := h
  unfold backupOps
  rw [hskip, if_neg (by decide), if_neg (by rw [h2]; decide)]
  refine through_cons (Or.inl ⟨h1, h2, h3, h4, h5⟩) ?_
  refine through_cons (Or.inr ⟨h1, h2, ?_, hu, h5⟩) ?_
  · show some (s.changed.getD []) = _
    rw [h3]; rfl
  · refine through_nil (Or.inr ⟨h1, h2, ?_, ?_, h5⟩)
    · show some (s.changed.getD []) = _
      rw [h3]; rfl
    · show some (s.unchanged.getD []) = _
      rw [hu]; rfl

theorem weak_conn {key : E → Cmd × Option Str} {ch un : List E} {s : St E} {c : Conn}
    (h : Weak key ch un s) (hr : RemovalWhole key ch un s c) : Weak key ch un (conn key ch un s c) := by
  have hgone : s.link = some .working → recoverWorking (leftover s c) c.settings = .deleted →
      Weak key ch un (conn key ch un s c) := by
    intro h1 h2
    rcases hr h1 h2 with h3 | h3
    · rw [h3]; exact h
    · exact Or.inl h3
  have hw := h
  rcases h with h0 | h0 | h0 | h0 | ⟨m, hm, h0 | h0 | h0⟩
  · rw [conn_none h0]; exact Or.inl h0
  · rcases conn_of_working (key := key) (ch := ch) (un := un) (c := c) h0.1 with h1 | h1 | ⟨_, _, h1⟩
    · exact hgone h0.1 h1
    · rw [h1]; exact hw
    · rw [h1]
      rcases (backup_second (key := key) (ch := ch) (un := un) (steps := c.steps) h0).1 c.stop
        with h2 | h2
      · exact Or.inr (Or.inl h2)
      · exact weak_of_later (Or.inl rfl) h2
  · rcases conn_of_working (key := key) (ch := ch) (un := un) (c := c) h0.1 with h1 | h1 | ⟨_, _, h1⟩
    · exact hgone h0.1 h1
    · rw [h1]; exact hw
    · rw [h1]
      exact weak_of_later (Or.inl rfl)
        ((backup_third (key := key) (ch := ch) (un := un) (steps := c.steps) h0).1 c.stop)
  · rcases conn_of_working (key := key) (ch := ch) (un := un) (c := c) h0.1 with h1 | h1 | ⟨_, _, h1⟩
    · exact hgone h0.1 h1
    · rw [h1]; exact hw
    · rw [h1]
      exact weak_of_later (Or.inr rfl)
        ((backup_third (key := key) (ch := ch) (un := un) (steps := c.steps) h0).1 c.stop)
  · rcases conn_of_working (key := key) (ch := ch) (un := un) (c := c) h0.1 with h1 | h1 | ⟨_, _, h1⟩
    · exact hgone h0.1 h1
    · rw [h1]; exact hw
    · rw [h1]
      exact weak_of_empty hm
        ((backup_third (key := key) (ch := ch) (un := un) (steps := c.steps) h0).1 c.stop)
  · rcases conn_of_working (key := key) (ch := ch) (un := un) (c := c) h0.1 with h1 | h1 | ⟨h2, _, h1⟩
    · exact hgone h0.1 h1
    · rw [h1]; exact hw
    · rw [h1]
      rcases h0.2.2.2.1 with hu | hu
      · rcases backup_gap (key := key) (ch := ch) (steps := c.steps) h0 hu c.stop with h3 | h3
        · exact Or.inr (Or.inr (Or.inr (Or.inr ⟨m, hm, Or.inr (Or.inl h3)⟩)))
        · exact Or.inr (Or.inr (Or.inr (Or.inr ⟨m, hm, Or.inl h3⟩)))
      · rw [gap_removed h0.2.1 h0.2.2.1 hu] at h2
        cases h2
  · obtain ⟨hd, he⟩ := conn_done (key := key) (ch := ch) (un := un) (c := c) h0.1
    exact Or.inr (Or.inr (Or.inr (Or.inr ⟨m, hm, Or.inr (Or.inr ⟨hd, he.trans h0.2⟩)⟩)))

theorem weak_conns {key : E → Cmd × Option Str} {ch un : List E} (cs : List Conn) :
    ∀ s, Weak key ch un s → Removals key ch un s cs →
      Weak key ch un (cs.foldl (conn key ch un) s) := by
  induction cs with
  | nil => exact fun s h _ => h
  | cons c cs ih =>
    intro s h hr
    exact ih _ (weak_conn h hr.1) hr.2

theorem weak_first {key : E → Cmd × Option Str} {ch un : List E} {steps : List (Nat × Nat)}
    {stop : Nat} : Weak key ch un (applyAll scanned ((firstOps key ch un steps).take stop)) := by
  have h0 : Second (scanned : St E) := ⟨rfl, rfl, rfl⟩
  rcases (backup_second (key := key) (ch := ch) (un := un) (steps := steps) h0).1 stop with h2 | h2
  · exact Or.inr (Or.inl h2)
  · exact weak_of_later (Or.inl rfl) h2

end Verif.Ending
