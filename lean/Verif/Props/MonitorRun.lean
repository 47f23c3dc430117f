import Verif.Props.Monitor

/-!
# C79: what a monitor gets to see of children at work
-/

namespace Verif
open Verif Monitor

namespace Monitor

/-! ### Properties of every client in the list -/

theorem pass_all {sv : Server} {w : World} {u : Bool} {P : CStat → Prop}
    (hP : ∀ c c', P c → reloadOne sv w u c = .kept c' → P c') :
    ∀ (l done l' : List CStat) (again : Bool), (∀ c ∈ l, P c) → (∀ c ∈ done, P c) →
      pass sv w u done l = some (l', again) → ∀ c ∈ l', P c
  | [], done, l', again, _, hd, h => by
    unfold pass at h
    injection h with h
    injection h with h _
    subst h
    exact hd
  | c :: cs, done, l', again, hl, hd, h => by
    unfold pass at h
    split at h
    · injection h with h
      injection h with h _
      subst h
      intro d hm
      rcases List.mem_append.mp hm with hm | hm
      · exact hd d hm
      · exact hl d (by simp [hm])
    · next c' e =>
      refine pass_all hP cs (done ++ [c']) l' again (fun d hm => hl d (by simp [hm])) ?_ h
      intro d hm
      rcases List.mem_append.mp hm with hm | hm
      · exact hd d hm
      · rw [List.mem_singleton] at hm
        subst hm
        exact hP c _ (hl c (by simp)) e
    · cases h

theorem passes_all {sv : Server} {w : World} {u : Bool} {P : CStat → Prop}
    (hP : ∀ c c', P c → reloadOne sv w u c = .kept c' → P c') :
    ∀ (n : Nat) (l l' : List CStat), (∀ c ∈ l, P c) → passes sv w u n l = some l' → ∀ c ∈ l', P c
  | 0, l, l', hl, h => by
    unfold passes at h
    injection h with h
    subst h
    exact hl
  | n + 1, l, l', hl, h => by
    unfold passes at h
    split at h
    · cases h
    · next l1 e =>
      injection h with h
      subst h
      exact pass_all hP l [] _ _ hl (by simp) e
    · next l1 e => exact passes_all hP n l1 l' (pass_all hP l [] _ _ hl (by simp) e) h

theorem mapM_mem {α β : Type} {f : α → Option β} :
    ∀ (l : List α) (l' : List β), l.mapM f = some l' → ∀ b ∈ l', ∃ a ∈ l, f a = some b
  | [], l', h => by
    rw [List.mapM_nil] at h
    injection h with h
    subst h
    simp
  | a :: as, l', h => by
    rw [List.mapM_cons] at h
    cases ha : f a with
    | none => rw [ha] at h; cases h
    | some b =>
      rw [ha] at h
      cases hr : as.mapM f with
      | none => rw [hr] at h; cases h
      | some bs =>
        rw [hr] at h
        injection h with h
        subst h
        intro x hx
        rcases List.mem_cons.mp hx with rfl | hx
        · exact ⟨a, by simp, ha⟩
        · obtain ⟨y, hy, e⟩ := mapM_mem as bs hr x hx
          exact ⟨y, by simp [hy], e⟩

/-- After the disk has been read, every client comes from one with `P`. -/
theorem loadDisk_all {sv : Server} {w : World} {st st' : State} {P : CStat → Prop} (hs : Sorted st.clients)
    (hP : ∀ u c c', P c → reloadOne sv w u c = .kept c' → P c') (hf : ∀ n, P (fresh n)) (hc : ∀ c ∈ st.clients, P c)
    (h : loadDisk sv w st = some st') : ∀ c' ∈ st'.clients, ∃ c, P c ∧ reloadDir w c = some c' := by
  unfold loadDisk getNames at h
  cases hns : w.names with
  | none => rw [hns] at h; cases h
  | some ns =>
    rw [hns, Option.map_some, Option.bind_some] at h
    cases hg : w.globalTime with
    | none => rw [hg] at h; cases h
    | some g =>
      rw [hg, Option.bind_some] at h
      obtain ⟨_, a2, _, _⟩ := foldl_addName ns st.clients hs
      generalize ns.foldl addName st.clients = l at h a2
      cases hp : passes sv w (decide (g = st.globalTime)) (l.length + 1) l with
      | none => rw [hp] at h; cases h
      | some l1 =>
        rw [hp, Option.bind_some] at h
        cases hm : l1.mapM (reloadDir w) with
        | none => rw [hm] at h; cases h
        | some l2 =>
          rw [hm, Option.map_some] at h
          injection h with h
          subst h
          intro c' hc'
          obtain ⟨c, hcm, e⟩ := mapM_mem l1 l2 hm c' hc'
          refine ⟨c, ?_, e⟩
          refine passes_all (hP _) _ l l1 ?_ hp c hcm
          intro d hd
          rcases a2 d hd with hd | ⟨n, _, rfl, _⟩
          · exact hc d hd
          · exact hf n

theorem reloadOne_rest {sv : Server} {w : World} {u : Bool} {c c' : CStat} (h : reloadOne sv w u c = .kept c') :
    c'.name = c.name ∧ c'.dirTime = c.dirTime ∧ c'.cntrs = c.cntrs ∧ c'.run = c.run ∧ c'.bus = c.bus := by
  unfold reloadOne at h
  split at h
  · cases h
  · split at h
    · injection h with h; subst h; exact ⟨rfl, rfl, rfl, rfl, rfl⟩
    · split at h
      · injection h with h; subst h; exact ⟨rfl, rfl, rfl, rfl, rfl⟩
      · split at h
        · cases h
        · injection h with h; subst h; exact ⟨rfl, rfl, rfl, rfl, rfl⟩

/-! ### Changing the first of a list -/

theorem mapFirst_nodup {α β κ : Type} [DecidableEq κ] (key : α → κ) (x : κ) (f : α → α) (g : α → β) :
    ∀ l : List α, (l.map key).Nodup →
      (mapFirst (fun a => decide (key a = x)) f l).map g = l.map (fun a => if key a = x then g (f a) else g a)
  | [], _ => rfl
  | a :: as, h => by
    rw [List.map_cons, List.nodup_cons] at h
    unfold mapFirst
    by_cases e : key a = x
    · rw [if_pos (by simpa using e), List.map_cons, List.map_cons, if_pos e]
      congr 1
      refine List.map_congr_left ?_
      intro b hb
      rw [if_neg]
      intro e'
      exact h.1 (e.trans e'.symm ▸ List.mem_map.mpr ⟨b, hb, rfl⟩)
    · rw [if_neg (by simpa using e), List.map_cons, List.map_cons, if_neg e, mapFirst_nodup key x f g as h.2]

theorem mapFirst_eq {α κ : Type} [DecidableEq κ] (key : α → κ) (x : κ) (f : α → α) (l : List α)
    (h : (l.map key).Nodup) :
    mapFirst (fun a => decide (key a = x)) f l = l.map (fun a => if key a = x then f a else a) := by
  have := mapFirst_nodup key x f id l h
  simpa using this

/-- What one running child makes of a client. -/
def markOne (p : Str × Int × Int) (c : CStat) : CStat :=
  if c.name = p.1 then { setRun .running c with
    cntrs := mapFirst (fun k => decide (k.r.pid = p.2.1)) (fun k => ⟨{ k.r with bno := p.2.2 }, true⟩)
      (setRun .running c).cntrs } else c

theorem setRun_name (r : Run) (c : CStat) : (setRun r c).name = c.name := core_name (core_setRun r c)

theorem setRun_cntrs (r : Run) (c : CStat) : (setRun r c).cntrs = c.cntrs := by
  unfold setRun
  split <;> rfl

theorem markOne_name (p : Str × Int × Int) (c : CStat) : (markOne p c).name = c.name := by
  unfold markOne
  split
  · exact setRun_name _ c
  · rfl

theorem listedOne_eq (l : List CStat) (t : Str) (h : (l.map (·.name)).Nodup) :
    listedOne l t = l.map (markOne (Cntr.clientPidBno t)) := by
  unfold listedOne
  rw [mapFirst_eq (fun c : CStat => c.name) _ _ l h]
  rfl

theorem foldl_listedOne (ts : List Str) : ∀ l : List CStat, (l.map (·.name)).Nodup →
    ts.foldl listedOne l = l.map (fun c => ts.foldl (fun c t => markOne (Cntr.clientPidBno t) c) c) := by
  induction ts with
  | nil => intro l _; simp
  | cons t ts ih =>
    intro l h
    rw [List.foldl_cons, listedOne_eq l t h, ih]
    · rw [List.map_map]; rfl
    · rw [List.map_map]
      have : ((fun c : CStat => c.name) ∘ markOne (Cntr.clientPidBno t)) = (fun c => c.name) := by
        funext c; exact markOne_name _ c
      rw [this]
      exact h

/-- What all the running children make of a client. -/
theorem fold_mark (ps : List (Str × Int × Int)) : ∀ c : CStat, (c.cntrs.map (·.r.pid)).Nodup →
    (ps.foldl (fun c p => markOne p c) c).name = c.name ∧
    (ps.foldl (fun c p => markOne p c) c).permitted = c.permitted ∧
    (ps.foldl (fun c p => markOne p c) c).run =
      (if c.permitted ∧ ∃ p ∈ ps, p.1 = c.name then .running else c.run) ∧
    (ps.foldl (fun c p => markOne p c) c).cntrs.map (fun k => (k.r.pid, k.found)) =
      c.cntrs.map (fun k => (k.r.pid, k.found || ps.any (fun p => decide (p.1 = c.name) && decide (p.2.1 = k.r.pid)))) := by
  induction ps with
  | nil => intro c _; simp
  | cons p ps ih =>
    intro c hn
    rw [List.foldl_cons]
    by_cases e : c.name = p.1
    · have hc : (markOne p c).cntrs.map (fun k => (k.r.pid, k.found)) =
          c.cntrs.map (fun k => (k.r.pid, k.found || decide (p.2.1 = k.r.pid))) := by
        unfold markOne
        rw [if_pos e]
        show List.map _ (mapFirst _ _ (setRun .running c).cntrs) = _
        rw [setRun_cntrs, mapFirst_nodup (fun k : Child => k.r.pid) _ _ _ _ hn]
        refine List.map_congr_left ?_
        intro k _
        by_cases q : k.r.pid = p.2.1
        · simp [q]
        · simp [q, Ne.symm q]
      have hpid : (markOne p c).cntrs.map (·.r.pid) = c.cntrs.map (·.r.pid) := by
        have := congrArg (List.map Prod.fst) hc
        rw [List.map_map, List.map_map] at this
        exact this
      obtain ⟨i1, i2, i3, i4⟩ := ih (markOne p c) (by rw [hpid]; exact hn)
      have hm : (markOne p c).permitted = c.permitted := by
        unfold markOne
        rw [if_pos e]
        exact core_perm (core_setRun _ c)
      have hr : (markOne p c).run = if c.permitted then .running else c.run := by
        unfold markOne
        rw [if_pos e]
        show (setRun .running c).run = _
        unfold setRun
        split <;> rfl
      refine ⟨i1.trans (markOne_name p c), i2.trans hm, ?_, ?_⟩
      · rw [i3, hm, hr, markOne_name]
        by_cases hp : c.permitted = true
        · simp [hp, e]
        · simp [hp]
      · rw [i4, markOne_name]
        have key : ∀ (l l' : List Child) (f : Child → Bool) (P : Int → Bool),
            l.map (fun k => (k.r.pid, k.found)) = l'.map (fun k => (k.r.pid, f k)) →
            l.map (fun k => (k.r.pid, k.found || P k.r.pid)) = l'.map (fun k => (k.r.pid, f k || P k.r.pid)) := by
          intro l l' f P h
          have := congrArg (List.map (fun x : Int × Bool => (x.1, x.2 || P x.1))) h
          rw [List.map_map, List.map_map] at this
          exact this
        rw [key _ _ _ (fun i => ps.any (fun p => decide (p.1 = c.name) && decide (p.2.1 = i))) hc]
        refine List.map_congr_left ?_
        intro k _
        simp [e, Bool.or_assoc]
    · have hme : markOne p c = c := by unfold markOne; rw [if_neg e]
      rw [hme]
      obtain ⟨i1, i2, i3, i4⟩ := ih c hn
      refine ⟨i1, i2, ?_, ?_⟩
      · have hx : (∃ q ∈ p :: ps, q.1 = c.name) ↔ ∃ q ∈ ps, q.1 = c.name := by
          constructor
          · rintro ⟨q, hq, he⟩
            rcases List.mem_cons.mp hq with rfl | hq
            · exact absurd he.symm e
            · exact ⟨q, hq, he⟩
          · rintro ⟨q, hq, he⟩
            exact ⟨q, by simp [hq], he⟩
        rw [i3]
        by_cases hq : c.permitted = true ∧ ∃ q ∈ ps, q.1 = c.name
        · rw [if_pos hq, if_pos ⟨hq.1, hx.mpr hq.2⟩]
        · rw [if_neg hq, if_neg (fun h => hq ⟨h.1, hx.mp h.2⟩)]
      · rw [i4]
        refine List.map_congr_left ?_
        intro k _
        simp [Ne.symm e]

theorem clientsLine_tokens (l : List (Str × Nat × Nat)) (hl : ∀ x ∈ l, Cntr.Plain x.1) :
    Cntr.tokens [] (clientsLine l) = bytes "clients" ::
      l.map (fun x => x.1 ++ [dot] ++ BackupNumber.decimal x.2.1 ++ [dot] ++ BackupNumber.decimal x.2.2) := by
  have gen : ∀ (l : List (Str × Nat × Nat)) (w : Str), Cntr.Plain w → w ≠ [] → (∀ x ∈ l, Cntr.Plain x.1) →
      Cntr.tokens [] (w ++ (l.map (fun x =>
        Cntr.tab :: (x.1 ++ [dot] ++ BackupNumber.decimal x.2.1 ++ [dot] ++ BackupNumber.decimal x.2.2))).flatten) =
      w :: l.map (fun x => x.1 ++ [dot] ++ BackupNumber.decimal x.2.1 ++ [dot] ++ BackupNumber.decimal x.2.2) := by
    intro l
    induction l with
    | nil => intro w hw hne _; simpa using Cntr.tokens_last hw hne
    | cons x l ih =>
      intro w hw hne hl
      rw [List.map_cons, List.flatten_cons, List.cons_append, Cntr.tokens_word hw hne (.inl rfl), ih]
      · rfl
      · have h1 : ¬ Cntr.tab = dot := by decide
        have h2 : ¬ newline = dot := by decide
        have hc := hl x (by simp)
        have hd := fun n => Cntr.digits_plain n
        constructor
        · simp [List.mem_append, hc.1, (hd _).1, h1]
        · simp [List.mem_append, hc.2, (hd _).2.1, h2]
      · simp
      · exact fun y hy => hl y (by simp [hy])
  exact gen l (bytes "clients") (by decide) (by decide) hl

/-- The step in which the main process tells which children are at work. -/
theorem clients_step {sv : Server} {st : State} (hn : (st.clients.map (·.name)).Nodup)
    (hp : ∀ c ∈ st.clients, (c.cntrs.map (·.r.pid)).Nodup)
    (l : List (Str × Nat × Nat)) (hl : ∀ x ∈ l, Cntr.Plain x.1) :
    ∃ st', step sv st (.parent (clientsLine l)) = .goesOn st' [] [] ∧
      st'.clients.map (fun c => (c.name, c.permitted, c.cntrs.map (·.r.pid))) =
        st.clients.map (fun c => (c.name, c.permitted,
          (c.cntrs.map (·.r.pid)).filter (fun i => l.any (fun x => decide (x.1 = c.name) && decide ((x.2.1 : Int) = i))))) ∧
      ∀ c ∈ st'.clients, c.permitted = true → c.run = if c.name ∈ l.map (·.1) then .running else .idle := by
  have htok := clientsLine_tokens l hl
  have hpre : (bytes "cntr").isPrefixOf (clientsLine l) = false := by
    have : clientsLine l = 99 :: 108 :: (clientsLine l).drop 2 := by
      unfold clientsLine
      rfl
    rw [this]
    rfl
  have hpre' : (bytes "clients").isPrefixOf (clientsLine l) = true := by
    unfold clientsLine
    simp
  simp only [step, parseParent, hpre, hpre', if_true, Bool.false_eq_true, if_false]
  refine ⟨_, rfl, ?_⟩
  have hpc : parseClients (clientsLine l) st.clients =
      st.clients.map (fun c =>
        let c' := (l.map (fun x => (x.1, (x.2.1 : Int), (x.2.2 : Int)))).foldl (fun c p => markOne p c)
          (setRun .idle { c with cntrs := c.cntrs.map (fun k => { k with found := false }) })
        { c' with cntrs := c'.cntrs.filter (·.found) }) := by
    unfold parseClients
    rw [htok]
    dsimp only
    rw [foldl_listedOne]
    · rw [List.map_map, List.map_map]
      refine List.map_congr_left ?_
      intro c _
      simp only [Function.comp, List.foldl_map, Cntr.clientPidBno_header]
    · rw [List.map_map]
      have : ((fun c : CStat => c.name) ∘ fun c : CStat =>
          setRun .idle { c with cntrs := c.cntrs.map (fun k => { k with found := false }) }) = (fun c : CStat => c.name) := by
        funext c
        exact setRun_name _ _
      rw [this]
      exact hn
  have hx : ∀ c ∈ st.clients,
      ((setRun .idle { c with cntrs := c.cntrs.map (fun k => { k with found := false }) }).cntrs.map (·.r.pid)).Nodup := by
    intro c hc
    rw [setRun_cntrs, List.map_map]
    exact hp c hc
  constructor
  · rw [hpc, List.map_map]
    refine List.map_congr_left ?_
    intro c hc
    obtain ⟨f1, f2, f3, f4⟩ := fold_mark (l.map (fun x => (x.1, (x.2.1 : Int), (x.2.2 : Int)))) _ (hx c hc)
    simp only [Function.comp]
    rw [f1, f2, setRun_name, core_perm (core_setRun _ _)]
    refine Prod.ext rfl (Prod.ext rfl ?_)
    show List.map _ (List.filter _ _) = _
    rw [setRun_cntrs, List.map_map, setRun_name] at f4
    generalize (List.foldl (fun c p => markOne p c)
      (setRun .idle { c with cntrs := c.cntrs.map (fun k => { k with found := false }) })
      (l.map (fun x => (x.1, (x.2.1 : Int), (x.2.2 : Int))))).cntrs = ks at f4
    have g1 : ∀ ks : List Child, (ks.filter (·.found)).map (·.r.pid) =
        ((ks.map (fun k => (k.r.pid, k.found))).filter (·.2)).map (·.1) := by
      intro ks
      rw [List.filter_map, List.map_map]
      rfl
    rw [g1, f4, List.filter_map, List.map_map]
    show _ = List.filter _ (List.map _ _)
    rw [List.filter_map]
    have hfn : ((fun x : Int × Bool => x.2) ∘ ((fun k : Child => (k.r.pid, k.found ||
        (l.map (fun x => (x.1, (x.2.1 : Int), (x.2.2 : Int)))).any (fun p => decide (p.1 = c.name) && decide (p.2.1 = k.r.pid)))) ∘
        fun k : Child => { k with found := false })) =
        ((fun i => l.any (fun x => decide (x.1 = c.name) && decide ((x.2.1 : Int) = i))) ∘ fun k : Child => k.r.pid) := by
      funext k
      simp only [Function.comp, List.any_map, Bool.false_or]
      rfl
    rw [hfn]
    rfl
  · intro c' hc' hperm
    rw [hpc] at hc'
    obtain ⟨c, hc, rfl⟩ := List.mem_map.mp hc'
    obtain ⟨f1, f2, f3, f4⟩ := fold_mark (l.map (fun x => (x.1, (x.2.1 : Int), (x.2.2 : Int)))) _ (hx c hc)
    dsimp only at hperm ⊢
    rw [f2, core_perm (core_setRun _ _)] at hperm
    have hperm : c.permitted = true := hperm
    rw [f3, f1, setRun_name, core_perm (core_setRun _ _)]
    have hr : (setRun .idle { c with cntrs := c.cntrs.map (fun k => { k with found := false }) }).run = .idle := by
      unfold setRun
      rw [if_pos hperm]
    rw [hr]
    have hiff : (c.permitted = true ∧ ∃ p ∈ l.map (fun x => (x.1, (x.2.1 : Int), (x.2.2 : Int))), p.1 = c.name) ↔
        c.name ∈ l.map (·.1) := by
      constructor
      · rintro ⟨_, p, hpm, e⟩
        obtain ⟨x, hx, rfl⟩ := List.mem_map.mp hpm
        exact List.mem_map.mpr ⟨x, hx, e⟩
      · intro h
        obtain ⟨x, hx, e⟩ := List.mem_map.mp h
        exact ⟨hperm, _, List.mem_map.mpr ⟨x, hx, rfl⟩, e⟩
    by_cases hq : c.name ∈ l.map (·.1)
    · rw [if_pos hq, if_pos (hiff.mpr hq)]
    · rw [if_neg hq, if_neg (fun h => hq (hiff.mp h))]


/-! ### Counters -/

theorem extractOne_ents (r : Cntr.Reader) (s : Str) : (Cntr.extractOne r s).ents = r.ents := by
  unfold Cntr.extractOne
  split
  · rfl
  · split
    · rfl
    · split <;> rfl

theorem foldl_ents (ts : List Str) : ∀ r : Cntr.Reader, (ts.foldl Cntr.extractOne r).ents = r.ents := by
  induction ts with
  | nil => intro r; rfl
  | cons t ts ih => intro r; rw [List.foldl_cons, ih, extractOne_ents]

theorem strToCntr_ents {s : Str} {r r' : Cntr.Reader} (h : Cntr.strToCntr s r = some r') : r'.ents = r.ents := by
  unfold Cntr.strToCntr at h
  split at h
  · injection h with h; rw [← h]
  · cases h
  · dsimp only at h
    split at h
    · cases h
    · split at h
      · injection h with h; rw [← h]
      · split at h
        · cases h
        · injection h with h; rw [← h, foldl_ents]

/-- The children of a client have different processes, and room for counters. -/
def Good (ks : List Child) : Prop := (ks.map (·.r.pid)).Nodup ∧ ∀ k ∈ ks, k.r.ents = true

theorem mem_mapFirst {α : Type} {p : α → Bool} {f : α → α} {b : α} : ∀ {l : List α},
    b ∈ mapFirst p f l → b ∈ l ∨ ∃ a ∈ l, p a = true ∧ b = f a
  | [], h => by cases h
  | a :: as, h => by
    unfold mapFirst at h
    split at h
    · next hp =>
      rcases List.mem_cons.mp h with rfl | h
      · exact .inr ⟨a, by simp, hp, rfl⟩
      · exact .inl (by simp [h])
    · rcases List.mem_cons.mp h with rfl | h
      · exact .inl (by simp)
      · rcases mem_mapFirst h with h | ⟨x, hx, q⟩
        · exact .inl (by simp [h])
        · exact .inr ⟨x, by simp [hx], q⟩

theorem mapFirst_mem {α : Type} {p : α → Bool} {f : α → α} : ∀ {l : List α} {a : α},
    l.find? p = some a → f a ∈ mapFirst p f l
  | [], _, h => by cases h
  | x :: xs, a, h => by
    unfold mapFirst
    by_cases hp : p x = true
    · rw [List.find?_cons_of_pos hp] at h
      injection h with h
      subst h
      rw [if_pos hp]
      simp
    · rw [List.find?_cons_of_neg hp] at h
      rw [if_neg hp]
      exact List.mem_cons_of_mem _ (mapFirst_mem h)

/-- Counters for a child: it is there afterwards with these counters. -/
theorem countOne_good (cnt : Cntr.Cntr) (cname : Str) (hc : Cntr.Plain cname) (pid bno status : Nat)
    (hp : pid < 2 ^ 31) (hb : bno < 2 ^ 31) (hs : status < 10) (path : Str) (hpath : Cntr.Plain path)
    {ks : List Child} (hk : Good ks) :
    ∃ ks', countOne (Cntr.toStr cnt cname pid bno status path) pid ks = some ks' ∧ Good ks' ∧
      (∃ k ∈ ks', k.r.pid = pid ∧ k.r.bno = bno ∧ k.r.status = status ∧ k.r.path = some (path.take 257) ∧
        Cntr.Received k.r cnt) ∧
      ks'.filter (fun k => decide (k.r.pid ≠ (pid : Int))) = ks.filter (fun k => decide (k.r.pid ≠ (pid : Int))) := by
  unfold countOne
  cases hf : ks.find? (fun k => decide (k.r.pid = (pid : Int))) with
  | none =>
    obtain ⟨r', e, a1, a2, a3, a4, a5⟩ := C66_round_trip_partial cnt cname hc pid bno status hp hb hs path hpath
      ⟨true, Cntr.init, pid, 0, 0, none⟩ rfl
    simp only [e, Option.map_some]
    refine ⟨_, rfl, ⟨?_, ?_⟩, ⟨⟨r', false⟩, by simp, a1, a2, a3, a4, a5⟩, ?_⟩
    · rw [List.map_cons, List.nodup_cons]
      refine ⟨?_, hk.1⟩
      intro h
      obtain ⟨k, hkm, ek⟩ := List.mem_map.mp h
      have := List.find?_eq_none.mp hf k hkm
      exact this (decide_eq_true (ek.trans a1))
    · intro k hkm
      rcases List.mem_cons.mp hkm with rfl | hkm
      · exact strToCntr_ents e
      · exact hk.2 k hkm
    · rw [List.filter_cons_of_neg (by simp [a1])]
  | some k =>
    have hkm := List.mem_of_find?_eq_some hf
    obtain ⟨r', e, a1, a2, a3, a4, a5⟩ := C66_round_trip_partial cnt cname hc pid bno status hp hb hs path hpath
      k.r (hk.2 k hkm)
    simp only [e, Option.map_some]
    have hmap : (mapFirst (fun k : Child => decide (k.r.pid = (pid : Int))) (fun k => { k with r := r' }) ks).map (·.r.pid) =
        ks.map (·.r.pid) := by
      rw [mapFirst_nodup (fun k : Child => k.r.pid) _ _ _ _ hk.1]
      refine List.map_congr_left ?_
      intro x _
      by_cases q : x.r.pid = pid
      · rw [if_pos q, q]; exact a1
      · rw [if_neg q]
    refine ⟨_, rfl, ⟨?_, ?_⟩, ⟨_, mapFirst_mem hf, a1, a2, a3, a4, a5⟩, ?_⟩
    · rw [hmap]; exact hk.1
    · intro x hx
      rcases mem_mapFirst hx with hx | ⟨y, hy, _, rfl⟩
      · exact hk.2 x hx
      · exact (strToCntr_ents e).trans (hk.2 k hkm)
    · rw [mapFirst_eq (fun k : Child => k.r.pid) _ _ _ hk.1]
      clear hmap hf hkm e
      induction ks with
      | nil => rfl
      | cons x xs ih =>
        have ih := ih ⟨(List.nodup_cons.mp hk.1).2, fun y hy => hk.2 y (by simp [hy])⟩
        rw [List.map_cons]
        by_cases q : x.r.pid = pid
        · rw [if_pos q, List.filter_cons_of_neg (by simp [a1]), List.filter_cons_of_neg (by simp [q])]
          exact ih
        · rw [if_neg q, List.filter_cons_of_pos (by simp [q]), List.filter_cons_of_pos (by simp [q])]
          exact congrArg _ ih

theorem splitFirst_word {x : Byte} : ∀ {a : Str} (b : Str), x ∉ a → Cntr.splitFirst x (a ++ x :: b) = some (a, b)
  | [], b, _ => by simp [Cntr.splitFirst]
  | c :: cs, b, h => by
    have h1 : c ≠ x := fun e => h (e ▸ List.mem_cons_self ..)
    rw [List.cons_append]
    unfold Cntr.splitFirst
    rw [if_neg h1, splitFirst_word b (fun h' => h (List.mem_cons_of_mem _ h'))]
    rfl

theorem takeWhile_word {x : Byte} : ∀ {a : Str} (b : Str), x ∉ a →
    (a ++ x :: b).takeWhile (fun c => decide (c ≠ x)) = a
  | [], b, _ => by simp
  | c :: cs, b, h => by
    have h1 : c ≠ x := fun e => h (e ▸ List.mem_cons_self ..)
    rw [List.cons_append, List.takeWhile_cons, if_pos (by simpa using h1),
      takeWhile_word b (fun h' => h (List.mem_cons_of_mem _ h'))]

/-- What the server of a monitor takes the head of a line of counters to be. -/
theorem parseCntr_toStr (cnt : Cntr.Cntr) (cname : Str) (hc : Cntr.Plain cname) (pid bno status : Nat)
    (hp : pid < 2 ^ 31) (hb : bno < 2 ^ 31) (hs : status < 10) (path : Str) (l : List CStat) :
    parseParent (Cntr.toStr cnt cname pid bno status path) l =
      l.mapM (fun c => if c.name = cname then
        (countOne (Cntr.toStr cnt cname pid bno status path) pid (setRun .running c).cntrs).map
          (fun k => { setRun .running c with cntrs := k })
        else some c) := by
  have e : Cntr.toStr cnt cname pid bno status path = bytes "cntr" ++ Cntr.tab ::
      ((cname ++ [dot] ++ BackupNumber.decimal pid ++ [dot] ++ BackupNumber.decimal bno) ++ Cntr.tab ::
        (bytes "3\t" ++ BackupNumber.decimal status ++ [Cntr.tab] ++ ((Cntr.table.map (Cntr.entStr cnt)).flatten ++
          Cntr.pathStr path))) := by
    rw [Cntr.toStr_eq cnt cname pid bno status hp hb hs]
    unfold Cntr.header
    rw [show bytes "cntr\t" = bytes "cntr" ++ [Cntr.tab] by decide,
      show bytes "\t3\t" = [Cntr.tab] ++ bytes "3\t" by decide]
    simp
  have hd := fun n => Cntr.digits_plain n
  have hw : Cntr.tab ∉ cname ++ [dot] ++ BackupNumber.decimal pid ++ [dot] ++ BackupNumber.decimal bno := by
    have h1 : ¬ Cntr.tab = dot := by decide
    simp [List.mem_append, hc.1, (hd _).1, h1]
  unfold parseParent
  rw [if_pos (by rw [e]; simp)]
  unfold parseCntr
  have e2 : Cntr.splitFirst Cntr.tab (Cntr.toStr cnt cname pid bno status path) = some (bytes "cntr",
      ((cname ++ [dot] ++ BackupNumber.decimal pid ++ [dot] ++ BackupNumber.decimal bno) ++ Cntr.tab ::
        (bytes "3\t" ++ BackupNumber.decimal status ++ [Cntr.tab] ++ ((Cntr.table.map (Cntr.entStr cnt)).flatten ++
          Cntr.pathStr path)))) := by
    rw [e]
    exact splitFirst_word _ (by decide)
  rw [e2]
  dsimp only
  rw [takeWhile_word _ hw, Cntr.clientPidBno_header]

theorem mapM_forall {α β : Type} {f : α → Option β} {R : α → β → Prop} : ∀ (l : List α),
    (∀ a ∈ l, ∃ b, f a = some b ∧ R a b) → ∃ l', l.mapM f = some l' ∧ (∀ b ∈ l', ∃ a ∈ l, R a b) ∧ ∀ a ∈ l, ∃ b ∈ l', R a b
  | [], _ => ⟨[], by simp, by simp, by simp⟩
  | a :: as, h => by
    obtain ⟨b, e, hr⟩ := h a (by simp)
    obtain ⟨l', e', hr1, hr2⟩ := mapM_forall as (fun x hx => h x (by simp [hx]))
    refine ⟨b :: l', ?_, ?_, ?_⟩
    · rw [List.mapM_cons, e, e']
      rfl
    · intro x hx
      rcases List.mem_cons.mp hx with rfl | hx
      · exact ⟨a, by simp, hr⟩
      · obtain ⟨y, hy, q⟩ := hr1 x hx
        exact ⟨y, by simp [hy], q⟩
    · intro x hx
      rcases List.mem_cons.mp hx with rfl | hx
      · exact ⟨b, by simp, hr⟩
      · obtain ⟨y, hy, q⟩ := hr2 x hx
        exact ⟨y, by simp [hy], q⟩

/-- What counters of a child change of a client. -/
def Counted (cnt : Cntr.Cntr) (cname : Str) (pid bno status : Nat) (path : Str) (c c' : CStat) : Prop :=
  c'.name = c.name ∧ c'.permitted = c.permitted ∧ Good c'.cntrs ∧
  (c.name ≠ cname → c' = c) ∧
  (c.name = cname → (c.permitted = true → c'.run = .running) ∧
    (∃ k ∈ c'.cntrs, k.r.pid = pid ∧ k.r.bno = bno ∧ k.r.status = status ∧ k.r.path = some (path.take 257) ∧
      Cntr.Received k.r cnt) ∧
    c'.cntrs.filter (fun k => decide (k.r.pid ≠ (pid : Int))) = c.cntrs.filter (fun k => decide (k.r.pid ≠ (pid : Int))))

theorem counters_step (cnt : Cntr.Cntr) (cname : Str) (hc : Cntr.Plain cname) (pid bno status : Nat)
    (hp : pid < 2 ^ 31) (hb : bno < 2 ^ 31) (hs : status < 10) (path : Str) (hpath : Cntr.Plain path) (sv : Server)
    (st : State) (hg : ∀ c ∈ st.clients, Good c.cntrs) :
    ∃ st', step sv st (.parent (Cntr.toStr cnt cname pid bno status path)) = .goesOn st' [] [] ∧
      (∀ c' ∈ st'.clients, ∃ c ∈ st.clients, Counted cnt cname pid bno status path c c') ∧
      ∀ c ∈ st.clients, ∃ c' ∈ st'.clients, Counted cnt cname pid bno status path c c' := by
  simp only [step, parseCntr_toStr cnt cname hc pid bno status hp hb hs]
  obtain ⟨l', e, hf⟩ := mapM_forall (R := Counted cnt cname pid bno status path) st.clients (f := fun c : CStat =>
    if c.name = cname then (countOne (Cntr.toStr cnt cname pid bno status path) pid (setRun .running c).cntrs).map
      (fun k => { setRun .running c with cntrs := k }) else some c) (by
    intro c hcm
    by_cases q : c.name = cname
    · obtain ⟨ks', e1, e2, e3, e4⟩ := countOne_good cnt cname hc pid bno status hp hb hs path hpath (hg c hcm)
      refine ⟨{ setRun .running c with cntrs := ks' }, ?_, setRun_name _ c, core_perm (core_setRun _ c), e2,
        fun h => absurd q h, fun _ => ⟨?_, e3, e4⟩⟩
      · dsimp only
        rw [if_pos q, setRun_cntrs, e1]
        rfl
      · intro hperm
        show (setRun .running c).run = _
        unfold setRun
        rw [if_pos hperm]
    · exact ⟨c, by dsimp only; rw [if_neg q], rfl, rfl, hg c hcm, fun _ => rfl, fun h => absurd h q⟩)
  rw [e]
  exact ⟨_, rfl, hf⟩

/-! ### Histories -/

theorem good_filter {ks ks' : List Child} (h : ks'.map (·.r.pid) = (ks.map (·.r.pid)).filter f)
    (he : ∀ k ∈ ks', k.r.ents = true) (hg : Good ks) : Good ks' := by
  refine ⟨?_, he⟩
  rw [h]
  exact List.Nodup.sublist List.filter_sublist hg.1

def Room (c : CStat) : Prop := ∀ k ∈ c.cntrs, k.r.ents = true

theorem room_markOne (p : Str × Int × Int) (c : CStat) (h : Room c) : Room (markOne p c) := by
  unfold markOne
  split
  · intro k hk
    have hk : k ∈ mapFirst _ _ (setRun .running c).cntrs := hk
    rw [setRun_cntrs] at hk
    rcases mem_mapFirst hk with hk | ⟨x, hx, _, rfl⟩
    · exact h k hk
    · exact h x hx
  · exact h

theorem room_listedOne (l : List CStat) (t : Str) (h : ∀ c ∈ l, Room c) : ∀ c ∈ listedOne l t, Room c := by
  intro c hc
  unfold listedOne at hc
  rcases mem_mapFirst hc with hc | ⟨x, hx, e, rfl⟩
  · exact h c hc
  · have := room_markOne (Cntr.clientPidBno t) x (h x hx)
    unfold markOne at this
    rw [if_pos (by simpa using e)] at this
    exact this

theorem room_clients (s : Str) (l : List CStat) (h : ∀ c ∈ l, Room c) : ∀ c ∈ parseClients s l, Room c := by
  unfold parseClients
  split
  · exact h
  · next t toks _ =>
    intro c hc
    obtain ⟨d, hd, rfl⟩ := List.mem_map.mp hc
    have key : ∀ (ts : List Str) (l : List CStat), (∀ c ∈ l, Room c) → ∀ c ∈ ts.foldl listedOne l, Room c := by
      intro ts
      induction ts with
      | nil => intro l h; exact h
      | cons t ts ih => intro l h; exact ih _ (room_listedOne l t h)
    have := key toks _ (by
      intro c hc
      obtain ⟨e, he, rfl⟩ := List.mem_map.mp hc
      intro k hk
      rw [setRun_cntrs] at hk
      obtain ⟨k', hk', rfl⟩ := List.mem_map.mp hk
      exact h e he k' hk') d hd
    intro k hk
    exact this k (List.mem_filter.mp hk).1

theorem reply_cntrs (w : World) (st : State) (q : Req) : ∀ c ∈ (reply w st q).1, ∃ d ∈ st.clients, c.cntrs = d.cntrs := by
  have hset : ∀ c : CStat, (setBackupList w c).cntrs = c.cntrs := by
    intro c; unfold setBackupList; split <;> rfl
  have hmap : ∀ (p : CStat → Bool), ∀ c ∈ mapFirst p (setBackupList w) st.clients,
      ∃ d ∈ st.clients, c.cntrs = d.cntrs := by
    intro p c hc
    rcases mem_mapFirst hc with hc | ⟨x, hx, _, rfl⟩
    · exact ⟨c, hc, rfl⟩
    · exact ⟨x, hx, hset x⟩
  unfold reply
  dsimp only
  intro c hc
  split at hc
  · exact ⟨c, hc, rfl⟩
  · split at hc
    · exact ⟨c, hc, rfl⟩
    · split at hc
      · exact hmap _ c hc
      · split at hc
        · exact hmap _ c hc
        · split at hc <;> exact hmap _ c hc

theorem nodup_of_sorted {l : List CStat} (h : Sorted l) : (l.map (·.name)).Nodup :=
  List.Pairwise.imp (fun h => h.2) h

theorem step_good {sv : Server} {st st' : State} {e : Event} {ms : List Msg} {op : List Str} (hs : Sorted st.clients)
    (ht : Told e) (hg : ∀ c ∈ st.clients, Good c.cntrs) (h : step sv st e = .goesOn st' ms op) :
    ∀ c ∈ st'.clients, Good c.cntrs := by
  cases e with
  | disk w =>
    simp only [step] at h
    split at h
    · cases h
    · next st2 hl =>
      injection h with h _ _
      subst h
      intro c hc
      obtain ⟨d, hd, e⟩ := loadDisk_all (P := fun c => Good c.cntrs) hs
        (fun u c c' hc e => by rw [(reloadOne_rest e).2.2.1]; exact hc) (fun n => ⟨by simp [fresh], by simp [fresh]⟩) hg hl c hc
      have : c.cntrs = d.cntrs := by
        unfold reloadDir at e
        split at e
        · split at e
          · injection e with e; subst e; rfl
          · split at e
            · injection e with e; subst e; rfl
            · split at e
              · cases e
              · injection e with e; subst e; rfl
        · injection e with e; subst e; rfl
      rw [this]
      exact hd
  | parent s =>
    rcases ht with ⟨l, hl, rfl⟩ | ⟨cnt, cname, pid, bno, status, path, h1, h2, h3, h4, h5, rfl⟩
    · obtain ⟨st2, e, a, _⟩ := clients_step (sv := sv) (nodup_of_sorted hs) (fun c hc => (hg c hc).1) l hl
      have hr : ∀ c ∈ st'.clients, Room c := by
        simp only [step] at h
        split at h
        · cases h
        · next l2 hp =>
          injection h with h _ _
          subst h
          have hpre : (bytes "cntr").isPrefixOf (clientsLine l) = false := by
            have : clientsLine l = 99 :: 108 :: (clientsLine l).drop 2 := by unfold clientsLine; rfl
            rw [this]; rfl
          have hpre' : (bytes "clients").isPrefixOf (clientsLine l) = true := by unfold clientsLine; simp
          simp only [parseParent, hpre, hpre', if_true, Bool.false_eq_true, if_false] at hp
          injection hp with hp
          subst hp
          exact room_clients _ _ (fun c hc => (hg c hc).2)
      rw [e] at h
      injection h with h _ _
      subst h
      intro c hc
      have : (c.name, c.permitted, c.cntrs.map (·.r.pid)) ∈
          st2.clients.map (fun c => (c.name, c.permitted, c.cntrs.map (·.r.pid))) := List.mem_map.mpr ⟨c, hc, rfl⟩
      rw [a] at this
      obtain ⟨d, hd, e2⟩ := List.mem_map.mp this
      injection e2 with _ e2
      injection e2 with _ e2
      exact good_filter e2.symm (hr c hc) (hg d hd)
    · obtain ⟨st2, e, a, _⟩ := counters_step cnt cname h1 pid bno status h3 h4 h5 path h2 sv st hg
      rw [e] at h
      injection h with h _ _
      subst h
      intro c hc
      obtain ⟨d, _, q⟩ := a c hc
      exact q.2.2.1
  | ask w s =>
    simp only [step, request] at h
    split at h
    · split at h
      · cases h
      · next he =>
        injection h with h _ _
        subst h
        rw [command_clients _ _ _ _ he]
        exact hg
    · split at h
      · injection h with h _ _
        subst h
        intro c hc
        obtain ⟨d, hd, e⟩ := reply_cntrs w st _ c hc
        rw [e]
        exact hg d hd
      · cases h
      · cases h

theorem runs_good {sv : Server} : ∀ (es : List Event) (ws : List World) (st st' : State), (∀ e ∈ es, Told e) →
    Honest (ws ++ disks es) → Inv sv ws st → (∀ c ∈ st.clients, Good c.cntrs) → runs sv st es = some st' →
    Sorted st'.clients ∧ ∀ c ∈ st'.clients, Good c.cntrs := by
  intro es
  induction es with
  | nil =>
    intro ws st st' _ _ hi hg h
    simp only [runs, Option.some.injEq] at h
    subst h
    exact ⟨hi.sorted, hg⟩
  | cons e es ih =>
    intro ws st st' ht hh hi hg h
    cases hs : step sv st e with
    | ends o => simp only [runs, hs] at h; cases h
    | undefined => simp only [runs, hs] at h; cases h
    | goesOn st1 ms op =>
      simp only [runs, hs] at h
      rw [disks_cons, ← List.append_assoc] at hh
      refine ih (ws ++ disks [e]) st1 st' (fun x hx => ht x (by simp [hx])) hh ?_
        (step_good hi.sorted (ht e (by simp)) hg hs) h
      refine runs_inv [e] ws st st1 (honest_sub (by intro v hv; exact List.mem_append_left _ hv) hh) hi ?_
      simp only [runs, hs]

/-- Clients have different names and their children different processes, after any history. -/
theorem history_good {sv : Server} {es : List Event} {peer : Int} {st : State} (hh : Honest (disks es))
    (ht : ∀ e ∈ es, Told e) (hr : runs sv (start peer) es = some st) :
    (st.clients.map (·.name)).Nodup ∧ ∀ c ∈ st.clients, Good c.cntrs := by
  obtain ⟨a, b⟩ := runs_good es [] (start peer) st ht (by simpa using hh) (inv_start sv peer) (by simp [start]) hr
  exact ⟨nodup_of_sorted a, b⟩

/-! ### What the overview is made of -/

theorem all_mem {α β : Type} (f : α → Made β) : ∀ (xs : List α) (l : List β) (o : List Str),
    Made.all (xs.map f) = .ok l o → ∀ b ∈ l, ∃ x ∈ xs, ∃ o', f x = .ok b o'
  | [], l, o, h => by
    simp only [List.map_nil, Made.all] at h
    injection h with h _
    subst h
    simp
  | x :: xs, l, o, h => by
    rw [List.map_cons] at h
    unfold Made.all at h
    obtain ⟨b, o1, _, e, h, _⟩ := bind_ok h
    obtain ⟨bs, o2, _, e', h, _⟩ := bind_ok h
    injection h with h _
    subst h
    intro y hy
    rcases List.mem_cons.mp hy with rfl | hy
    · exact ⟨x, by simp, o1, e⟩
    · obtain ⟨z, hz, q⟩ := all_mem f xs bs o2 e' y hy
      exact ⟨z, by simp [hz], q⟩

theorem overview_info {sv : Server} {st st' : State} {w' : World} {msgs : List Msg} {opened : List Str}
    (h : step sv st (.ask w' (bytes "c:")) = .goesOn st' msgs opened) :
    ∀ m ∈ msgs, ∀ i ∈ m.infos, ∃ c ∈ st.clients, c.permitted = true ∧ ∃ bs, i = info st.peer c bs ∧
      bs.map (fun b => (b.bno, b.timestamp, b.flags)) =
        ((findCurrent c.bus).toList ++ (findWorking c.bus).toList).map (fun b => (b.bno, b.timestamp, Monitor.flags b)) := by
  have hq : parseReq (bytes "c:") = ⟨none, none, none, none, none⟩ := by decide
  simp only [step, request, hq, reply, send, Option.isSome_none, Bool.false_eq_true, if_false] at h
  generalize hm : Made.all ((st.clients.filter (·.permitted)).map (fun c =>
      showClient w' st.peer c none none ((findCurrent c.bus).toList ++ (findWorking c.bus).toList))) = m at h
  cases m with
  | failed o => cases h
  | undefined => cases h
  | ok l o =>
    simp only [Made.bind] at h
    injection h with h1 h2 h3
    intro m hmm i hi
    have hl : i ∈ l := by
      rw [← h2] at hmm
      split at hmm
      · simp only [List.mem_cons, List.not_mem_nil, or_false] at hmm
        rcases hmm with rfl | rfl | rfl
        · cases hi
        · exact hi
        · cases hi
      · rw [List.mem_singleton] at hmm
        subst hmm
        exact hi
    obtain ⟨c, hc, o', e⟩ := all_mem _ _ _ _ hm i hl
    obtain ⟨hc, hp⟩ := List.mem_filter.mp hc
    have e2 := (showClient_ok e).2.2
    unfold showClient at e
    obtain ⟨bs, o1, _, e1, e, _⟩ := bind_ok e
    injection e with e _
    refine ⟨c, hc, hp, bs, e.symm, ?_⟩
    rw [← e] at e2
    exact e2

theorem runs_snoc {sv : Server} {st0 st : State} {es : List Event} {e : Event} (h : runs sv st0 (es ++ [e]) = some st) :
    ∃ st1 ms op, runs sv st0 es = some st1 ∧ step sv st1 e = .goesOn st ms op := by
  rw [runs_append] at h
  cases h1 : runs sv st0 es with
  | none => rw [h1] at h; cases h
  | some st1 =>
    rw [h1, Option.bind_some] at h
    cases hs : step sv st1 e with
    | ends o => simp only [runs, hs] at h; cases h
    | undefined => simp only [runs, hs] at h; cases h
    | goesOn st2 ms op =>
      simp only [runs, hs, Option.some.injEq] at h
      subst h
      exact ⟨st1, ms, op, rfl, hs⟩

theorem disks_snoc_parent (es : List Event) (s : Str) : disks (es ++ [.parent s]) = disks es := by
  rw [disks_append]
  simp [disks]

end Monitor

/-- **C79.** After the main process has told which children are at work, a client in the overview is shown as
running if a child for it is in that list and as idle otherwise, and the children shown for it are in that
list. -/
theorem C79_running {sv : Server} {es : List Event} {peer : Int} {st : State} (hh : Honest (disks es))
    (ht : ∀ e ∈ es, Told e) {l : List (Str × Nat × Nat)} (hl : ∀ x ∈ l, Cntr.Plain x.1)
    (hr : runs sv (start peer) (es ++ [.parent (clientsLine l)]) = some st)
    {w' : World} {st' : State} {msgs : List Msg} {opened : List Str}
    (h : step sv st (.ask w' (bytes "c:")) = .goesOn st' msgs opened) :
    ∀ m ∈ msgs, ∀ i ∈ m.infos, i.run = (if i.name ∈ l.map (·.1) then .running else .idle) ∧
      ∀ k ∈ i.children, ∃ x ∈ l, x.1 = i.name ∧ (x.2.1 : Int) = k.pid := by
  obtain ⟨st1, ms, op, h1, hs⟩ := runs_snoc hr
  obtain ⟨g1, g2⟩ := history_good hh ht h1
  obtain ⟨st2, e, a, b⟩ := clients_step (sv := sv) g1 (fun c hc => (g2 c hc).1) l hl
  rw [e] at hs
  injection hs with hs _ _
  subst hs
  intro m hm i hi
  obtain ⟨c, hc, hp, bs, rfl, _⟩ := overview_info h m hm i hi
  refine ⟨b c hc hp, ?_⟩
  intro k hk
  have hk : k ∈ (if st2.peer > v218 then c.cntrs.map (fun k => (⟨k.r.pid, k.r.bno, k.r.status, counters k⟩ : ChildInfo))
    else []) := hk
  split at hk
  · obtain ⟨x, hx, rfl⟩ := List.mem_map.mp hk
    have : (c.name, c.permitted, c.cntrs.map (·.r.pid)) ∈
        st2.clients.map (fun c => (c.name, c.permitted, c.cntrs.map (·.r.pid))) := List.mem_map.mpr ⟨c, hc, rfl⟩
    rw [a] at this
    obtain ⟨d, hd, e2⟩ := List.mem_map.mp this
    injection e2 with e1 e2
    injection e2 with _ e2
    have hx' : x.r.pid ∈ c.cntrs.map (·.r.pid) := List.mem_map.mpr ⟨x, hx, rfl⟩
    rw [← e2, List.mem_filter, List.any_eq_true] at hx'
    obtain ⟨_, y, hy, q⟩ := hx'
    rw [Bool.and_eq_true, decide_eq_true_eq, decide_eq_true_eq, e1] at q
    exact ⟨y, hy, q.1, q.2⟩
  · cases hk

/-- **C79.** After the main process has passed on the counters of a child, the client is shown as running, and the
child is shown with its process, its backup, its phase and the counters that it sent. (For peers later than
2.1.8.) -/
theorem C79_counters {sv : Server} {es : List Event} {peer : Int} {st : State} (hh : Honest (disks es))
    (ht : ∀ e ∈ es, Told e) (cnt : Cntr.Cntr) {cname : Str} (hc : Cntr.Plain cname) {pid bno status : Nat}
    (hp : pid < 2 ^ 31) (hb : bno < 2 ^ 31) (hs : status < 10) {path : Str} (hpath : Cntr.Plain path)
    (hr : runs sv (start peer) (es ++ [.parent (Cntr.toStr cnt cname pid bno status path)]) = some st)
    (hv : v218 < st.peer) {w' : World} {st' : State} {msgs : List Msg} {opened : List Str}
    (h : step sv st (.ask w' (bytes "c:")) = .goesOn st' msgs opened) :
    ∀ m ∈ msgs, ∀ i ∈ m.infos, i.name = cname → i.run = .running ∧
      ∃ k ∈ i.children, k.pid = pid ∧ k.bno = bno ∧ k.status = status ∧
        ∃ r, Cntr.Received r cnt ∧ k.counters = Cntr.jsonRows r.ent := by
  obtain ⟨st1, ms, op, h1, hst⟩ := runs_snoc hr
  obtain ⟨g1, g2⟩ := history_good hh ht h1
  obtain ⟨st2, e, a, b⟩ := counters_step cnt cname hc pid bno status hp hb hs path hpath sv st1 g2
  rw [e] at hst
  injection hst with hst _ _
  subst hst
  intro m hm i hi hn
  obtain ⟨c, hcm, hpm, bs, rfl, _⟩ := overview_info h m hm i hi
  obtain ⟨d, hd, q1, q2, q3, q4, q5⟩ := a c hcm
  have hn : c.name = cname := hn
  obtain ⟨r1, ⟨k, hk, k1, k2, k3, k4, k5⟩, r3⟩ := q5 (q1 ▸ hn)
  refine ⟨r1 (q2 ▸ hpm), ⟨k.r.pid, k.r.bno, k.r.status, counters k⟩, ?_, k1, k2, k3, k.r, k5, rfl⟩
  show _ ∈ (if st2.peer > v218 then c.cntrs.map (fun k => (⟨k.r.pid, k.r.bno, k.r.status, counters k⟩ : ChildInfo)) else [])
  rw [if_pos hv]
  exact List.mem_map.mpr ⟨k, hk, rfl⟩

end Verif
