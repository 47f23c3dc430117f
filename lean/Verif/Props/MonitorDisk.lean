import Verif.Props.MonitorRun

/-!
# C79: backups in the overview, and that each request is answered
-/

namespace Verif
open Verif Monitor

namespace Monitor

/-- What lines of the main process leave alone. -/
def rest (c : CStat) : Str × Bool × Str × Int × List Bu := (c.name, c.permitted, c.dir, c.dirTime, c.bus)

theorem rest_setRun (r : Run) (c : CStat) : rest (setRun r c) = rest c := by
  unfold setRun
  split <;> rfl

theorem parseParent_rest {s : Str} {l l' : List CStat} (h : parseParent s l = some l') :
    ∀ c' ∈ l', ∃ c ∈ l, rest c' = rest c := by
  unfold parseParent at h
  split at h
  · unfold parseCntr at h
    split at h
    · injection h with h; subst h; exact fun c hc => ⟨c, hc, rfl⟩
    · dsimp only at h
      intro c' hc'
      obtain ⟨c, hc, e⟩ := mapM_mem l l' h c' hc'
      refine ⟨c, hc, ?_⟩
      split at e
      · cases hk : countOne s (Cntr.clientPidBno (List.takeWhile (fun c => decide (c ≠ Cntr.tab)) _)).2.1
          (setRun .running c).cntrs with
        | none => rw [hk] at e; cases e
        | some ks =>
          rw [hk] at e
          injection e with e
          subst e
          exact rest_setRun .running c
      · injection e with e; subst e; rfl
  · split at h
    · injection h with h
      subst h
      unfold parseClients
      split
      · exact fun c hc => ⟨c, hc, rfl⟩
      · next t toks _ =>
        intro c' hc'
        obtain ⟨d, hd, rfl⟩ := List.mem_map.mp hc'
        have key : ∀ (ts : List Str) (l0 : List CStat), (∀ c ∈ l0, ∃ d ∈ l, rest c = rest d) →
            ∀ c ∈ ts.foldl listedOne l0, ∃ d ∈ l, rest c = rest d := by
          intro ts
          induction ts with
          | nil => intro l0 h; exact h
          | cons t ts ih =>
            intro l0 h
            refine ih _ ?_
            intro c hc
            unfold listedOne at hc
            rcases mem_mapFirst hc with hc | ⟨x, hx, _, rfl⟩
            · exact h c hc
            · obtain ⟨y, hy, e⟩ := h x hx
              exact ⟨y, hy, (rest_setRun .running x).trans e⟩
        obtain ⟨y, hy, e⟩ := key toks _ (by
          intro c hc
          obtain ⟨x, hx, rfl⟩ := List.mem_map.mp hc
          exact ⟨x, hx, rest_setRun .idle _⟩) d hd
        exact ⟨y, hy, e⟩
    · injection h with h; subst h; exact fun c hc => ⟨c, hc, rfl⟩

/-- The time of the directory that is known for a client was that of its directory once. -/
def Seen (sv : Server) (ws : List World) (c : CStat) : Prop :=
  c.dirTime = 0 ∨ ∃ v ∈ ws, ∃ cc d, MayWatch sv v c.name cc ∧ cc.dir = some d ∧ v.dirTime d = some c.dirTime

theorem seen_mono {sv : Server} {ws ws' : List World} (h : ∀ w ∈ ws, w ∈ ws') {c : CStat} (hs : Seen sv ws c) :
    Seen sv ws' c := by
  rcases hs with hs | ⟨v, hv, x⟩
  · exact .inl hs
  · exact .inr ⟨v, h v hv, x⟩

theorem seen_congr {sv : Server} {ws : List World} {c d : CStat} (hn : c.name = d.name) (ht : c.dirTime = d.dirTime)
    (h : Seen sv ws c) : Seen sv ws d := by
  unfold Seen at h ⊢
  rw [← hn, ← ht]
  exact h

theorem reply_seen (w : World) (st : State) (q : Req) : ∀ c ∈ (reply w st q).1,
    ∃ d ∈ st.clients, c.name = d.name ∧ c.dirTime = d.dirTime := by
  have hset : ∀ c : CStat, (setBackupList w c).dirTime = c.dirTime := by
    intro c; unfold setBackupList; split <;> rfl
  have hmap : ∀ (p : CStat → Bool), ∀ c ∈ mapFirst p (setBackupList w) st.clients,
      ∃ d ∈ st.clients, c.name = d.name ∧ c.dirTime = d.dirTime := by
    intro p c hc
    rcases mem_mapFirst hc with hc | ⟨x, hx, _, rfl⟩
    · exact ⟨c, hc, rfl, rfl⟩
    · exact ⟨x, hx, core_name (core_setBackupList w x), hset x⟩
  unfold reply
  dsimp only
  intro c hc
  split at hc
  · exact ⟨c, hc, rfl, rfl⟩
  · split at hc
    · exact ⟨c, hc, rfl, rfl⟩
    · split at hc
      · exact hmap _ c hc
      · split at hc
        · exact hmap _ c hc
        · split at hc <;> exact hmap _ c hc

theorem loadDisk_seen {sv : Server} {w : World} {ws : List World} {st st' : State} (hh : Honest (w :: ws))
    (hi : Inv sv ws st) (hs : ∀ c ∈ st.clients, Seen sv ws c) (h : loadDisk sv w st = some st') :
    ∀ c ∈ st'.clients, Seen sv (w :: ws) c ∧
      ∀ cc d t l, MayWatch sv w c.name cc → cc.dir = some d → w.dirTime d = some t → w.backups d = some l → t ≠ 0 →
        (∀ v ∈ ws, ∀ cc' d', MayWatch sv v c.name cc' → cc'.dir = some d' → v.dirTime d' ≠ some t) → c.bus = l := by
  obtain ⟨f1, f2, f3, _, _⟩ := loadDisk_facts hh hi h
  intro c hc
  obtain ⟨b, hb, e⟩ := loadDisk_all (P := Seen sv ws) hi.sorted
    (fun u c c' hc e => seen_congr (reloadOne_rest e).1.symm (reloadOne_rest e).2.1.symm hc)
    (fun n => .inl rfl) hs h c hc
  have hcore := reloadDir_core w b c e
  have hcur := f2 c hc
  have hval := f1.valid c.name (List.mem_map.mpr ⟨c, hc, rfl⟩)
  constructor
  · unfold reloadDir at e
    split at e
    · next hp =>
      split at e
      · injection e with e; subst e; exact seen_mono (by simp +contextual) hb
      · next t ht =>
        split at e
        · injection e with e; subst e; exact seen_mono (by simp +contextual) hb
        · split at e
          · cases e
          · injection e with e
            subst e
            obtain ⟨cc, hm, hx⟩ := current_permitted hval hcur hp
            exact .inr ⟨w, by simp, cc, b.dir, hm, hx.2, ht⟩
    · injection e with e; subst e; exact seen_mono (by simp +contextual) hb
  · intro cc d t l hm hd ht hl h0 hnew
    obtain ⟨k1, k2, k3⟩ := current_mayWatch hcur hm
    have k3 : d = c.dir := by
      rw [hd] at k3
      injection k3
    have hp : b.permitted = true := (core_perm hcore).symm.trans k1
    have hdir : c.dir = b.dir := core_dir hcore
    have hne : t ≠ b.dirTime := by
      rintro rfl
      rcases hb with hb | ⟨v, hv, cc', d', x1, x2, x3⟩
      · exact h0 hb
      · exact hnew v hv cc' d' (by rw [core_name hcore]; exact x1) x2 x3
    unfold reloadDir at e
    rw [if_pos hp] at e
    rw [← hdir, ← k3, ht] at e
    simp only [if_neg hne, hl] at e
    injection e with e
    rw [← e]

theorem runs_seen {sv : Server} : ∀ (es : List Event) (ws : List World) (st st' : State),
    Honest (ws ++ disks es) → Inv sv ws st → (∀ c ∈ st.clients, Seen sv ws c) → runs sv st es = some st' →
    ∀ c ∈ st'.clients, Seen sv (ws ++ disks es) c := by
  intro es
  induction es with
  | nil =>
    intro ws st st' _ _ hs h
    simp only [runs, Option.some.injEq] at h
    subst h
    simpa [disks] using hs
  | cons e es ih =>
    intro ws st st' hh hi hse h
    cases hs : step sv st e with
    | ends o => simp only [runs, hs] at h; cases h
    | undefined => simp only [runs, hs] at h; cases h
    | goesOn st1 ms op =>
      simp only [runs, hs] at h
      rw [disks_cons, ← List.append_assoc] at hh ⊢
      refine ih (ws ++ disks [e]) st1 st' hh ?_ ?_ h
      · refine runs_inv [e] ws st st1 (honest_sub (by intro v hv; exact List.mem_append_left _ hv) hh) hi ?_
        simp only [runs, hs]
      · cases e with
        | disk w =>
          simp only [step] at hs
          split at hs
          · cases hs
          · next st2 hl =>
            injection hs with h1 _ _
            subst h1
            have hh' : Honest (w :: ws) := honest_sub (by
              intro v hv
              rcases List.mem_cons.mp hv with rfl | hv
              · simp [disks]
              · simp [hv]) hh
            intro c hc
            refine seen_mono ?_ ((loadDisk_seen hh' hi hse hl c hc).1)
            intro v hv
            rcases List.mem_cons.mp hv with rfl | hv
            · simp [disks]
            · simp [hv]
        | parent s =>
          rw [show disks [Event.parent s] = [] from rfl, List.append_nil]
          simp only [step] at hs
          split at hs
          · cases hs
          · next l hp =>
            injection hs with h1 _ _
            subst h1
            intro c hc
            obtain ⟨d, hd, e⟩ := parseParent_rest hp c hc
            exact seen_congr (congrArg (·.1) e).symm (congrArg (·.2.2.2.1) e).symm (hse d hd)
        | ask w s =>
          rw [show disks [Event.ask w s] = [] from rfl, List.append_nil]
          simp only [step, request] at hs
          split at hs
          · split at hs
            · cases hs
            · next he =>
              injection hs with h1 _ _
              subst h1
              rw [command_clients _ _ _ _ he]
              exact hse
          · split at hs
            · injection hs with h1 _ _
              subst h1
              intro c hc
              obtain ⟨d, hd, e1, e2⟩ := reply_seen w st _ c hc
              exact seen_congr e1.symm e2.symm (hse d hd)
            · cases hs
            · cases hs

/-- The events in which the main process tells something. -/
def FromMain : Event → Prop
  | .parent _ => True
  | _ => False

theorem runs_rest {sv : Server} : ∀ (ps : List Event) (st st' : State), (∀ e ∈ ps, FromMain e) →
    runs sv st ps = some st' → ∀ c' ∈ st'.clients, ∃ c ∈ st.clients, rest c' = rest c := by
  intro ps
  induction ps with
  | nil =>
    intro st st' _ h
    simp only [runs, Option.some.injEq] at h
    subst h
    exact fun c hc => ⟨c, hc, rfl⟩
  | cons e es ih =>
    intro st st' hf h
    cases hs : step sv st e with
    | ends o => simp only [runs, hs] at h; cases h
    | undefined => simp only [runs, hs] at h; cases h
    | goesOn st1 ms op =>
      simp only [runs, hs] at h
      intro c' hc'
      obtain ⟨c1, hc1, e1⟩ := ih st1 st' (fun x hx => hf x (by simp [hx])) h c' hc'
      cases e with
      | disk w => exact absurd (hf (.disk w) (by simp)) (by simp [FromMain])
      | ask w s => exact absurd (hf (.ask w s) (by simp)) (by simp [FromMain])
      | parent s =>
        simp only [step] at hs
        split at hs
        · cases hs
        · next l hp =>
          injection hs with h1 _ _
          subst h1
          obtain ⟨c, hc, e2⟩ := parseParent_rest hp c1 hc1
          exact ⟨c, hc, e1.trans e2⟩

end Monitor

/-- **C79.** After the disk has been read, whatever the main process tells in between, the overview shows for each
client the current backup, and the one that is being made, as they are on the disk, if the time of the client's
directory was never that when the disk was read before. -/
theorem C79_backups {sv : Server} {es ps : List Event} {w : World} {peer : Int} {st : State}
    (hh : Honest (disks (es ++ [.disk w]))) (hps : ∀ e ∈ ps, FromMain e)
    (hr : runs sv (start peer) (es ++ [.disk w] ++ ps) = some st)
    {n : Str} {cc : ClientConf} {d : Str} {t : Int} {l : List Bu} (hm : MayWatch sv w n cc) (hd : cc.dir = some d)
    (ht : w.dirTime d = some t) (hl : w.backups d = some l) (h0 : t ≠ 0)
    (hnew : ∀ v ∈ disks es, ∀ cc' d', MayWatch sv v n cc' → cc'.dir = some d' → v.dirTime d' ≠ some t)
    {w' : World} {st' : State} {msgs : List Msg} {opened : List Str}
    (h : step sv st (.ask w' (bytes "c:")) = .goesOn st' msgs opened) :
    ∀ m ∈ msgs, ∀ i ∈ m.infos, i.name = n →
      i.backups.map (fun b => (b.bno, b.timestamp, b.flags)) =
        ((l.find? (·.current)).toList ++ ((l.find? (·.working)).or (l.find? (·.finishing))).toList).map
          (fun b => (b.bno, b.timestamp, Monitor.flags b)) := by
  rw [runs_append] at hr
  cases h1 : runs sv (start peer) (es ++ [.disk w]) with
  | none => rw [h1] at hr; cases hr
  | some st2 =>
    rw [h1, Option.bind_some] at hr
    obtain ⟨st1, ms, op, h2, hs⟩ := runs_snoc h1
    rw [disks_append, show disks [Event.disk w] = [w] from rfl] at hh
    have hh1 : Honest (disks es) := honest_sub (by intro v hv; exact List.mem_append_left _ hv) hh
    have i1 := runs_inv es [] _ _ (by simpa using hh1) (inv_start sv peer) h2
    have s1 := runs_seen es [] _ _ (by simpa using hh1) (inv_start sv peer) (by simp [start]) h2
    rw [List.nil_append] at i1 s1
    simp only [step] at hs
    split at hs
    · cases hs
    · next st3 hld =>
      injection hs with e1 _ _
      subst e1
      have key := loadDisk_seen (honest_sub (by
        intro v hv
        rcases List.mem_cons.mp hv with rfl | hv
        · simp
        · simp [hv]) hh) i1 s1 hld
      intro m hmm i hi hn
      obtain ⟨c, hc, hp, bs, rfl, hb⟩ := overview_info h m hmm i hi
      obtain ⟨c2, hc2, er⟩ := runs_rest ps _ _ hps hr c hc
      have hn : c.name = n := hn
      have e2 : c2.name = n := (congrArg (·.1) er).symm.trans hn
      have hbus : c.bus = c2.bus := congrArg (·.2.2.2.2) er
      have := (key c2 hc2).2 cc d t l (by rw [e2]; exact hm) hd ht hl h0 (by rw [e2]; exact hnew)
      show bs.map _ = _
      rw [hb, hbus, this]
      rfl

/-- **C79.** A request is answered with exactly one message, between two markers that repeat the request if markers
are on; and for peers later than 2.1.8 a request that is no command and asks for no log and no directory is always
answered. -/
theorem C79_answered {sv : Server} {st : State} (w : World) (s : Str) :
    (∀ st' msgs opened, step sv st (.ask w s) = .goesOn st' msgs opened →
      ∃ m : Msg, m.plain = true ∧ msgs = if st'.markers then [.start s, m, .finish s] else [m]) ∧
    (v218 < st.peer → (parseReq s).command = none → (parseReq s).logfile = none → (parseReq s).browse = none →
      ∃ st' msgs, step sv st (.ask w s) = .goesOn st' msgs []) := by
  have plain : ∀ q m o, (reply w st q).2 = .ok m o → m.plain = true := by
    intro q m o h
    have hrest : ∀ (x : Made (List Info)), x.bind (fun l => .ok (.clients l) []) = .ok m o → m.plain = true := by
      intro x hx
      obtain ⟨l, _, _, _, hx, _⟩ := bind_ok hx
      injection hx with hx _
      subst hx
      rfl
    have hw : ∀ t o', (Made.ok (Msg.warning t) o' : Made Msg) = .ok m o → m.plain = true := by
      intro t o' hx
      injection hx with hx _
      subst hx
      rfl
    unfold reply at h
    dsimp only at h
    repeat' split at h
    all_goals first
      | exact hrest _ h
      | exact hw _ _ h
  constructor
  · intro st' msgs opened h
    simp only [step, request] at h
    split at h
    · split at h
      · cases h
      · injection h with h1 h2 _
        subst h1
        exact ⟨.warning _, rfl, h2.symm⟩
    · split at h
      · next m o hm =>
        injection h with h1 h2 _
        subst h1
        exact ⟨m, plain _ _ _ hm, h2.symm⟩
      · cases h
      · cases h
  · intro hp h1 h2 h3
    have hsend : ∀ cl c, ∃ l, send w st.peer cl c none none none = .ok l [] := by
      intro cl c
      cases c with
      | none => exact all_ok _ _ (fun c _ => by obtain ⟨i, hi⟩ := showClient_recent w hp c _; exact ⟨i, hi⟩)
      | some c =>
        obtain ⟨i, hi⟩ := showClient_recent w hp c c.bus
        exact ⟨[i], by simp [send, hi, Made.bind]⟩
    have hsend2 : ∀ cl c b, ∃ l, send w st.peer cl (some c) (some b) none none = .ok l [] := by
      intro cl c b
      obtain ⟨i, hi⟩ := showClient_recent w hp c [b]
      exact ⟨[i], by simp [send, hi, Made.bind]⟩
    have hr : ∃ m, (reply w st (parseReq s)).2 = .ok m [] := by
      unfold reply
      rw [h2, h3]
      simp only [Option.isSome_none, Bool.false_eq_true, if_false, Option.map_none]
      split
      · obtain ⟨l, hl⟩ := hsend st.clients none
        exact ⟨_, by rw [hl]; rfl⟩
      · next name _ =>
        split
        · exact ⟨_, rfl⟩
        · next c _ =>
          split
          · obtain ⟨l, hl⟩ := hsend (mapFirst (fun c => decide (c.name = name)) (setBackupList w) st.clients)
              (some (setBackupList w c))
            exact ⟨_, by rw [hl]; rfl⟩
          · split
            · exact ⟨_, rfl⟩
            · split
              · exact ⟨_, rfl⟩
              · next b _ =>
                obtain ⟨l, hl⟩ := hsend2 (mapFirst (fun c => decide (c.name = name)) (setBackupList w) st.clients)
                  (setBackupList w c) b
                exact ⟨_, by rw [hl]; rfl⟩
    obtain ⟨m, hm⟩ := hr
    simp only [step, request, h1, hm]
    exact ⟨_, _, rfl⟩

end Verif
