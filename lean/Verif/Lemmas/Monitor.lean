import Verif.Spec.Monitor
import Verif.Lemmas.BackupNumber

/-! # Lemmas about the status monitor -/

namespace Verif.Monitor

theorem permitted_iff (m : Watcher) (n : Str) (cc : ClientConf) : permitted m n cc = true ↔ MaySee m n cc := by
  unfold permitted MaySee
  rcases m with ⟨cn, sc⟩
  cases cn with
  | none => simp
  | some me =>
    dsimp only
    by_cases h : n = me
    · simp [h]
    · rw [if_neg h]
      cases sc with
      | none =>
        simp [Ne.symm h]
      | some s => simp [Ne.symm h]

theorem valid_iff (n : Str) : Auth.cnameValid n = .valid ↔ ValidName n := by
  unfold Auth.cnameValid ValidName
  cases n with
  | nil => simp
  | cons c cs =>
    dsimp only
    split
    · next h =>
      simp only [Bool.or_eq_true, decide_eq_true_eq, List.contains_iff_mem] at h
      constructor
      · intro e; cases e
      · rintro ⟨_, a, b, d, e⟩
        rcases h with ((h | h) | h) | h
        · exact absurd (by simp [h]) a
        · exact absurd h b
        · exact absurd h d
        · exact absurd h e
    · next h =>
      simp only [Bool.or_eq_true, decide_eq_true_eq, List.contains_iff_mem, not_or] at h
      refine ⟨fun _ => ⟨by simp, ?_, h.1.1.2, h.1.2, h.2⟩, fun _ => rfl⟩
      intro e
      exact h.1.1.1 (by simpa using e)

/-! ### Names -/

def names (l : List CStat) : List Str := l.map (·.name)

theorem addToList_mem (new : CStat) (l : List CStat) (c : CStat) :
    c ∈ addToList new l ↔ c = new ∨ c ∈ l := by
  induction l with
  | nil => simp [addToList]
  | cons d ds ih =>
    unfold addToList
    split
    · simp only [List.mem_cons, ih]
      constructor
      · rintro (h | h | h) <;> simp [h]
      · rintro (h | h | h) <;> simp [h]
    · simp

/-- Sorted by name, without repetition. -/
def Sorted (l : List CStat) : Prop := (names l).Pairwise (fun a b => BackupNumber.strLe a b = true ∧ a ≠ b)

theorem strLe_trans' {a b c : Str} (h : BackupNumber.strLe a b = true) (h' : BackupNumber.strLe b c = true) :
    BackupNumber.strLe a c = true := by
  induction a generalizing b c with
  | nil => rfl
  | cons x xs ih =>
    cases b with
    | nil => simp [BackupNumber.strLe] at h
    | cons y ys =>
      cases c with
      | nil => simp [BackupNumber.strLe] at h'
      | cons z zs =>
        unfold BackupNumber.strLe at h h' ⊢
        by_cases e : x = y
        · subst e
          by_cases e' : x = z
          · subst e'
            simp only [if_true] at h h' ⊢
            exact ih h h'
          · simp only [if_true, if_neg e'] at h h' ⊢
            exact h'
        · by_cases e' : y = z
          · subst e'
            simp only [if_neg e] at h ⊢
            exact h
          · simp only [if_neg e, if_neg e', decide_eq_true_eq] at h h' ⊢
            have : x ≠ z := by
              intro q
              subst q
              omega
            simp only [if_neg this, decide_eq_true_eq]
            omega

theorem addToList_sorted (new : CStat) (l : List CStat) (h : Sorted l) (hn : new.name ∉ names l) :
    Sorted (addToList new l) := by
  induction l with
  | nil => simp [addToList, Sorted, names]
  | cons d ds ih =>
    unfold Sorted names at h
    rw [List.map_cons, List.pairwise_cons] at h
    have hn1 : new.name ≠ d.name := fun e => hn (by simp [names, e])
    have hn2 : new.name ∉ names ds := fun e => hn (by simp only [names, List.map_cons, List.mem_cons]; exact .inr e)
    unfold addToList
    split
    · next hle =>
      unfold Sorted names
      rw [List.map_cons, List.pairwise_cons]
      refine ⟨?_, ih h.2 hn2⟩
      intro a ha
      rw [List.mem_map] at ha
      obtain ⟨c, hc, rfl⟩ := ha
      rw [addToList_mem] at hc
      rcases hc with rfl | hc
      · exact ⟨hle, hn1.symm⟩
      · exact h.1 _ (List.mem_map.mpr ⟨c, hc, rfl⟩)
    · next hle =>
      have hle' : BackupNumber.strLe new.name d.name = true := by
        have := Verif.strLe_total new.name d.name
        simpa [hle] using this
      unfold Sorted names
      rw [List.map_cons, List.pairwise_cons]
      refine ⟨?_, by rw [List.map_cons, List.pairwise_cons]; exact h⟩
      intro a ha
      rw [List.map_cons, List.mem_cons] at ha
      rcases ha with rfl | ha
      · exact ⟨hle', hn1⟩
      · exact ⟨strLe_trans' hle' (h.1 a ha).1, fun e => hn2 (e ▸ ha)⟩

theorem addName_names (l : List CStat) (n : Str) (c : CStat) :
    c ∈ addName l n ↔ c ∈ l ∨ (c = fresh n ∧ ValidName n ∧ n ∉ names l) := by
  unfold addName
  split
  · next h =>
    constructor
    · exact .inl
    · rintro (h' | ⟨_, hv, _⟩)
      · exact h'
      · exfalso
        rcases h with rfl | rfl
        · exact hv.2.1 rfl
        · exact hv.2.1 rfl
  · split
    · next hv =>
      rw [valid_iff] at hv
      split
      · next ha =>
        have : n ∈ names l := by
          rw [List.any_eq_true] at ha
          obtain ⟨d, hd, e⟩ := ha
          exact List.mem_map.mpr ⟨d, hd, of_decide_eq_true e⟩
        constructor
        · exact .inl
        · rintro (h' | ⟨_, _, h'⟩)
          · exact h'
          · exact absurd this h'
      · next ha =>
        have : n ∉ names l := by
          intro hm
          obtain ⟨d, hd, e⟩ := List.mem_map.mp hm
          exact ha (List.any_eq_true.mpr ⟨d, hd, by simpa using e⟩)
        rw [addToList_mem]
        constructor
        · rintro (rfl | h')
          · exact .inr ⟨rfl, hv, this⟩
          · exact .inl h'
        · rintro (h' | ⟨rfl, _⟩)
          · exact .inr h'
          · exact .inl rfl
    · next hv =>
      rw [valid_iff] at hv
      constructor
      · exact .inl
      · rintro (h' | ⟨_, h', _⟩)
        · exact h'
        · exact absurd h' hv

theorem addName_sorted (l : List CStat) (n : Str) (h : Sorted l) : Sorted (addName l n) := by
  unfold addName
  split
  · exact h
  · split
    · split
      · exact h
      · next ha =>
        refine addToList_sorted _ _ h ?_
        intro hm
        obtain ⟨d, hd, e⟩ := List.mem_map.mp hm
        have e : d.name = n := e
        exact ha (List.any_eq_true.mpr ⟨d, hd, by simpa using e⟩)
    · exact h

theorem foldl_addName (ns : List Str) (l : List CStat) (h : Sorted l) :
    Sorted (ns.foldl addName l) ∧ (∀ c ∈ ns.foldl addName l, c ∈ l ∨ ∃ n ∈ ns, c = fresh n ∧ ValidName n) ∧
    (∀ c ∈ l, c ∈ ns.foldl addName l) ∧ (∀ n ∈ ns, ValidName n → n ∈ names (ns.foldl addName l)) := by
  induction ns generalizing l with
  | nil => exact ⟨h, fun c hc => .inl hc, fun c hc => hc, by simp⟩
  | cons n ns ih =>
    rw [List.foldl_cons]
    obtain ⟨i1, i2, i3, i4⟩ := ih (addName l n) (addName_sorted l n h)
    refine ⟨i1, ?_, ?_, ?_⟩
    · intro c hc
      rcases i2 c hc with h' | ⟨m, hm, e⟩
      · rcases (addName_names l n c).mp h' with h' | ⟨e, hv, _⟩
        · exact .inl h'
        · exact .inr ⟨n, by simp, e, hv⟩
      · exact .inr ⟨m, by simp [hm], e⟩
    · intro c hc
      exact i3 c ((addName_names l n c).mpr (.inl hc))
    · intro m hm hv
      rcases List.mem_cons.mp hm with rfl | hm
      · by_cases e : m ∈ names l
        · obtain ⟨d, hd, e⟩ := List.mem_map.mp e
          exact List.mem_map.mpr ⟨d, i3 d ((addName_names l m d).mpr (.inl hd)), e⟩
        · exact List.mem_map.mpr ⟨fresh m, i3 _ ((addName_names l m _).mpr (.inr ⟨rfl, hv, e⟩)), rfl⟩
      · exact i4 m hm hv

/-! ### Reading the settings of clients -/

/-- `c` has what the text of its file comes to. -/
def Fits (sv : Server) (text : Str) (c : CStat) : Prop :=
  match sv.load sv.globalText c.name text with
  | none => c.permitted = false
  | some cc => c.permitted = permitted sv.who c.name cc ∧ c.labels = cc.labels ∧ cc.dir = some c.dir

/-- `c` is new, or as one of the disks says. -/
def Known (sv : Server) (ws : List World) (c : CStat) : Prop :=
  (c.confTime = 0 ∧ c.permitted = false) ∨
  ∃ w ∈ ws, ∃ text, w.conf c.name = some (c.confTime, text) ∧ Fits sv text c

/-- `c` is as the disk `w` says. -/
def Current (sv : Server) (w : World) (c : CStat) : Prop :=
  ∃ text, w.conf c.name = some (c.confTime, text) ∧ Fits sv text c

theorem reloadOne_kept {sv : Server} {w : World} {u : Bool} {c c' : CStat} (h : reloadOne sv w u c = .kept c') :
    c'.name = c.name ∧ ∃ t text, w.conf c.name = some (t, text) ∧
      ((t = c.confTime ∧ c' = c) ∨ (c'.confTime = t ∧ Fits sv text c')) := by
  unfold reloadOne at h
  split at h
  · cases h
  · next t text hw =>
    split at h
    · next e =>
      injection h with h
      subst h
      exact ⟨rfl, t, text, hw, .inl ⟨e.1, rfl⟩⟩
    · split at h
      · next hl =>
        injection h with h
        subst h
        refine ⟨rfl, t, text, hw, .inr ⟨rfl, ?_⟩⟩
        unfold Fits
        dsimp only
        rw [hl]
      · next cc hl =>
        split at h
        · cases h
        · next d hd =>
          injection h with h
          subst h
          refine ⟨rfl, t, text, hw, .inr ⟨rfl, ?_⟩⟩
          unfold Fits
          dsimp only
          rw [hl]
          exact ⟨rfl, rfl, hd⟩

theorem reloadOne_gone {sv : Server} {w : World} {u : Bool} {c : CStat} (h : reloadOne sv w u c = .gone) :
    w.conf c.name = none := by
  unfold reloadOne at h
  split at h
  · assumption
  · split at h
    · cases h
    · split at h
      · cases h
      · split at h <;> cases h

/-- One step of a pass keeps what is known. -/
theorem reloadOne_known {sv : Server} {w : World} {ws : List World} {u : Bool} {c c' : CStat}
    (hh : Honest (w :: ws)) (hk : Known sv (w :: ws) c) (h : reloadOne sv w u c = .kept c') :
    Known sv (w :: ws) c' ∧ Current sv w c' := by
  obtain ⟨hn, t, text, hw, hc⟩ := reloadOne_kept h
  rcases hc with ⟨ht, rfl⟩ | ⟨ht, hf⟩
  · refine ⟨hk, ?_⟩
    rcases hk with ⟨h0, _⟩ | ⟨w0, hw0, text0, hc0, hf⟩
    · exact absurd (ht.trans h0) (hh.nonzero w (by simp) _ _ _ hw)
    · rw [ht] at hw
      have := hh.same w (by simp) w0 hw0 _ _ _ _ hw hc0
      subst this
      exact ⟨text, hw, hf⟩
  · have : w.conf c'.name = some (c'.confTime, text) := by rw [hn, ht]; exact hw
    exact ⟨.inr ⟨w, by simp, text, this, hf⟩, text, this, hf⟩

theorem pass_facts {sv : Server} {w : World} {ws : List World} {u : Bool} (hh : Honest (w :: ws))
    (l done l' : List CStat) (again : Bool) (hk : ∀ c ∈ l, Known sv (w :: ws) c)
    (hd : ∀ c ∈ done, Known sv (w :: ws) c) (h : pass sv w u done l = some (l', again)) :
    (∀ c ∈ l', Known sv (w :: ws) c) ∧ (names l').Sublist (names (done ++ l)) ∧
    (∀ n ∈ names (done ++ l), w.conf n ≠ none → n ∈ names l') ∧
    (again = true → l'.length < (done ++ l).length) ∧
    (again = false → (∀ c ∈ done, Current sv w c) → ∀ c ∈ l', Current sv w c) := by
  induction l generalizing done with
  | nil =>
    unfold pass at h
    injection h with h
    injection h with h1 h2
    subst h1
    subst h2
    rw [List.append_nil]
    exact ⟨hd, List.Sublist.refl _, fun n hn _ => hn, (by simp), fun _ hc => hc⟩
  | cons c cs ih =>
    unfold pass at h
    split at h
    · next e =>
      injection h with h
      injection h with h1 h2
      subst h1
      subst h2
      have eg := reloadOne_gone e
      refine ⟨?_, ?_, ?_, ?_, ?_⟩
      · intro d hdm
        rcases List.mem_append.mp hdm with h' | h'
        · exact hd d h'
        · exact hk d (by simp [h'])
      · unfold names
        rw [List.map_append, List.map_append]
        exact List.Sublist.append (List.Sublist.refl _) (by simp)
      · intro n hn hc
        unfold names at hn ⊢
        rw [List.map_append, List.mem_append, List.map_cons, List.mem_cons] at hn
        rw [List.map_append, List.mem_append]
        rcases hn with hn | rfl | hn
        · exact .inl hn
        · exact absurd eg hc
        · exact .inr hn
      · intro _
        simp
      · intro e; cases e
    · next c' e =>
      obtain ⟨k1, k2⟩ := reloadOne_known hh (hk c (by simp)) e
      have hn := (reloadOne_kept e).1
      have := ih (done ++ [c']) (fun d hd => hk d (by simp [hd]))
        (fun d hdm => by
          rcases List.mem_append.mp hdm with h' | h'
          · exact hd d h'
          · rw [List.mem_singleton] at h'; subst h'; exact k1) h
      obtain ⟨i1, i2, i3, i4, i5⟩ := this
      have en : names (done ++ [c'] ++ cs) = names (done ++ c :: cs) := by
        simp [names, hn]
      have el : (done ++ [c'] ++ cs).length = (done ++ c :: cs).length := by simp
      rw [en] at i2 i3
      rw [el] at i4
      refine ⟨i1, i2, i3, i4, fun ha hc => i5 ha ?_⟩
      intro d hdm
      rcases List.mem_append.mp hdm with h' | h'
      · exact hc d h'
      · rw [List.mem_singleton] at h'; subst h'; exact k2
    · cases h

theorem passes_facts {sv : Server} {w : World} {ws : List World} {u : Bool} (hh : Honest (w :: ws))
    (n : Nat) (l l' : List CStat) (hl : l.length < n) (hk : ∀ c ∈ l, Known sv (w :: ws) c)
    (h : passes sv w u n l = some l') :
    (∀ c ∈ l', Known sv (w :: ws) c) ∧ (names l').Sublist (names l) ∧
    (∀ m ∈ names l, w.conf m ≠ none → m ∈ names l') ∧ (∀ c ∈ l', Current sv w c) := by
  induction n generalizing l with
  | zero => omega
  | succ n ih =>
    unfold passes at h
    split at h
    · cases h
    · next l1 e =>
      injection h with h
      subst h
      obtain ⟨i1, i2, i3, _, i5⟩ := pass_facts hh l [] l1 false hk (by simp) e
      exact ⟨i1, i2, i3, i5 rfl (by simp)⟩
    · next l1 e =>
      obtain ⟨i1, i2, i3, i4, _⟩ := pass_facts hh l [] l1 true hk (by simp) e
      have i4 := i4 rfl
      rw [List.nil_append] at i4
      obtain ⟨j1, j2, j3, j4⟩ := ih l1 (by omega) i1 h
      exact ⟨j1, j2.trans i2, fun m hm hc => j3 m (i3 m hm hc) hc, j4⟩

/-! ### What other events leave alone -/

/-- What is read from configuration files. -/
def core (c : CStat) : Str × Int × Bool × List Str × Str := (c.name, c.confTime, c.permitted, c.labels, c.dir)

theorem core_name {c d : CStat} (h : core c = core d) : c.name = d.name := congrArg (·.1) h
theorem core_time {c d : CStat} (h : core c = core d) : c.confTime = d.confTime := congrArg (·.2.1) h
theorem core_perm {c d : CStat} (h : core c = core d) : c.permitted = d.permitted := congrArg (·.2.2.1) h
theorem core_labels {c d : CStat} (h : core c = core d) : c.labels = d.labels := congrArg (·.2.2.2.1) h
theorem core_dir {c d : CStat} (h : core c = core d) : c.dir = d.dir := congrArg (·.2.2.2.2) h

theorem core_fits {sv : Server} {text : Str} {c d : CStat} (h : core c = core d) (hf : Fits sv text c) :
    Fits sv text d := by
  unfold Fits at hf ⊢
  rw [← core_name h, ← core_perm h, ← core_labels h, ← core_dir h]
  exact hf

theorem core_known {sv : Server} {ws : List World} {c d : CStat} (h : core c = core d) (hk : Known sv ws c) :
    Known sv ws d := by
  rcases hk with ⟨a, b⟩ | ⟨w, hw, text, hc, hf⟩
  · exact .inl ⟨core_time h ▸ a, core_perm h ▸ b⟩
  · exact .inr ⟨w, hw, text, by rw [← core_name h, ← core_time h]; exact hc, core_fits h hf⟩

theorem core_current {sv : Server} {w : World} {c d : CStat} (h : core c = core d) (hk : Current sv w c) :
    Current sv w d := by
  obtain ⟨text, hc, hf⟩ := hk
  exact ⟨text, by rw [← core_name h, ← core_time h]; exact hc, core_fits h hf⟩

theorem core_setRun (r : Run) (c : CStat) : core (setRun r c) = core c := by
  unfold setRun
  split <;> rfl

theorem core_cntrs (c : CStat) (k : List Child) : core { c with cntrs := k } = core c := rfl

theorem core_setBackupList (w : World) (c : CStat) : core (setBackupList w c) = core c := by
  unfold setBackupList
  split <;> rfl

theorem mapM_core {f : CStat → Option CStat} (hf : ∀ c d, f c = some d → core d = core c) :
    ∀ l l' : List CStat, l.mapM f = some l' → l'.map core = l.map core
  | [], l', h => by
    rw [List.mapM_nil] at h
    injection h with h
    subst h
    rfl
  | c :: cs, l', h => by
    rw [List.mapM_cons] at h
    cases hc : f c with
    | none => rw [hc] at h; cases h
    | some d =>
      rw [hc] at h
      cases hr : cs.mapM f with
      | none => rw [hr] at h; cases h
      | some ds =>
        rw [hr] at h
        injection h with h
        subst h
        rw [List.map_cons, List.map_cons, hf c d hc, mapM_core hf cs ds hr]

theorem mapFirst_core {p : CStat → Bool} {f : CStat → CStat} (hf : ∀ c, core (f c) = core c) (l : List CStat) :
    (mapFirst p f l).map core = l.map core := by
  induction l with
  | nil => rfl
  | cons c cs ih =>
    unfold mapFirst
    split
    · simp [hf]
    · simp [ih]

theorem reloadDir_core (w : World) (c d : CStat) (h : reloadDir w c = some d) : core d = core c := by
  unfold reloadDir at h
  split at h
  · split at h
    · injection h with h; subst h; rfl
    · split at h
      · injection h with h; subst h; rfl
      · split at h
        · cases h
        · injection h with h; subst h; rfl
  · injection h with h; subst h; rfl

theorem listedOne_core (l : List CStat) (t : Str) : (listedOne l t).map core = l.map core := by
  unfold listedOne
  exact mapFirst_core (fun c => (core_cntrs _ _).trans (core_setRun _ _)) l

theorem parseClients_core (s : Str) (l : List CStat) : (parseClients s l).map core = l.map core := by
  unfold parseClients
  split
  · rfl
  · next t toks _ =>
    dsimp only
    have hfold : ∀ (toks : List Str) (l : List CStat), (toks.foldl listedOne l).map core = l.map core := by
      intro toks
      induction toks with
      | nil => intro l; rfl
      | cons t ts ih => intro l; rw [List.foldl_cons, ih, listedOne_core]
    rw [List.map_map]
    have : (core ∘ fun c : CStat => { c with cntrs := c.cntrs.filter (·.found) }) = core := rfl
    rw [this, hfold, List.map_map]
    congr 1
    funext c
    exact core_setRun _ _

theorem parseCntr_core (s : Str) (l l' : List CStat) (h : parseCntr s l = some l') : l'.map core = l.map core := by
  unfold parseCntr at h
  split at h
  · injection h with h; subst h; rfl
  · dsimp only at h
    refine mapM_core ?_ l l' h
    intro c d hd
    split at hd
    · rw [Option.map_eq_some_iff] at hd
      obtain ⟨k, _, rfl⟩ := hd
      exact (core_cntrs _ _).trans (core_setRun _ _)
    · injection hd with hd; subst hd; rfl

theorem parseParent_core (s : Str) (l l' : List CStat) (h : parseParent s l = some l') : l'.map core = l.map core := by
  unfold parseParent at h
  split at h
  · exact parseCntr_core s l l' h
  · split at h
    · injection h with h; subst h; exact parseClients_core s l
    · injection h with h; subst h; rfl

theorem reply_core (w : World) (st : State) (q : Req) : (reply w st q).1.map core = st.clients.map core := by
  unfold reply
  dsimp only
  split
  · rfl
  · split
    · rfl
    · have := mapFirst_core (p := fun c => decide (c.name = (‹Str› : Str))) (core_setBackupList w) st.clients
      split
      · exact mapFirst_core (core_setBackupList w) st.clients
      · split
        · exact mapFirst_core (core_setBackupList w) st.clients
        · split <;> exact mapFirst_core (core_setBackupList w) st.clients

theorem command_clients (st st' : State) (c t : Str) (h : command st c = some (st', t)) :
    st'.clients = st.clients := by
  unfold command at h
  dsimp only at h
  repeat' split at h
  all_goals first
    | (injection h with h; injection h with h1 h2; subst h1; rfl)
    | cases h

theorem request_core {w : World} {st st' : State} {s : Str} {ms : List Msg} {op : List Str}
    (h : request w st s = .goesOn st' ms op) : st'.clients.map core = st.clients.map core := by
  unfold request at h
  dsimp only at h
  split at h
  · split at h
    · cases h
    · next hc =>
      injection h with h1 _ _
      subst h1
      rw [command_clients _ _ _ _ hc]
  · split at h
    · injection h with h1 _ _
      subst h1
      exact reply_core w st _
    · cases h
    · cases h

/-! ### Histories -/

structure Inv (sv : Server) (ws : List World) (st : State) : Prop where
  sorted : Sorted st.clients
  valid : ∀ n ∈ names st.clients, ValidName n
  known : ∀ c ∈ st.clients, Known sv ws c

theorem names_of_core {l l' : List CStat} (h : l'.map core = l.map core) : names l' = names l := by
  have : ∀ l : List CStat, names l = (l.map core).map (·.1) := by
    intro l
    rw [List.map_map]
    rfl
  rw [this, this, h]

theorem core_mem {l l' : List CStat} (h : l'.map core = l.map core) {c : CStat} (hc : c ∈ l') :
    ∃ d ∈ l, core d = core c := by
  have : core c ∈ l'.map core := List.mem_map.mpr ⟨c, hc, rfl⟩
  rw [h] at this
  exact List.mem_map.mp this

theorem inv_core {sv : Server} {ws : List World} {st st' : State} (h : st'.clients.map core = st.clients.map core)
    (hi : Inv sv ws st) : Inv sv ws st' := by
  refine ⟨?_, ?_, ?_⟩
  · unfold Sorted
    rw [names_of_core h]
    exact hi.sorted
  · rw [names_of_core h]
    exact hi.valid
  · intro c hc
    obtain ⟨d, hd, e⟩ := core_mem h hc
    exact core_known e (hi.known d hd)

theorem known_mono {sv : Server} {ws ws' : List World} (hs : ∀ w ∈ ws, w ∈ ws') {c : CStat} (h : Known sv ws c) :
    Known sv ws' c := by
  rcases h with h | ⟨w, hw, x⟩
  · exact .inl h
  · exact .inr ⟨w, hs w hw, x⟩

/-- After the disk has been read, the list is as the disk says. -/
theorem loadDisk_facts {sv : Server} {w : World} {ws : List World} {st st' : State} (hh : Honest (w :: ws))
    (hi : Inv sv ws st) (h : loadDisk sv w st = some st') :
    Inv sv (w :: ws) st' ∧ (∀ c ∈ st'.clients, Current sv w c) ∧
    (∀ n, ValidName n → w.conf n ≠ none → n ∈ names st'.clients) ∧
    st'.markers = st.markers ∧ st'.peer = st.peer := by
  unfold loadDisk getNames at h
  cases hns : w.names with
  | none => rw [hns] at h; cases h
  | some ns =>
    rw [hns, Option.map_some, Option.bind_some] at h
    cases hg : w.globalTime with
    | none => rw [hg] at h; cases h
    | some g =>
      rw [hg, Option.bind_some] at h
      obtain ⟨a1, a2, a3, a4⟩ := foldl_addName ns st.clients hi.sorted
      generalize ns.foldl addName st.clients = l at h a1 a2 a3 a4
      cases hp : passes sv w (decide (g = st.globalTime)) (l.length + 1) l with
      | none => rw [hp] at h; cases h
      | some l1 =>
        rw [hp, Option.bind_some] at h
        cases hm : l1.mapM (reloadDir w) with
        | none => rw [hm] at h; cases h
        | some l2 =>
          rw [hm, Option.map_some] at h
          injection h with h
          subst h
          have hk : ∀ c ∈ l, Known sv (w :: ws) c := by
            intro c hc
            rcases a2 c hc with h' | ⟨n, _, rfl, _⟩
            · exact known_mono (fun w hw => by simp [hw]) (hi.known c h')
            · exact .inl ⟨rfl, rfl⟩
          obtain ⟨p1, p2, p3, p4⟩ := passes_facts hh (l.length + 1) l l1 (by omega) hk hp
          have hc := mapM_core (reloadDir_core w) l1 l2 hm
          have hn := names_of_core hc
          refine ⟨⟨?_, ?_, ?_⟩, ?_, ?_, rfl, rfl⟩
          · unfold Sorted
            show (names l2).Pairwise _
            rw [hn]
            exact List.Pairwise.sublist p2 a1
          · intro n hnm
            have hnm : n ∈ names l2 := hnm
            rw [hn] at hnm
            obtain ⟨c, hcm, rfl⟩ := List.mem_map.mp (p2.subset hnm)
            rcases a2 c hcm with h' | ⟨n, _, rfl, hv⟩
            · exact hi.valid _ (List.mem_map.mpr ⟨c, h', rfl⟩)
            · exact hv
          · intro c hcm
            obtain ⟨d, hd, e⟩ := core_mem hc hcm
            exact core_known e (p1 d hd)
          · intro c hcm
            obtain ⟨d, hd, e⟩ := core_mem hc hcm
            exact core_current e (p4 d hd)
          · intro n hv hw
            show n ∈ names l2
            rw [hn]
            refine p3 n ?_ hw
            refine a4 n ?_ hv
            cases hcf : w.conf n with
            | none => exact absurd hcf hw
            | some q => exact hh.listed w (by simp) ns hns n q hcf

theorem step_other {sv : Server} {st st' : State} {e : Event} {ms : List Msg} {op : List Str}
    (he : disks [e] = []) (h : step sv st e = .goesOn st' ms op) : st'.clients.map core = st.clients.map core := by
  cases e with
  | disk w => cases he
  | parent s =>
    simp only [step] at h
    split at h
    · cases h
    · next l hp =>
      injection h with h1 _ _
      subst h1
      exact parseParent_core s st.clients l hp
  | ask w s => exact request_core h

theorem disks_cons (e : Event) (es : List Event) : disks (e :: es) = disks [e] ++ disks es := by
  cases e <;> rfl

theorem disks_append (a b : List Event) : disks (a ++ b) = disks a ++ disks b := by
  induction a with
  | nil => rfl
  | cons e es ih => rw [List.cons_append, disks_cons, ih, disks_cons e es, List.append_assoc]

theorem runs_append (sv : Server) (st : State) (a b : List Event) :
    runs sv st (a ++ b) = (runs sv st a).bind (fun st' => runs sv st' b) := by
  induction a generalizing st with
  | nil => rfl
  | cons e es ih =>
    rw [List.cons_append]
    cases hs : step sv st e with
    | goesOn st' ms op => simp only [runs, hs]; exact ih _
    | ends op => simp only [runs, hs]; rfl
    | undefined => simp only [runs, hs]; rfl

theorem honest_sub {ws ws' : List World} (hs : ∀ w ∈ ws, w ∈ ws') (h : Honest ws') : Honest ws :=
  ⟨fun w hw => h.nonzero w (hs w hw), fun w hw w' hw' => h.same w (hs w hw) w' (hs w' hw'),
    fun w hw => h.listed w (hs w hw)⟩

/-- The invariant holds along a history. -/
theorem runs_inv {sv : Server} (es : List Event) : ∀ (ws : List World) (st st' : State),
    Honest (ws ++ disks es) → Inv sv ws st → runs sv st es = some st' → Inv sv (ws ++ disks es) st' := by
  induction es with
  | nil =>
    intro ws st st' _ hi h
    simp only [runs, Option.some.injEq] at h
    subst h
    simpa [disks] using hi
  | cons e es ih =>
    intro ws st st' hh hi h
    unfold runs at h
    split at h
    · next st1 ms op hs =>
      have key : Inv sv (ws ++ disks [e]) st1 := by
        cases e with
        | disk w =>
          simp only [step] at hs
          split at hs
          · cases hs
          · next st2 hl =>
            injection hs with h1 _ _
            subst h1
            have hh' : Honest (w :: ws) := honest_sub (by
              intro v hv
              rw [disks_cons]
              rcases List.mem_cons.mp hv with rfl | hv
              · simp [disks]
              · simp [hv]) hh
            have := (loadDisk_facts hh' hi hl).1
            refine ⟨this.sorted, this.valid, fun c hc => known_mono ?_ (this.known c hc)⟩
            intro v hv
            rcases List.mem_cons.mp hv with rfl | hv
            · simp [disks]
            · simp [hv]
        | parent s =>
          rw [show disks [Event.parent s] = [] from rfl, List.append_nil]
          exact inv_core (step_other rfl hs) hi
        | ask w s =>
          rw [show disks [Event.ask w s] = [] from rfl, List.append_nil]
          exact inv_core (step_other rfl hs) hi
      rw [disks_cons, ← List.append_assoc] at hh ⊢
      exact ih _ _ _ hh key h
    · cases h

theorem inv_start (sv : Server) (peer : Int) : Inv sv [] (start peer) :=
  ⟨by simp [Sorted, names, start], by simp [names, start], by simp [start]⟩

theorem runs_core {sv : Server} (es : List Event) (he : disks es = []) : ∀ (st st' : State),
    runs sv st es = some st' → st'.clients.map core = st.clients.map core := by
  induction es with
  | nil =>
    intro st st' h
    simp only [runs, Option.some.injEq] at h
    subst h
    rfl
  | cons e es ih =>
    intro st st' h
    rw [disks_cons, List.append_eq_nil_iff] at he
    unfold runs at h
    split at h
    · next st1 ms op hs => exact (ih he.2 st1 st' h).trans (step_other he.1 hs)
    · cases h

/-- After a history, the list of clients is as the disk was when it was last read. -/
theorem history {sv : Server} {es : List Event} {w : World} {peer : Int} {st : State} (hh : Honest (disks es))
    (hw : LastDisk es w) (hr : runs sv (start peer) es = some st) :
    Sorted st.clients ∧ (∀ n ∈ names st.clients, ValidName n) ∧ (∀ c ∈ st.clients, Current sv w c) ∧
    (∀ n, ValidName n → w.conf n ≠ none → n ∈ names st.clients) := by
  obtain ⟨es1, es2, rfl, h2⟩ := hw
  rw [runs_append] at hr
  cases h1 : runs sv (start peer) es1 with
  | none => rw [h1] at hr; cases hr
  | some st1 =>
    rw [h1, Option.bind_some] at hr
    unfold runs at hr
    split at hr
    · next st2 ms op hs =>
      rw [disks_append, disks_cons] at hh
      have hd : disks [Event.disk w] = [w] := rfl
      rw [hd, h2, List.append_nil] at hh
      have i1 := runs_inv es1 [] _ _ (honest_sub (by intro v hv; simp at hv; simp [hv]) hh) (inv_start sv peer) h1
      rw [List.nil_append] at i1
      simp only [step] at hs
      split at hs
      · cases hs
      · next st3 hl =>
        injection hs with e1 _ _
        subst e1
        have hh' : Honest (w :: disks es1) := honest_sub (by
          intro v hv
          rcases List.mem_cons.mp hv with rfl | hv <;> simp [*]) hh
        obtain ⟨f1, f2, f3, _⟩ := loadDisk_facts hh' i1 hl
        have hc := runs_core es2 h2 _ _ hr
        have hn := names_of_core hc
        refine ⟨?_, ?_, ?_, ?_⟩
        · unfold Sorted; rw [hn]; exact f1.sorted
        · rw [hn]; exact f1.valid
        · intro c hcm
          obtain ⟨d, hd, e⟩ := core_mem hc hcm
          exact core_current e (f2 d hd)
        · rw [hn]; exact f3
    · cases hr

end Verif.Monitor
