import Verif.Lemmas.Monitor

/-! # Lemmas about the answers of the status monitor -/

namespace Verif.Monitor

/-- The files that are opened. -/
def Made.opened {α : Type} : Made α → List Str
  | .ok _ o => o
  | .failed o => o
  | .undefined => []

theorem bind_ok {α β : Type} {m : Made α} {f : α → Made β} {b : β} {o : List Str} (h : m.bind f = .ok b o) :
    ∃ a o1 o2, m = .ok a o1 ∧ f a = .ok b o2 ∧ o = o1 ++ o2 := by
  cases m with
  | ok a o1 =>
    unfold Made.bind at h
    dsimp only at h
    cases hf : f a with
    | ok b' o2 =>
      rw [hf] at h
      injection h with h1 h2
      subst h1
      exact ⟨a, o1, o2, rfl, hf, h2.symm⟩
    | failed _ => rw [hf] at h; cases h
    | undefined => rw [hf] at h; cases h
  | failed _ => cases h
  | undefined => cases h

theorem bind_opened {α β : Type} {m : Made α} {f : α → Made β} {p : Str} (h : p ∈ (m.bind f).opened) :
    p ∈ m.opened ∨ ∃ a o, m = .ok a o ∧ p ∈ (f a).opened := by
  cases m with
  | ok a o =>
    unfold Made.bind at h
    dsimp only at h
    cases hf : f a with
    | ok b o2 =>
      rw [hf] at h
      rcases List.mem_append.mp h with h | h
      · exact .inl h
      · exact .inr ⟨a, o, rfl, by rw [hf]; exact h⟩
    | failed o2 =>
      rw [hf] at h
      rcases List.mem_append.mp h with h | h
      · exact .inl h
      · exact .inr ⟨a, o, rfl, by rw [hf]; exact h⟩
    | undefined => rw [hf] at h; cases h
  | failed o => exact .inl h
  | undefined => cases h

theorem all_opened {α : Type} : ∀ (ms : List (Made α)) (p : Str), p ∈ (Made.all ms).opened → ∃ m ∈ ms, p ∈ m.opened
  | [], p, h => by cases h
  | m :: ms, p, h => by
    unfold Made.all at h
    rcases bind_opened h with h | ⟨a, o, _, h⟩
    · exact ⟨m, by simp, h⟩
    · rcases bind_opened h with h | ⟨_, _, _, h⟩
      · obtain ⟨m', hm, hp⟩ := all_opened ms p h
        exact ⟨m', by simp [hm], hp⟩
      · cases h

/-- What comes of a list corresponds to it. -/
theorem all_map {α β γ : Type} (f : α → Made β) (g : β → γ) (g' : α → γ)
    (hf : ∀ a b o, f a = .ok b o → g b = g' a) :
    ∀ (xs : List α) (l : List β) (o : List Str), Made.all (xs.map f) = .ok l o → l.map g = xs.map g'
  | [], l, o, h => by
    simp only [List.map_nil, Made.all] at h
    injection h with h1 _
    subst h1
    rfl
  | x :: xs, l, o, h => by
    simp only [List.map_cons, Made.all] at h
    obtain ⟨a, o1, o2, e1, e2, _⟩ := bind_ok h
    obtain ⟨l', o3, o4, e3, e4, _⟩ := bind_ok e2
    injection e4 with e5 _
    subst e5
    rw [List.map_cons, List.map_cons, hf x a o1 e1, all_map f g g' hf xs l' o3 e3]

/-- If every part can be made, so can the whole. -/
theorem all_ok {α β : Type} (f : α → Made β) :
    ∀ xs : List α, (∀ x ∈ xs, ∃ b, f x = .ok b []) → ∃ l, Made.all (xs.map f) = .ok l []
  | [], _ => ⟨[], rfl⟩
  | x :: xs, h => by
    obtain ⟨b, hb⟩ := h x (by simp)
    obtain ⟨l, hl⟩ := all_ok f xs (fun y hy => h y (by simp [hy]))
    refine ⟨b :: l, ?_⟩
    simp only [List.map_cons, Made.all, hb, hl, Made.bind]
    rfl

theorem prependS_eq {p f : Str} (hp : p ≠ []) (hf : f.head? ≠ some slash) (hf' : f ≠ []) :
    Prepend.prependS (some p) f = p ++ slash :: f := by
  cases p with
  | nil => exact absurd rfl hp
  | cons x xs =>
    cases f with
    | nil => exact absurd rfl hf'
    | cons c cs =>
      have : c ≠ slash := fun e => hf (by simp [e])
      simp only [Prepend.prependS, Prepend.prependSlash, if_neg this]
      simp [Prepend.prependN, Prepend.prependLen]

theorem logPath {b : Bu} (hp : b.path ≠ []) (g : Log) :
    Prepend.prependS (some b.path) g.file = b.path ++ slash :: g.file := by
  refine prependS_eq hp ?_ ?_ <;> cases g <;> decide

theorem log_readable {b : Bu} (hp : b.path ≠ []) (g : Log) :
    Readable b (Prepend.prependS (some b.path) g.file) ∧
    Readable b (Prepend.prependS (some b.path) g.file ++ bytes ".gz") := by
  rw [logPath hp]
  have : slash :: g.file ∈ [bytes "/log", bytes "/restorelog", bytes "/verifylog", bytes "/backup_stats",
      bytes "/restore_stats", bytes "/verify_stats"] := by
    cases g <;> decide
  exact ⟨.inr ⟨_, this, .inl rfl⟩, .inr ⟨_, this, .inr rfl⟩⟩

theorem manifest_readable {b : Bu} (hp : b.path ≠ []) :
    Readable b (Prepend.prependS (some b.path) (bytes "manifest.gz")) := by
  rw [prependS_eq hp (by decide) (by decide)]
  exact .inl rfl

theorem openLog_opened (w : World) {b : Bu} (hp : b.path ≠ []) (g : Log) (p : Str) (h : p ∈ (openLog w b g).opened) :
    Readable b p := by
  have hr := log_readable hp g
  unfold openLog at h
  dsimp only at h
  split at h
  · simp only [Made.opened, List.mem_singleton] at h
    subst h
    exact hr.1
  · split at h
    · simp only [Made.opened, List.mem_cons, List.not_mem_nil, or_false] at h
      rcases h with rfl | rfl
      · exact hr.1
      · exact hr.2
    · simp only [Made.opened, List.mem_cons, List.not_mem_nil, or_false] at h
      rcases h with rfl | rfl
      · exact hr.1
      · exact hr.2

theorem showBackup_opened (w : World) (peer : Int) (c : CStat) (lf br : Option Str) {b : Bu} (hp : b.path ≠ [])
    (p : Str) (h : p ∈ (showBackup w peer c lf br b).opened) : Readable b p := by
  unfold showBackup at h
  rcases bind_opened h with h | ⟨k, o, _, h⟩
  · unfold showCounters at h
    split at h
    · split at h <;> cases h
    · cases h
  · split at h
    · cases h
    · rcases bind_opened h with h | ⟨x, o, _, h⟩
      · unfold showLog at h
        split at h
        · cases h
        · split at h
          · cases h
          · next g _ =>
            rcases bind_opened h with h | ⟨_, _, _, h⟩
            · exact openLog_opened w hp g p h
            · cases h
      · rcases bind_opened h with h | ⟨_, _, _, h⟩
        · unfold showDir at h
          split at h
          · cases h
          · dsimp only at h
            split at h
            · simp only [Made.opened, List.mem_singleton] at h
              subst h
              exact manifest_readable hp
            · simp only [Made.opened, List.mem_singleton] at h
              subst h
              exact manifest_readable hp
        · cases h

theorem showBackup_plain_opened (w : World) (peer : Int) (c : CStat) (b : Bu) :
    (showBackup w peer c none none b).opened = [] := by
  cases h : (showBackup w peer c none none b).opened with
  | nil => rfl
  | cons p ps =>
    exfalso
    have h : p ∈ (showBackup w peer c none none b).opened := by rw [h]; simp
    unfold showBackup at h
    rcases bind_opened h with h | ⟨k, o, _, h⟩
    · unfold showCounters at h
      split at h
      · split at h <;> cases h
      · cases h
    · split at h
      · cases h
      · rcases bind_opened h with h | ⟨x, o, _, h⟩
        · cases h
        · rcases bind_opened h with h | ⟨_, _, _, h⟩ <;> cases h

theorem showClient_opened (w : World) (peer : Int) (c : CStat) (lf br : Option Str) (l : List Bu) (p : Str)
    (h : p ∈ (showClient w peer c lf br l).opened) : ∃ b ∈ l, p ∈ (showBackup w peer c lf br b).opened := by
  unfold showClient at h
  rcases bind_opened h with h | ⟨_, _, _, h⟩
  · obtain ⟨m, hm, hp⟩ := all_opened _ _ h
    obtain ⟨b, hb, rfl⟩ := List.mem_map.mp hm
    exact ⟨b, hb, hp⟩
  · cases h

/-- What is shown of a backup without asking for a log or a directory. -/
theorem showBackup_ok {w : World} {peer : Int} {c : CStat} {lf br : Option Str} {b : Bu} {i : BackupInfo}
    {o : List Str} (h : showBackup w peer c lf br b = .ok i o) :
    i.bno = b.bno ∧ i.timestamp = b.timestamp ∧ i.flags = flags b := by
  unfold showBackup at h
  obtain ⟨k, _, _, _, h, _⟩ := bind_ok h
  split at h
  · injection h with h _
    subst h
    exact ⟨rfl, rfl, rfl⟩
  · obtain ⟨x, _, _, _, h, _⟩ := bind_ok h
    obtain ⟨y, _, _, _, h, _⟩ := bind_ok h
    injection h with h _
    subst h
    exact ⟨rfl, rfl, rfl⟩

theorem showClient_ok {w : World} {peer : Int} {c : CStat} {lf br : Option Str} {l : List Bu} {i : Info}
    {o : List Str} (h : showClient w peer c lf br l = .ok i o) :
    i.name = c.name ∧ i.labels = c.labels ∧
    i.backups.map (fun b => (b.bno, b.timestamp, b.flags)) = l.map (fun b => (b.bno, b.timestamp, flags b)) := by
  unfold showClient at h
  obtain ⟨bs, o1, _, e, h, _⟩ := bind_ok h
  injection h with h _
  subst h
  refine ⟨rfl, rfl, all_map _ _ _ ?_ l bs o1 e⟩
  intro b j o' hb
  obtain ⟨a, b', d⟩ := showBackup_ok hb
  rw [a, b', d]

/-- Without a log and without a directory to list, a recent peer always gets an answer. -/
theorem showBackup_recent (w : World) {peer : Int} (hp : v218 < peer) (c : CStat) (b : Bu) :
    ∃ i, showBackup w peer c none none b = .ok i [] := by
  unfold showBackup showCounters
  have : decide (peer ≤ v218) = false := by simpa using hp
  rw [this, Bool.and_false, if_neg Bool.false_ne_true]
  by_cases h : b.logs = []
  · exact ⟨_, by simp only [Made.bind, h, if_true]; rfl⟩
  · exact ⟨_, by simp only [Made.bind, showLog, showDir, if_neg h]; rfl⟩

theorem showClient_recent (w : World) {peer : Int} (hp : v218 < peer) (c : CStat) (l : List Bu) :
    ∃ i, showClient w peer c none none l = .ok i [] := by
  obtain ⟨bs, hbs⟩ := all_ok (showBackup w peer c none none) l (fun b _ => showBackup_recent w hp c b)
  refine ⟨info peer c bs, ?_⟩
  unfold showClient
  rw [hbs]
  rfl

/-! ### Requests -/

theorem words_append (cur x rest : Str) (hx : colon ∉ x) : words cur (x ++ rest) = words (cur ++ x) rest := by
  induction x generalizing cur with
  | nil => simp
  | cons c cs ih =>
    have h1 : c ≠ colon := fun e => hx (by simp [e])
    have h2 : colon ∉ cs := fun e => hx (by simp [e])
    rw [List.cons_append]
    show (if c = colon then _ else words (cur ++ [c]) (cs ++ rest)) = _
    rw [if_neg h1, ih (cur ++ [c]) h2]
    simp

theorem words_word {x : Str} (hx : colon ∉ x) (hne : x ≠ []) (rest : Str) :
    words [] (x ++ colon :: rest) = (x, some rest) :: words [] rest := by
  rw [words_append [] x _ hx, List.nil_append]
  show (if colon = colon then (if x = [] then _ else _) else _) = _
  rw [if_pos rfl, if_neg hne]

theorem words_last {x : Str} (hx : colon ∉ x) (hne : x ≠ []) : words [] x = [(x, none)] := by
  have := words_append [] x [] hx
  rw [List.append_nil, List.nil_append] at this
  rw [this]
  show (if x = [] then _ else _) = _
  rw [if_neg hne]

/-! ### Finding a client -/

theorem find_named {l : List CStat} {n : Str} {c : CStat} (h : l.find? (fun c => decide (c.name = n)) = some c) :
    c ∈ l ∧ c.name = n := by
  refine ⟨List.mem_of_find?_eq_some h, ?_⟩
  have := List.find?_some h
  simpa using this

theorem find_of_mem {l : List CStat} {n : Str} (h : n ∈ names l) :
    ∃ c, l.find? (fun c => decide (c.name = n)) = some c := by
  obtain ⟨c, hc, e⟩ := List.mem_map.mp h
  cases hf : l.find? (fun c => decide (c.name = n)) with
  | some d => exact ⟨d, rfl⟩
  | none =>
    rw [List.find?_eq_none] at hf
    exact absurd (by simpa using e) (hf c hc)

/-- A client that is permitted may be watched. -/
theorem current_permitted {sv : Server} {w : World} {c : CStat} (hv : ValidName c.name) (h : Current sv w c)
    (hp : c.permitted = true) : ∃ cc, MayWatch sv w c.name cc ∧ c.labels = cc.labels ∧ cc.dir = some c.dir := by
  obtain ⟨text, hc, hf⟩ := h
  unfold Fits at hf
  split at hf
  · rw [hp] at hf; cases hf
  · next cc hl =>
    obtain ⟨h1, h2, h3⟩ := hf
    rw [hp] at h1
    exact ⟨cc, ⟨⟨hv, _, text, hc, hl⟩, (permitted_iff _ _ _).mp h1.symm⟩, h2, h3⟩

theorem current_mayWatch {sv : Server} {w : World} {c : CStat} {cc : ClientConf} (h : Current sv w c)
    (hm : MayWatch sv w c.name cc) : c.permitted = true ∧ c.labels = cc.labels ∧ cc.dir = some c.dir := by
  obtain ⟨text, hc, hf⟩ := h
  obtain ⟨⟨_, t, text', hc', hl⟩, hs⟩ := hm
  rw [hc] at hc'
  injection hc' with e
  injection e with _ e
  subst e
  unfold Fits at hf
  rw [hl] at hf
  exact ⟨hf.1.trans ((permitted_iff _ _ _).mpr hs), hf.2⟩

end Verif.Monitor
