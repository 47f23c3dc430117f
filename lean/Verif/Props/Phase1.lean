import Verif.Lemmas.Phase1Depth

/-!
# C95: the list of files that a backup begins with
-/

namespace Verif
open Phase1 Strlist Attribs Find

/-- The bound on the depth is there only for Lean: a greater one changes nothing. -/
theorem C95_depth (c : Cfg) (w : World) (starts : List Elem) (n m : Nat) (st : St)
    (h : (client c w n starts st).ret ≠ .deep) (hm : n ≤ m) : client c w m starts st = client c w n starts st := by
  induction m with
  | zero =>
    have : n = 0 := by omega
    rw [this]
  | succ m ih =>
    by_cases e : n = m + 1
    · rw [e]
    · have := ih (by omega)
      rw [client_same c w m starts st (by rw [this]; exact h), this]

/-- Everything that the server is told is about a file that was to be looked at. -/
theorem C95_reached (c : Cfg) (w : World) (fuel : Nat) (starts : List Elem) :
    ∀ e ∈ (client c w fuel starts St.init).out, ∃ parent top, Reached c w starts e.path parent top := by
  intro e he
  rw [client_eq] at he
  obtain ⟨k, hk, st, hx⟩ := exec_mem _ _ e he
  exact call_path (walkAll_sound fuel k hk) hx

/-- The entry of a file is followed by one for its metadata just if it has any. -/
theorem C95_metadata (c : Cfg) (w : World) (fuel : Nat) (starts : List Elem) :
    Told c w (client c w fuel starts St.init).out := by
  rw [client_eq]
  exact exec_told _ (fun k hk => walkAll_sound fuel k hk) _

/-- Every entry for a file is right: the file was to be looked at, the settings want it, and the entry says what it
is, or, for another name of the same file, names one that was there before. What is missing are names that are no
longer there when they are looked at, see `C95_vanished_violated`. -/
theorem C95_entries_partial (c : Cfg) (w : World) (fuel : Nat) (starts : List Elem) (hp : Present c w starts)
    (hnum : ∀ p a, w.lstat p = some a → a.InRange) {pre post : List Ev} {cmd : Cmd} {a : Attr} {p : Str}
    {l : Option Str} (h : (client c w fuel starts St.init).out = pre ++ .entry cmd a p l :: post)
    (hm : Main (.entry cmd a p l)) : Right c w starts pre cmd a p l := by
  rw [client_eq] at h
  have := (exec_inv (AllRight c w starts) (walkAll c w fuel starts) (step_right hnum) (walkAll_good hp fuel)
    [] St.init hash_init (fun pre e post hx => by simp at hx)).1
  rw [List.nil_append] at this
  exact (this pre _ post h _ _ _ _ rfl hm).1

/-- Every file that was to be looked at and that the settings want is in the list, if the first phase says that all
is well; but for symbolic links that cannot be read, of which there is a warning. What is missing are names that are
no longer there when they are looked at, see `C95_vanished_violated`. -/
theorem C95_complete_partial (c : Cfg) (w : World) (fuel : Nat) (starts : List Elem) (hp : Present c w starts)
    (hok : (client c w fuel starts St.init).ret = .ok) {p : Str} {parent : Int} {top : Bool} {a : Attr}
    (hr : Reached c w starts p parent top) (hl : w.lstat p = some a) (ht : LetThrough c p (Seen c p a) top) :
    (∃ e ∈ (client c w fuel starts St.init).out, Main e ∧ e.path = p) ∨
    (.warn .noFollow p ∈ (client c w fuel starts St.init).out ∧ kindOf a.mode = some .lnk ∧ w.readlink p = none) := by
  rw [client_eq] at hok ⊢
  obtain ⟨m, hm⟩ := walkAll_complete (exec_noStop hok .deep (fun e => by cases e)) hr
  obtain ⟨a', ty, hty, n1, n2, hk⟩ := walk_first (c := c) (m := m) (par := parent) (top := top) hl
  have hmem := hm _ hk
  obtain ⟨l1, l2, e⟩ := List.append_of_mem hmem
  have hgood := walkAll_good hp fuel
  rw [e] at hok hgood ⊢
  obtain ⟨_, _, post, h3⟩ := exec_split hok
  have hash := (exec_inv (fun _ => True) l1 (fun _ _ _ _ _ _ => trivial)
    (fun k hk => hgood k (List.mem_append_left _ hk)) [] St.init hash_init trivial).2
  rw [List.nil_append] at hash
  rw [h3]
  have hse := seen_eq hty
  have main : ∀ {cmd : Cmd} {l : Option Str} {n : Nat} {o : List Ev}, (cmd ≠ .metadata ∧ cmd ≠ .encMetadata) →
      ∃ e ∈ o ++ (doToServer c w a' p cmd l n ++ post), Main e ∧ e.path = p := by
    intro cmd l n o hne
    refine ⟨.entry cmd (sentAttr c a' n) p l, ?_, hne, rfl⟩
    exact List.mem_append_right _ (List.mem_append_left _ (List.mem_cons_self ..))
  rcases (call_cases (hgood _ (List.mem_append_right _ (List.mem_cons_self ..))) hash).2 with
    ⟨b, b', f, ty', top', par, hk', _, _, _, hs⟩ | ⟨_, hk', _⟩ | ⟨_, hk', _⟩
  · cases hk'
    cases hs with
    | none _ hwhy =>
      left
      dsimp only at hwhy
      rw [hse] at hwhy
      rcases hwhy with h | h | ⟨h, h'⟩ | h
      · rw [ht.1] at h; cases h
      · rw [ht.2.1] at h; cases h
      · have hreg : kindOf (Seen c p a).mode = some .reg := by
          unfold statOf at h
          dsimp only at h
          cases hx : kindOf (Seen c p a).mode with
          | none => rw [hx] at h; cases h
          | some k => rw [hx] at h; cases h; rfl
        have hsz : sizeMatch c.find (statOf (Seen c p a)).size = true := ht.2.2 hreg
        rw [hsz] at h'
        cases h'
      · obtain ⟨e', he', b, ⟨cmd, l, rfl, hmain, _⟩, _⟩ := firstShare_some h
        exact ⟨_, List.mem_append_left _ he', hmain, rfl⟩
    | link _ _ _ _ _ _ _ hx => rw [hx]; exact Or.inl (main (by simp))
    | told htold _ _ _ _ hx => rw [hx]; exact Or.inl (main (told_main htold))
    | warned htold _ _ hx =>
      right
      rw [hx]
      cases hty with
      | link h1 h2 =>
        cases hlk : w.readlink p with
        | none =>
          refine ⟨List.mem_append_right _ (List.mem_append_left _ ?_), h1, rfl⟩
          unfold linkType
          rw [hlk]
          exact List.mem_singleton.mpr rfl
        | some t =>
          unfold linkType at htold
          rw [hlk] at htold
          cases htold
      | reg _ => cases htold
      | device _ _ => cases htold
      | dir _ => cases htold
      | noFsChange _ => exact absurd rfl n1
      | noOpen _ => exact absurd rfl n2
      | other _ _ _ =>
        unfold otherType at htold
        split at htold
        · cases htold
        · split at htold <;> cases htold
  · cases hk'
  · cases hk'

/-- Of every directory that is wanted, but not gone into, there is a warning that says so: because it cannot be
opened, or because another file system begins there. What is missing are directories that the settings do not want as
such, see `C95_unopened_violated`, and ones on a file system of a type that is not wanted, which are skipped. -/
theorem C95_directories_partial (c : Cfg) (w : World) (fuel : Nat) (starts : List Elem)
    (hok : (client c w fuel starts St.init).ret = .ok) {p : Str} {parent : Int} {top : Bool} {a : Attr}
    (hr : Reached c w starts p parent top) (hl : w.lstat p = some a) (hd : kindOf a.mode = some .dir)
    (ht : LetThrough c p a top) (hn : ∀ n ∈ c.nobackup, w.lstat (Prepend.prependS (some p) n) = none) :
    (Entered c w p parent top a → w.entries p = .noOpen →
      .warn .noOpen p ∈ (client c w fuel starts St.init).out) ∧
    ((∃ t, w.fstype p = some t ∧ t ∉ c.excfs ∧ (c.incfs = [] ∨ t ∈ c.incfs)) → top = false → parent ≠ a.dev →
      c.crossAll = false → p ∉ c.fschgdir → .warn .noFsChange p ∈ (client c w fuel starts St.init).out) := by
  constructor
  · intro hent he
    obtain ⟨_, st, _, h⟩ := call_done hok hr hl hd (k := .send (some a) p .noOpen top) (fun find =>
      walkDir_read hent _ (by unfold walkRead; rw [he]; exact List.mem_singleton.mpr rfl))
    exact h _ (sendW_warn (st := { st with statp := a }) (ty := .noOpen) hd rfl ht)
  · intro hfs htop hdev hc hf
    obtain ⟨_, st, _, h⟩ := call_done hok hr hl hd (k := .send (some a) p .noFsChange top) (fun find => by
      unfold walkDir
      refine List.mem_cons_of_mem _ ?_
      rw [if_neg (by rw [nobackup_false.mpr hn]; simp)]
      unfold walkEnter
      rw [if_pos (by simp [hdev]), fsSkip_false.mpr ⟨rfl, hfs⟩]
      refine List.mem_cons_of_mem _ ?_
      have : fsChangeAllowed c p = false := by
        rw [Bool.eq_false_iff]
        intro hx
        rcases allowed_iff.mp hx with hx | hx
        · rw [hc] at hx; cases hx
        · exact hf hx
      rw [if_pos (by rw [htop, this]; rfl)]
      exact List.mem_singleton.mpr rfl)
    exact h _ (sendW_warn (st := { st with statp := a }) (ty := .noFsChange) hd rfl ht)

/-- If the system does not say on what file system a directory is there is a warning; and if a directory cannot be
read to its end, all of the first phase fails. -/
theorem C95_unread (c : Cfg) (w : World) (fuel : Nat) (starts : List Elem)
    (hok : (client c w fuel starts St.init).ret = .ok) {p : Str} {parent : Int} {top : Bool} {a : Attr}
    (hr : Reached c w starts p parent top) (hl : w.lstat p = some a) (hd : kindOf a.mode = some .dir) :
    (Entered c w p parent top a → w.entries p ≠ .bad) ∧
    ((∀ n ∈ c.nobackup, w.lstat (Prepend.prependS (some p) n) = none) → top = true ∨ parent ≠ a.dev →
      w.fstype p = none → .warn .statfs p ∈ (client c w fuel starts St.init).out) := by
  constructor
  · intro hent he
    obtain ⟨hm, _⟩ := call_done hok hr hl hd (k := .stop .fail) (fun find =>
      walkDir_read hent _ (by unfold walkRead; rw [he]; exact List.mem_singleton.mpr rfl))
    rw [client_eq] at hok
    exact exec_noStop hok .fail (fun e => by cases e) hm
  · intro hn hdev hf
    have hskip : fsSkip c w p = ([.warn .statfs p], true) := by
      unfold fsSkip fstypeMatches
      rw [hf]
    obtain ⟨_, st, _, h⟩ := call_done hok hr hl hd
      (k := .say ([.warn .statfs p] ++ if top then [.warn .skipped p] else [])) (fun find => by
        unfold walkDir
        refine List.mem_cons_of_mem _ ?_
        rw [if_neg (by rw [nobackup_false.mpr hn]; simp)]
        unfold walkEnter
        rw [if_pos (by simpa using hdev), hskip]
        exact List.mem_cons_self ..)
    exact h _ (List.mem_append_left _ (List.mem_singleton.mpr rfl))

/-- With `scan_problem_raises_error`, a warning about a file makes the first phase fail. -/
theorem C95_raises (c : Cfg) (w : World) (fuel : Nat) (starts : List Elem) (hc : c.raises = true) {e : Ev}
    (he : e ∈ (client c w fuel starts St.init).out) (hs : Serious e) :
    (client c w fuel starts St.init).ret = .fail := by
  rw [client_eq] at he ⊢
  exact exec_serious hc _ (fun k hk => walkAll_sound fuel k hk) _ e he hs

/-- If the first phase says that all is well, and no warning is held against it, then the server has a list, and what
is read from it are all the entries that the client has told of, in their order. -/
theorem C95_list (c : Cfg) (w : World) (fuel : Nat) (starts : List Elem) (hs : Sayable c w starts)
    (text : Problem → Str → Str) (fow : Bool) (hok : (client c w fuel starts St.init).ret = .ok)
    (hw : fow = true → ∀ pr p, Ev.warn pr p ∉ (client c w fuel starts St.init).out) :
    ∃ f, server fow false Sbuf.empty [] (conversation text (client c w fuel starts St.init)) = some f ∧
      Sbuf.readEntries f =
        (((client c w fuel starts St.init).out.filterMap Ev.listed).map Entry.toSbuf, true) := by
  have hl : ∀ e ∈ (client c w fuel starts St.init).out, ListedOk e := by
    rw [client_eq]
    exact exec_ok hs _ (fun k hk => walkAll_sound fuel k hk) _ init_ok
  unfold conversation
  rw [if_pos hok, server_all _ hl]
  generalize (client c w fuel starts St.init).out = out at *
  rw [if_neg]
  · refine ⟨_, rfl, ?_⟩
    rw [List.nil_append, Sbuf.readEntries_entries]
    · have : Sbuf.readEntries (Iobuf.enc ⟨Cmd.gen.toByte, bytes "phase1end"⟩) = ([], true) := by decide +kernel
      rw [this, List.append_nil]
    · intro x hx
      obtain ⟨e, he, hx⟩ := List.mem_filterMap.mp hx
      exact hl e he x hx
  · intro h
    rw [Bool.false_or, Bool.and_eq_true, List.any_eq_true] at h
    obtain ⟨hf, e, he, hx⟩ := h
    cases e with
    | entry _ _ _ _ => cases hx
    | warn pr p => exact hw hf pr p he

/-- There is no list if the first phase fails, if a warning is held against it, or if the connection is lost before
the end. -/
theorem C95_no_list (c : Cfg) (w : World) (fuel : Nat) (starts : List Elem) (hs : Sayable c w starts)
    (text : Problem → Str → Str) (fow : Bool) {ms : List Iobuf.Rec}
    (hms : ms <+: conversation text (client c w fuel starts St.init))
    (h : (client c w fuel starts St.init).ret ≠ .ok ∨
      ms ≠ conversation text (client c w fuel starts St.init) ∨
      (fow = true ∧ ∃ pr p, Ev.warn pr p ∈ (client c w fuel starts St.init).out)) :
    server fow false Sbuf.empty [] ms = none := by
  have hl : ∀ e ∈ (client c w fuel starts St.init).out, ListedOk e := by
    rw [client_eq]
    exact exec_ok hs _ (fun k hk => walkAll_sound fuel k hk) _ init_ok
  have nogen : ∀ m ∈ ((client c w fuel starts St.init).out.map (messages text)).flatten, m.cmd ≠ Cmd.gen.toByte := by
    intro m hm
    obtain ⟨l, hl', hm⟩ := List.mem_flatten.mp hm
    obtain ⟨e, he, rfl⟩ := List.mem_map.mp hl'
    exact messages_noGen (hl e he) m hm
  have part : ms <+: ((client c w fuel starts St.init).out.map (messages text)).flatten →
      server fow false Sbuf.empty [] ms = none := by
    intro hx
    exact server_none ms (fun m hm => nogen m (hx.subset hm)) _ _ _
  unfold conversation at hms h
  split at hms
  · next hok =>
    rw [if_pos hok] at h
    rcases List.prefix_concat_iff.mp hms with e | hx
    · rcases h with h | h | ⟨hf, pr, p, hw⟩
      · exact absurd hok h
      · exact absurd e h
      · rw [e, server_all _ hl, if_pos]
        rw [hf, Bool.true_and, Bool.false_or, List.any_eq_true]
        exact ⟨_, hw, rfl⟩
    · exact part hx
  · rw [List.append_nil] at hms
    exact part hms

/-- The kinds of files, with the numbers that a Linux kernel gives them (`S_IFREG`, …), whatever the permissions are. -/
theorem C95_kinds {p : Int} (h0 : 0 ≤ p) (h1 : p < 4096) :
    kindOf (0o100000 + p) = some .reg ∧ kindOf (0o040000 + p) = some .dir ∧ kindOf (0o120000 + p) = some .lnk ∧
    kindOf (0o020000 + p) = some .chr ∧ kindOf (0o060000 + p) = some .blk ∧ kindOf (0o010000 + p) = some .fifo ∧
    kindOf (0o140000 + p) = some .sock := by
  have e : ∀ m k : Int, m = k * 4096 → 0 ≤ k → k < 16 → (m + p) / 4096 % 16 = k := by
    intro m k hm hk0 hk1
    omega
  unfold kindOf
  refine ⟨?_, ?_, ?_, ?_, ?_, ?_, ?_⟩
  · rw [e 0o100000 8 (by decide) (by decide) (by decide)]
    rfl
  · rw [e 0o040000 4 (by decide) (by decide) (by decide)]
    rfl
  · rw [e 0o120000 10 (by decide) (by decide) (by decide)]
    rfl
  · rw [e 0o020000 2 (by decide) (by decide) (by decide)]
    rfl
  · rw [e 0o060000 6 (by decide) (by decide) (by decide)]
    rfl
  · rw [e 0o010000 1 (by decide) (by decide) (by decide)]
    rfl
  · rw [e 0o140000 12 (by decide) (by decide) (by decide)]
    rfl

end Verif
