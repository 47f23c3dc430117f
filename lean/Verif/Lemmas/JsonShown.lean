import Verif.Lemmas.JsonInput
import Verif.Lemmas.JsonMerge

namespace Verif.JsonInput
open Verif.Monitor

/-! ### Flags -/

theorem flagName_noNul {f : Flag} {n} (h : flagName f = some n) : NoNul n := by
  cases f with
  | log g => cases h; exact (logName_ok g).2
  | live => cases h
  | _ => cases h; decide

theorem flagOf_iff {n : Str} {f : Flag} : flagOf n = some f ↔ flagName f = some n ∧ ∀ g, f ≠ .log g := by
  constructor
  · intro h
    unfold flagOf at h
    split at h
    · cases h; rename_i e; rw [e]; exact ⟨rfl, fun g c => by cases c⟩
    split at h
    · cases h; rename_i e; rw [e]; exact ⟨rfl, fun g c => by cases c⟩
    split at h
    · cases h; rename_i e; rw [e]; exact ⟨rfl, fun g c => by cases c⟩
    split at h
    · cases h; rename_i e; rw [e]; exact ⟨rfl, fun g c => by cases c⟩
    split at h
    · cases h; rename_i e; rw [e]; exact ⟨rfl, fun g c => by cases c⟩
    split at h
    · cases h; rename_i e; rw [e]; exact ⟨rfl, fun g c => by cases c⟩
    cases h
  · rintro ⟨h, hg⟩
    cases f with
    | log g => exact absurd rfl (hg g)
    | live => cases h
    | _ => cases h; decide

theorem logName_inj {a b : Log} (h : a.name = b.name) : a = b := by
  cases a <;> cases b <;> first | rfl | (revert h; decide)

theorem logOf_iff {n : Str} {f : Flag} : logOf n = some f ↔ ∃ g : Log, f = .log g ∧ g.name = n := by
  unfold logOf
  constructor
  · intro h
    cases hf : Log.all.find? (fun g => decide (g.name = n)) with
    | none => rw [hf] at h; cases h
    | some g =>
      rw [hf] at h
      cases h
      have := List.find?_some hf
      exact ⟨g, rfl, by simpa using this⟩
  · rintro ⟨g, rfl, rfl⟩
    cases g <;> decide

theorem sane_of_ok {b : BackupInfo} (h : BackupOk b) : Sane b where
  bno := h.bno
  flags := fun n hn => by
    obtain ⟨f, hf, hg⟩ := h.flags n hn
    exact ⟨flagName_noNul hf, by rw [flagOf_iff.mpr ⟨hf, hg⟩]; rfl⟩
  logs := fun n hn => by
    obtain ⟨g, rfl⟩ := h.logs n hn
    exact ⟨(logName_ok g).2, by rw [logOf_iff.mpr ⟨g, rfl, rfl⟩]; rfl⟩
  counters := h.counters
  entries := h.entries

theorem saneInfo_of_ok {i : Info} (h : InfoOk i) : SaneInfo i where
  name := h.name
  phase := h.phase
  kids := h.kids
  rows := fun k hk r hr => by
    rcases (h.rows k hk).2 r hr with h | h
    · exact ⟨_, h⟩
    · exact ⟨_, h⟩
  backups := fun b hb => sane_of_ok (h.backups b hb)

theorem flags_shown {id : Nat} {b : BackupInfo} (h : BackupOk b) (f : Flag) :
    f ∈ (mkEntry id b).flags ↔ ∃ n ∈ b.flags ++ b.logs, flagName f = some n := by
  show f ∈ b.flags.filterMap flagOf ++ b.logs.filterMap logOf ↔ _
  rw [List.mem_append, List.mem_filterMap, List.mem_filterMap]
  constructor
  · rintro (⟨n, hn, hf⟩ | ⟨n, hn, hf⟩)
    · exact ⟨n, by simp [hn], (flagOf_iff.mp hf).1⟩
    · obtain ⟨g, rfl, rfl⟩ := logOf_iff.mp hf
      exact ⟨g.name, by simp [hn], rfl⟩
  · rintro ⟨n, hn, hf⟩
    rcases List.mem_append.mp hn with hn | hn
    · obtain ⟨f', hf', hg⟩ := h.flags n hn
      refine .inl ⟨n, hn, flagOf_iff.mpr ⟨hf, ?_⟩⟩
      rintro g rfl
      cases hf
      cases f' with
      | log g' => exact hg g' rfl
      | live => cases hf'
      | _ => cases g <;> (revert hf'; decide)
    · obtain ⟨g, rfl⟩ := h.logs n hn
      refine .inr ⟨g.name, hn, logOf_iff.mpr ⟨g, ?_, rfl⟩⟩
      cases f with
      | log g' => rw [logName_inj (Option.some.inj hf)]
      | live => cases hf
      | _ => cases g <;> (revert hf; decide)

theorem mem_mkEntries : ∀ {bs : List BackupInfo} {id : Nat} {e : Entry}, e ∈ mkEntries id bs →
    ∃ b ∈ bs, ∃ j, e = mkEntry j b
  | [], _, _, h => by cases h
  | b :: bs, id, e, h => by
    rcases List.mem_cons.mp h with rfl | h
    · exact ⟨b, by simp, _, rfl⟩
    · obtain ⟨b', hb', j, hj⟩ := mem_mkEntries h
      exact ⟨b', by simp [hb'], j, hj⟩

theorem mkEntries_mem : ∀ {bs : List BackupInfo} {b : BackupInfo} (id : Nat), b ∈ bs → ∃ j, mkEntry j b ∈ mkEntries id bs
  | [], _, _, h => by cases h
  | b' :: bs, b, id, h => by
    rcases List.mem_cons.mp h with rfl | h
    · exact ⟨id, List.mem_cons_self⟩
    · obtain ⟨j, hj⟩ := mkEntries_mem (id + 1) h
      exact ⟨j, List.mem_cons_of_mem _ hj⟩

theorem mkEntries_bno : ∀ (bs : List BackupInfo) (id : Nat), (mkEntries id bs).map (·.bno) = bs.map (·.bno)
  | [], _ => rfl
  | b :: bs, id => by
    rw [mkEntries, List.map_cons, mkEntries_bno bs (id + 1)]; rfl

/-! ### Counters -/

theorem toByte_injective {a b : Cmd} (h : a.toByte = b.toByte) : a = b := by
  cases a <;> cases b <;> first | rfl | (revert h; decide)

theorem foldl_setRow_other {ch : Byte} : ∀ (rows : List (Cmd × Cntr.Ent)) (e : Cntr.Cntr),
    (∀ r ∈ rows, r.1.toByte ≠ ch) → rows.foldl setRow e ch = e ch
  | [], _, _ => rfl
  | r :: rows, e, h => by
    rw [List.foldl_cons, foldl_setRow_other rows _ (fun x hx => h x (by simp [hx]))]
    unfold setRow Cntr.upd
    rw [if_neg (fun c => h r (by simp) c.1.symm)]

theorem foldl_setRow_told : ∀ (rows : List (Cmd × Cntr.Ent)) (e : Cntr.Cntr) (r), (rows.map (·.1)).Nodup → r ∈ rows →
    Cntr.has r.1.toByte = true →
    rows.foldl setRow e r.1.toByte =
      if (r.1, Cntr.Flag.single) ∈ Cntr.table then { e r.1.toByte with count := r.2.count } else r.2
  | [], _, _, _, h, _ => by cases h
  | x :: rows, e, r, hn, h, hh => by
    rw [List.map_cons, List.nodup_cons] at hn
    rw [List.foldl_cons]
    rcases List.mem_cons.mp h with rfl | h
    · rw [foldl_setRow_other rows _ (fun y hy c => hn.1 (List.mem_map.mpr ⟨y, hy, toByte_injective c⟩))]
      simp only [setRow, Cntr.upd, hh, and_self, if_true]
    · rw [foldl_setRow_told rows _ r hn.2 h hh]
      have hne : x.1.toByte ≠ r.1.toByte := fun c => hn.1 (List.mem_map.mpr ⟨r, h, (toByte_injective c).symm⟩)
      have : setRow e x r.1.toByte = e r.1.toByte := by
        unfold setRow Cntr.upd
        rw [if_neg (fun c => hne c.1.symm)]
      rw [this]

theorem statusOf_statusStr {v : Int} (h1 : 1 ≤ v) (h2 : v ≤ 9) : statusOf (statusStr v) = v := by
  obtain rfl | rfl | rfl | rfl | rfl | rfl | rfl | rfl | rfl : v = 1 ∨ v = 2 ∨ v = 3 ∨ v = 4 ∨ v = 5 ∨ v = 6 ∨ v = 7 ∨
    v = 8 ∨ v = 9 := by omega
  all_goals decide

theorem mkKid_shows {now : UInt64} {id : Nat} {k : ChildInfo} (h : RowsOk k.counters) : ShowsKid k (mkKid now id k) where
  pid := rfl
  bno := rfl
  phase := statusOf_statusStr
  told := fun r hr => by
    have hin : ∃ f, (r.1, f) ∈ Cntr.table := by
      rcases h.2 r hr with h | h
      · exact ⟨_, h⟩
      · exact ⟨_, h⟩
    obtain ⟨f, hf⟩ := hin
    show k.counters.foldl setRow _ r.1.toByte = _
    rw [foldl_setRow_told _ _ r h.1 hr (has_of_mem hf)]
    split
    · unfold Cntr.setCount Cntr.upd Cntr.init
      by_cases c : r.1.toByte = Cmd.timestamp.toByte ∧ Cntr.has Cmd.timestamp.toByte = true
      · rw [if_pos c]; rfl
      · rw [if_neg c]; rfl
    · rfl
  untold := fun r _ hn hts => by
    show k.counters.foldl setRow _ r.1.toByte = _
    rw [foldl_setRow_other _ _ (fun x hx c => hn (List.mem_map.mpr ⟨x, hx, toByte_injective c⟩))]
    unfold Cntr.setCount Cntr.upd
    rw [if_neg (fun c => hts (toByte_injective c.1))]
    rfl

theorem mem_addKids {now : UInt64} : ∀ (ks : List ChildInfo) (n : Nat) (l : List Kid) (x : Kid),
    x ∈ addKids now n l ks → x ∈ l ∨ ∃ k ∈ ks, ∃ j, x = mkKid now j k
  | [], _, _, _, h => .inl h
  | k :: ks, n, l, x, h => by
    rcases mem_addKids ks (n + 1) _ x h with h | ⟨k', hk', j, hj⟩
    · rcases List.mem_cons.mp h with rfl | h
      · exact .inr ⟨k, by simp, n, rfl⟩
      · exact .inl h
    · exact .inr ⟨k', by simp [hk'], j, hj⟩

theorem addKids_keep {now : UInt64} : ∀ (ks : List ChildInfo) (n : Nat) (l : List Kid) (x : Kid),
    x ∈ l → x ∈ addKids now n l ks
  | [], _, _, _, h => h
  | k :: ks, n, l, x, h => addKids_keep ks (n + 1) _ x (List.mem_cons_of_mem _ h)

theorem addKids_mem {now : UInt64} : ∀ (ks : List ChildInfo) (n : Nat) (l : List Kid) (k : ChildInfo),
    k ∈ ks → ∃ j, mkKid now j k ∈ addKids now n l ks
  | [], _, _, _, h => by cases h
  | k' :: ks, n, l, k, h => by
    rcases List.mem_cons.mp h with rfl | h
    · exact ⟨n, addKids_keep ks (n + 1) _ _ List.mem_cons_self⟩
    · exact addKids_mem ks (n + 1) _ k h

theorem addKids_length {now : UInt64} : ∀ (ks : List ChildInfo) (n : Nat) (l : List Kid),
    (addKids now n l ks).length = l.length + ks.length
  | [], _, _ => by simp [addKids]
  | k :: ks, n, l => by
    rw [addKids, addKids_length ks, List.length_cons, List.length_cons]
    omega

theorem upTo_shows {now : UInt64} {s : St} {i : Info} (hi : InfoOk i) : ShowsClient i (upTo now s i) where
  name := known_name _ _
  run := rfl
  length := by
    show (addKids now s.next [] i.children).length = _
    rw [addKids_length]; simp
  kids := fun k hk => by
    obtain ⟨j, hj⟩ := addKids_mem (now := now) i.children s.next [] k hk
    exact ⟨_, hj, mkKid_shows (hi.rows k hk)⟩
  only := fun x hx => by
    rcases mem_addKids i.children s.next [] x hx with h | ⟨k, hk, j, rfl⟩
    · cases h
    · exact ⟨k, hk, mkKid_shows (hi.rows k hk)⟩

/-! ### The list of clients -/

theorem lookup_addToList {c : Client} : ∀ {l : List Client}, lookup l c.name = none → ∀ n,
    lookup (addToList c l) n = if n = c.name then some c else lookup l n
  | [], _, n => by
    by_cases e : n = c.name
    · simp [addToList, lookup, e]
    · have e' : ¬ c.name = n := fun h => e h.symm
      simp [addToList, lookup, e, e']
  | x :: l, h, n => by
    unfold lookup at h
    rw [List.find?_cons] at h
    have hx : x.name ≠ c.name := by
      intro e
      simp [e] at h
    simp only [hx, decide_false] at h
    unfold addToList
    split
    · unfold lookup
      rw [List.find?_cons, List.find?_cons]
      by_cases e : x.name = n
      · have : n ≠ c.name := fun e' => hx (e.trans e')
        simp [e, this]
      · simp only [e, decide_false]
        exact lookup_addToList h n
    · unfold lookup
      rw [List.find?_cons]
      by_cases e : n = c.name
      · simp [e]
      · have e' : ¬ c.name = n := fun h => e h.symm
        simp [e, e']

theorem lookup_modify {c : Client} : ∀ {l : List Client} {i : Nat},
    l.findIdx? (fun x => decide (x.name = c.name)) = some i → ∀ n,
    lookup (l.modify i (fun _ => c)) n = if n = c.name then some c else lookup l n
  | [], _, h, _ => by simp at h
  | x :: l, i, h, n => by
    rw [List.findIdx?_cons] at h
    by_cases e : x.name = c.name
    · simp only [e, decide_true, if_true, Option.some.injEq] at h
      subst h
      simp only [List.modify_zero_cons, lookup, List.find?_cons, e]
      by_cases en : n = c.name
      · simp [en]
      · have e' : ¬ c.name = n := fun h => en h.symm
        simp [en, e']
    · simp only [e, decide_false, Bool.false_eq_true, if_false] at h
      cases hf : l.findIdx? (fun x => decide (x.name = c.name)) with
      | none => rw [hf] at h; cases h
      | some j =>
        rw [hf] at h
        simp only [Option.map_some, Option.some.injEq] at h
        subst h
        have ih := lookup_modify hf n
        unfold lookup at ih ⊢
        rw [List.modify_succ_cons, List.find?_cons, List.find?_cons, ih]
        by_cases en : x.name = n
        · have : n ≠ c.name := fun e' => e (en.trans e')
          simp [en, this]
        · simp [en]

theorem lookup_putClient (l : List Client) (c : Client) (n : Str) :
    lookup (putClient l c) n = if n = c.name then some c else lookup l n := by
  unfold putClient
  rcases findIdx?_lookup l c.name with ⟨h1, h2⟩ | ⟨i, d, h1, h2, h3⟩
  · rw [h1]; exact lookup_addToList h2 n
  · rw [h1]; exact lookup_modify h1 n

theorem told_name (now : UInt64) (s : St) (i : Info) : (told now s i).name = i.name := known_name _ _

/-! ### What is shown of a client that has been told about -/

theorem known_bus (l : List Client) (n : Str) : (known l n).bus = shownBackups l n := by
  unfold known shownBackups
  cases lookup l n <;> rfl

theorem told_client {now : UInt64} {s : St} {i : Info} (hi : InfoOk i) : ShowsClient i (told now s i) :=
  let h := upTo_shows (now := now) (s := s) hi
  ⟨h.name, h.run, h.length, h.kids, h.only⟩

theorem core_same {a b : Entry} (h : core a = core b) :
    a.bno = b.bno ∧ a.flags = b.flags ∧ a.timestamp = b.timestamp := by
  simp only [core, Entry.mk.injEq] at h
  exact ⟨h.2.1, h.2.2.1, h.2.2.2.1⟩

theorem merged_same {sel : Option Nat} {old new : List Entry} (hn : (new.map (·.bno)).Nodup)
    (ho : Desc old) (hh : HeadKept old new) :
    (∀ e ∈ (mergeBuLists sel old new).1, ∃ n ∈ new, e.bno = n.bno ∧ e.flags = n.flags ∧ e.timestamp = n.timestamp) ∧
    (∀ n ∈ new, ∃ e ∈ (mergeBuLists sel old new).1, e.bno = n.bno ∧ e.flags = n.flags ∧ e.timestamp = n.timestamp) := by
  obtain ⟨_, h2, _⟩ := merge_spec (sel := sel) hn ho hh
  constructor
  · intro e he
    rcases (h2 (core e)).mp (mem_core he) with ⟨o, ho, n, hn, hb, hc⟩ | ⟨n, hn, hb, hc⟩
    · refine ⟨n, hn, ?_, ?_, ?_⟩
      · rw [← hb]; exact (core_same hc).1
      · exact (core_same hc).2.1
      · exact (core_same hc).2.2
    · exact ⟨n, hn, (core_same hc).1, (core_same hc).2.1, (core_same hc).2.2⟩
  · intro n hn'
    by_cases hb : n.bno ∈ old.map (·.bno)
    · obtain ⟨o, hom, hob⟩ := List.mem_map.mp hb
      obtain ⟨e, he, hc⟩ := List.mem_map.mp ((h2 _).mpr (.inl ⟨o, hom, n, hn', hob, rfl⟩))
      refine ⟨e, he, ?_, (core_same hc).2.1, (core_same hc).2.2⟩
      rw [← hob]; exact (core_same hc).1
    · obtain ⟨e, he, hc⟩ := List.mem_map.mp ((h2 _).mpr (.inr ⟨n, hn', hb, rfl⟩))
      exact ⟨e, he, (core_same hc).1, (core_same hc).2.1, (core_same hc).2.2⟩

theorem headKept_of_steady {es : List Entry} {bs : List BackupInfo} {id : Nat} (h : Steady es bs) :
    HeadKept es (mkEntries id bs) := by
  rcases h.2 with h | ⟨e, he, b, hb, hbe⟩
  · exact .inl h
  · refine .inr ⟨e, he, ?_⟩
    rw [mkEntries_bno]
    exact List.mem_map.mpr ⟨b, hb, hbe⟩

theorem told_backups {now : UInt64} {s : St} {i : Info} (hi : InfoOk i)
    (hs : Steady (shownBackups s.cl.list i.name) i.backups) : ShowsAll i.children i.backups (told now s i).bus := by
  have hnd : ((mkEntries (s.next + i.children.length) i.backups).map (·.bno)).Nodup := by
    rw [mkEntries_bno]; exact hi.nodup
  have hm := merge_spec (sel := s.sel) hnd hs.1 (headKept_of_steady hs)
  have hsm := merged_same (sel := s.sel) hnd hs.1 (headKept_of_steady hs)
  have hbus : (told now s i).bus = ((mergeBuLists s.sel (shownBackups s.cl.list i.name)
      (mkEntries (s.next + i.children.length) i.backups)).1).map (fun b =>
        if (addKids now s.next [] i.children).any (fun k => decide (b.bno = unsigned k.bno)) then
          { b with flags := b.flags ++ [.live] } else b) := by
    unfold told updateLive
    rw [known_bus]
    rfl
  rw [hbus]
  have hlive : ∀ b : Nat, (addKids now s.next [] i.children).any (fun k => decide (b = unsigned k.bno)) = true ↔
      ∃ k ∈ i.children, unsigned k.bno = b := by
    intro b
    rw [List.any_eq_true]
    constructor
    · rintro ⟨x, hx, hb⟩
      rcases mem_addKids i.children s.next [] x hx with h | ⟨k, hk, j, rfl⟩
      · cases h
      · exact ⟨k, hk, (by simpa using hb : b = unsigned (mkKid now j k).bno).symm⟩
    · rintro ⟨k, hk, hb⟩
      obtain ⟨j, hj⟩ := addKids_mem (now := now) i.children s.next [] k hk
      exact ⟨_, hj, decide_eq_true hb.symm⟩
  have hshow : ∀ (e : Entry) (b : BackupInfo) (j : Nat), b ∈ i.backups → e.bno = (mkEntry j b).bno →
      e.flags = (mkEntry j b).flags → e.timestamp = (mkEntry j b).timestamp → Shows i.children b
        (if (addKids now s.next [] i.children).any (fun k => decide (e.bno = unsigned k.bno)) then
          { e with flags := e.flags ++ [.live] } else e) := by
    intro e b j hb h1 h2 h3
    have hfl := flags_shown (id := j) (hi.backups b hb)
    have hnl : ¬ ∃ n ∈ b.flags ++ b.logs, flagName .live = some n := by
      rintro ⟨n, _, hn⟩; cases hn
    by_cases hl : (addKids now s.next [] i.children).any (fun k => decide (e.bno = unsigned k.bno)) = true
    · rw [if_pos hl]
      have hex := (hlive _).mp hl
      rw [h1] at hex
      refine ⟨h1, h3, fun f => ?_⟩
      show f ∈ e.flags ++ [.live] ↔ _
      rw [List.mem_append, List.mem_singleton, h2, hfl]
      constructor
      · rintro (h | h)
        · exact .inl h
        · exact .inr ⟨h, hex⟩
      · rintro (h | ⟨h, _⟩)
        · exact .inl h
        · exact .inr h
    · rw [if_neg hl]
      refine ⟨h1, h3, fun f => ?_⟩
      rw [h2, hfl]
      constructor
      · exact .inl
      · rintro (h | ⟨_, hk⟩)
        · exact h
        · exact absurd ((hlive _).mpr (h1 ▸ hk)) hl
  refine ⟨?_, ?_, ?_⟩
  · rw [List.pairwise_map]
    refine hm.1.imp ?_
    intro a b hab
    split <;> split <;> exact hab
  · intro b hb
    obtain ⟨j, hj⟩ := mkEntries_mem (s.next + i.children.length) hb
    obtain ⟨e, he, h1, h2, h3⟩ := hsm.2 _ hj
    exact ⟨_, List.mem_map.mpr ⟨e, he, rfl⟩, hshow e b j hb h1 h2 h3⟩
  · intro e he
    obtain ⟨e0, he0, rfl⟩ := List.mem_map.mp he
    obtain ⟨n, hn, h1, h2, h3⟩ := hsm.1 e0 he0
    obtain ⟨b, hb, j, rfl⟩ := mem_mkEntries hn
    exact ⟨b, hb, hshow e0 b j hb h1 h2 h3⟩

end Verif.JsonInput
