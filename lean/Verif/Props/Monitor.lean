import Verif.Lemmas.MonitorAnswer
import Verif.Props.CntrStr

/-!
# C79: what a monitor gets to see
-/

namespace Verif
open Verif Monitor

/-! ### Requests -/

/-- **C79.** A request for a client, a backup, a log or a directory is understood as it is meant, if the name of
the client has no colon. The directory may have colons. -/
theorem C79_request {n : Str} (hn : n ≠ []) (hc : colon ∉ n) {k : Str} (hk : k ≠ []) (hkc : colon ∉ k)
    {f : Str} (hf : f ≠ []) (hfc : colon ∉ f) (p : Str) :
    parseReq (bytes "c:") = ⟨none, none, none, none, none⟩ ∧
    parseReq (bytes "c:" ++ n) = ⟨none, some n, none, none, none⟩ ∧
    parseReq (bytes "c:" ++ n ++ bytes ":b:" ++ k) = ⟨none, some n, some k, none, none⟩ ∧
    parseReq (bytes "c:" ++ n ++ bytes ":b:" ++ k ++ bytes ":l:" ++ f) = ⟨none, some n, some k, some f, none⟩ ∧
    parseReq (bytes "c:" ++ n ++ bytes ":b:" ++ k ++ bytes ":p:" ++ p) = ⟨none, some n, some k, none, some p⟩ := by
  have hb : bytes ":b:" = colon :: ([98] ++ [colon]) := by decide
  have hl : bytes ":l:" = colon :: ([108] ++ [colon]) := by decide
  have hp : bytes ":p:" = colon :: ([112] ++ [colon]) := by decide
  have hcc : bytes "c:" = [99] ++ [colon] := by decide
  have w : ∀ (x : Byte) (r : Str), x ≠ colon → words [] ([x] ++ colon :: r) = ([x], some r) :: words [] r := by
    intro x r hx
    exact words_word (by simpa using Ne.symm hx) (by simp) r
  refine ⟨by decide, ?_, ?_, ?_, ?_⟩
  · have : words [] (bytes "c:" ++ n) = [([99], some n), (n, none)] := by
      have e : bytes "c:" ++ n = [99] ++ colon :: n := by rw [hcc]; simp
      rw [e, w _ _ (by decide), words_last hc hn]
    unfold parseReq
    rw [this]
    rfl
  · have : words [] (bytes "c:" ++ n ++ bytes ":b:" ++ k)
        = [([99], some (n ++ bytes ":b:" ++ k)), (n, some (bytes "b:" ++ k)), ([98], some k), (k, none)] := by
      have e : bytes "c:" ++ n ++ bytes ":b:" ++ k = [99] ++ colon :: (n ++ colon :: ([98] ++ colon :: k)) := by
        rw [hcc, hb]; simp
      rw [e, w _ _ (by decide), words_word hc hn, w _ _ (by decide), words_last hkc hk]
      simp [bytes]
    unfold parseReq
    rw [this]
    rfl
  · have e : bytes "c:" ++ n ++ bytes ":b:" ++ k ++ bytes ":l:" ++ f
        = [99] ++ colon :: (n ++ colon :: ([98] ++ colon :: (k ++ colon :: ([108] ++ colon :: f)))) := by
      rw [hcc, hb, hl]; simp
    unfold parseReq
    rw [e, w _ _ (by decide), words_word hc hn, w _ _ (by decide), words_word hkc hk, w _ _ (by decide),
      words_last hfc hf]
    rfl
  · have e : bytes "c:" ++ n ++ bytes ":b:" ++ k ++ bytes ":p:" ++ p
        = [99] ++ colon :: (n ++ colon :: ([98] ++ colon :: (k ++ colon :: ([112] ++ colon :: p)))) := by
      rw [hcc, hb, hp]; simp
    unfold parseReq
    rw [e, w _ _ (by decide), words_word hc hn, w _ _ (by decide), words_word hkc hk, w _ _ (by decide)]
    rfl

/-! ### The overview -/

/-- **C79.** The overview shows the clients that the monitor may watch, according to the disk as it was last
read, and no others: each of them once, in order of their names, and with its labels. -/
theorem C79_overview {sv : Server} {es : List Event} {w : World} {peer : Int} {st : State}
    (hh : Honest (disks es)) (hw : LastDisk es w) (hr : runs sv (start peer) es = some st)
    {w' : World} {st' : State} {msgs : List Msg} {opened : List Str}
    (h : step sv st (.ask w' (bytes "c:")) = .goesOn st' msgs opened) :
    opened = [] ∧ ∃ l, msgs.filter Msg.plain = [.clients l] ∧
      (l.map (·.name)).Pairwise (fun a b => BackupNumber.strLe a b = true ∧ a ≠ b) ∧
      (∀ n, n ∈ l.map (·.name) ↔ ∃ cc, MayWatch sv w n cc) ∧
      (∀ i ∈ l, ∀ cc, MayWatch sv w i.name cc → i.labels = cc.labels) := by
  obtain ⟨s1, s2, s3, s4⟩ := history hh hw hr
  have hq : parseReq (bytes "c:") = ⟨none, none, none, none, none⟩ := by decide
  simp only [step, request, hq, reply, send, Option.isSome_none, Bool.false_eq_true, if_false] at h
  generalize hm : Made.all ((st.clients.filter (·.permitted)).map (fun c =>
      showClient w' st.peer c none none ((findCurrent c.bus).toList ++ (findWorking c.bus).toList))) = m at h
  cases m with
  | failed o => cases h
  | undefined => cases h
  | ok l o =>
    simp only [Made.bind] at h
    injection h with h1 h2 h3
    have ho : o = [] := by
      cases o with
      | nil => rfl
      | cons p ps =>
        exfalso
        have : p ∈ (Made.all ((st.clients.filter (·.permitted)).map (fun c =>
          showClient w' st.peer c none none ((findCurrent c.bus).toList ++ (findWorking c.bus).toList)))).opened := by
          rw [hm]; simp [Made.opened]
        obtain ⟨x, hx, hp⟩ := all_opened _ _ this
        obtain ⟨c, _, rfl⟩ := List.mem_map.mp hx
        obtain ⟨b, _, hp⟩ := showClient_opened _ _ _ _ _ _ _ hp
        rw [showBackup_plain_opened] at hp
        cases hp
    have key := all_map (γ := Str × List Str) _ (fun i : Info => (i.name, i.labels)) (fun c : CStat => (c.name, c.labels))
      (fun c i o hi => by obtain ⟨a, b, _⟩ := showClient_ok hi; rw [a, b]) _ _ _ hm
    have hn : l.map (·.name) = (st.clients.filter (·.permitted)).map (·.name) := by
      have := congrArg (List.map Prod.fst) key
      rw [List.map_map, List.map_map] at this
      exact this
    refine ⟨by rw [← h3, ho]; rfl, l, ?_, ?_, ?_, ?_⟩
    · rw [← h2]
      split <;> rfl
    · rw [hn]
      exact List.Pairwise.sublist (List.Sublist.map _ (List.filter_sublist)) s1
    · intro n
      rw [hn, List.mem_map]
      constructor
      · rintro ⟨c, hc, rfl⟩
        obtain ⟨hc, hp⟩ := List.mem_filter.mp hc
        obtain ⟨cc, a, _⟩ := current_permitted (s2 _ (List.mem_map.mpr ⟨c, hc, rfl⟩)) (s3 c hc) hp
        exact ⟨cc, a⟩
      · rintro ⟨cc, hcc⟩
        obtain ⟨⟨hv, t, text, hcf, hl⟩, hs⟩ := hcc
        have := s4 n hv (by rw [hcf]; simp)
        obtain ⟨c, hc, rfl⟩ := List.mem_map.mp this
        refine ⟨c, List.mem_filter.mpr ⟨hc, ?_⟩, rfl⟩
        exact (current_mayWatch (s3 c hc) ⟨⟨hv, t, text, hcf, hl⟩, hs⟩).1
    · intro i hi cc hcc
      have : (i.name, i.labels) ∈ (st.clients.filter (·.permitted)).map (fun c : CStat => (c.name, c.labels)) := by
        rw [← key]
        exact List.mem_map.mpr ⟨i, hi, rfl⟩
      obtain ⟨c, hc, e⟩ := List.mem_map.mp this
      injection e with e1 e2
      rw [← e2]
      rw [← e1] at hcc
      exact (current_mayWatch (s3 c (List.mem_filter.mp hc).1) hcc).2.1

/-! ### Backups, logs and files of others -/

/-- **C79**, in part. Whatever a monitor asks for, it is told of backups of a client only if it may watch that
client, according to the disk as it was last read, and the only files that are read are manifests, logs and
statistics of backups of such clients. What is missing: that nothing else is told about other clients. -/
theorem C79_private_partial {sv : Server} {es : List Event} {w : World} {peer : Int} {st : State}
    (hh : Honest (disks es)) (hw : LastDisk es w) (hr : runs sv (start peer) es = some st)
    {w' : World} (hb : ∀ d l, w'.backups d = some l → ∀ b ∈ l, b.path ≠ []) (s : Str) :
    (∀ st' msgs opened, step sv st (.ask w' s) = .goesOn st' msgs opened →
      ∀ m ∈ msgs, ∀ i ∈ m.infos, i.backups ≠ [] → ∃ cc, MayWatch sv w i.name cc) ∧
    (∀ opened, (step sv st (.ask w' s) = .ends opened ∨ ∃ st' msgs, step sv st (.ask w' s) = .goesOn st' msgs opened) →
      ∀ p ∈ opened, ∃ n cc d l b, MayWatch sv w n cc ∧ cc.dir = some d ∧ w'.backups d = some l ∧ b ∈ l ∧
        Readable b p) := by
  obtain ⟨s1, s2, s3, s4⟩ := history hh hw hr
  -- what the answer is made of
  have main : ∀ (c : Option CStat) (b : Option Bu) (lf br : Option Str) (clist : List CStat),
      (∀ d ∈ clist, ∃ c ∈ st.clients, core c = core d) →
      (∀ d, c = some d → (∃ c0 ∈ st.clients, d = setBackupList w' c0) ∧ ∀ b', b = some b' → b' ∈ d.bus) →
      (∀ l o, send w' st.peer clist c b lf br = .ok l o → ∀ i ∈ l, i.backups ≠ [] → ∃ cc, MayWatch sv w i.name cc) ∧
      (∀ p ∈ (send w' st.peer clist c b lf br).opened, ∃ n cc d l b, MayWatch sv w n cc ∧ cc.dir = some d ∧
        w'.backups d = some l ∧ b ∈ l ∧ Readable b p) := by
    intro c b lf br clist hcl hc
    -- one client that has been named
    have one : ∀ c0 ∈ st.clients, ∀ (bs : List Bu) (lf br : Option Str), (∀ b ∈ bs, b ∈ (setBackupList w' c0).bus) →
        (∀ l o, ((showClient w' st.peer (setBackupList w' c0) lf br bs).bind fun i => .ok [i] []) = .ok l o →
          ∀ i ∈ l, i.backups ≠ [] → ∃ cc, MayWatch sv w i.name cc) ∧
        (∀ p ∈ ((showClient w' st.peer (setBackupList w' c0) lf br bs).bind fun i => (.ok [i] [] : Made (List Info))).opened,
          ∃ n cc d l b, MayWatch sv w n cc ∧ cc.dir = some d ∧ w'.backups d = some l ∧ b ∈ l ∧ Readable b p) := by
      intro c0 hc0 bs lf br hbs
      have perm : bs ≠ [] → c0.permitted = true := by
        intro hne
        cases hp : c0.permitted with
        | true => rfl
        | false =>
          exfalso
          cases bs with
          | nil => exact hne rfl
          | cons b bs =>
            have := hbs b (by simp)
            unfold setBackupList at this
            rw [hp, if_neg Bool.false_ne_true] at this
            cases this
      constructor
      · intro l o h i hi hne
        obtain ⟨j, o1, o2, e, e2, _⟩ := bind_ok h
        injection e2 with e2 _
        subst e2
        rw [List.mem_singleton] at hi
        subst hi
        obtain ⟨h1, _, h3⟩ := showClient_ok e
        have hbn : bs ≠ [] := by
          intro e
          rw [e] at h3
          simp at h3
          exact hne h3
        obtain ⟨cc, a, _⟩ := current_permitted (s2 _ (List.mem_map.mpr ⟨c0, hc0, rfl⟩)) (s3 c0 hc0) (perm hbn)
        refine ⟨cc, ?_⟩
        rw [h1, core_name (core_setBackupList w' c0)]
        exact a
      · intro p hp
        rcases bind_opened hp with hp | ⟨_, _, _, hp⟩
        · obtain ⟨b, hbm, hp⟩ := showClient_opened _ _ _ _ _ _ _ hp
          have hperm := perm (by intro e; rw [e] at hbm; cases hbm)
          obtain ⟨cc, a, _, hd⟩ := current_permitted (s2 _ (List.mem_map.mpr ⟨c0, hc0, rfl⟩)) (s3 c0 hc0) hperm
          have hbm := hbs b hbm
          unfold setBackupList at hbm
          rw [hperm, if_pos rfl] at hbm
          have hbm : b ∈ ((w'.backups c0.dir).getD []).reverse := hbm
          rw [List.mem_reverse] at hbm
          cases hwb : w'.backups c0.dir with
          | none => rw [hwb] at hbm; cases hbm
          | some l =>
            rw [hwb] at hbm
            exact ⟨_, cc, _, l, b, a, hd, hwb, hbm, showBackup_opened _ _ _ _ _ (hb _ l hwb b hbm) p hp⟩
        · cases hp
    cases c with
    | some c =>
      obtain ⟨⟨c0, hc0, rfl⟩, hbb⟩ := hc c rfl
      cases b with
      | some b =>
        exact one c0 hc0 [b] lf br (by intro x hx; rw [List.mem_singleton] at hx; subst hx; exact hbb _ rfl)
      | none => exact one c0 hc0 _ none none (fun b hb => hb)
    | none =>
      constructor
      · intro l o h i hi _
        unfold send at h
        dsimp only at h
        have key := all_map (γ := Str) _ (fun i : Info => i.name) (fun c : CStat => c.name)
          (fun c i o hi => (showClient_ok hi).1) _ _ _ h
        have : i.name ∈ (clist.filter (·.permitted)).map (fun c : CStat => c.name) := by
          rw [← key]
          exact List.mem_map.mpr ⟨i, hi, rfl⟩
        obtain ⟨c, hc, e⟩ := List.mem_map.mp this
        obtain ⟨hc, hp⟩ := List.mem_filter.mp hc
        obtain ⟨d, hd, ed⟩ := hcl c hc
        rw [← e, ← core_name ed]
        rw [← core_perm ed] at hp
        obtain ⟨cc, a, _⟩ := current_permitted (s2 _ (List.mem_map.mpr ⟨d, hd, rfl⟩)) (s3 d hd) hp
        exact ⟨cc, a⟩
      · intro p hp
        unfold send at hp
        dsimp only at hp
        obtain ⟨x, hx, hp⟩ := all_opened _ _ hp
        obtain ⟨c, _, rfl⟩ := List.mem_map.mp hx
        obtain ⟨b, _, hp⟩ := showClient_opened _ _ _ _ _ _ _ hp
        rw [showBackup_plain_opened] at hp
        cases hp
  -- the message
  have fin : ∀ (q : Req), (∀ m o, (reply w' st q).2 = .ok m o → ∀ i ∈ m.infos, i.backups ≠ [] → ∃ cc, MayWatch sv w i.name cc) ∧
      (∀ p ∈ (reply w' st q).2.opened, ∃ n cc d l b, MayWatch sv w n cc ∧ cc.dir = some d ∧
        w'.backups d = some l ∧ b ∈ l ∧ Readable b p) := by
    intro q
    have rest : ∀ (c : Option CStat) (b : Option Bu) (lf br : Option Str) (clist : List CStat),
        (∀ d ∈ clist, ∃ c ∈ st.clients, core c = core d) →
        (∀ d, c = some d → (∃ c0 ∈ st.clients, d = setBackupList w' c0) ∧ ∀ b', b = some b' → b' ∈ d.bus) →
        (∀ m o, ((send w' st.peer clist c b lf br).bind fun l => .ok (Msg.clients l) []) = .ok m o →
          ∀ i ∈ m.infos, i.backups ≠ [] → ∃ cc, MayWatch sv w i.name cc) ∧
        (∀ p ∈ ((send w' st.peer clist c b lf br).bind fun l => (.ok (Msg.clients l) [] : Made Msg)).opened,
          ∃ n cc d l b, MayWatch sv w n cc ∧ cc.dir = some d ∧ w'.backups d = some l ∧ b ∈ l ∧ Readable b p) := by
      intro c b lf br clist h1 h2
      obtain ⟨m1, m2⟩ := main c b lf br clist h1 h2
      constructor
      · intro m o h
        obtain ⟨l, o1, _, e, e2, _⟩ := bind_ok h
        injection e2 with e2 _
        subst e2
        exact m1 l o1 e
      · intro p hp
        rcases bind_opened hp with hp | ⟨_, _, _, hp⟩
        · exact m2 p hp
        · cases hp
    have warn : ∀ t : Str, (∀ m o, (Made.ok (Msg.warning t) [] : Made Msg) = .ok m o →
        ∀ i ∈ m.infos, i.backups ≠ [] → ∃ cc, MayWatch sv w i.name cc) ∧
        (∀ p ∈ (Made.ok (Msg.warning t) [] : Made Msg).opened, ∃ n cc d l b, MayWatch sv w n cc ∧ cc.dir = some d ∧
        w'.backups d = some l ∧ b ∈ l ∧ Readable b p) := by
      intro t
      constructor
      · intro m o h i hi
        injection h with h _
        subst h
        cases hi
      · intro p hp; cases hp
    have mid : ∀ (c : Option CStat) (b : Option Bu) (clist : List CStat),
        (∀ d ∈ clist, ∃ c ∈ st.clients, core c = core d) →
        (∀ d, c = some d → (∃ c0 ∈ st.clients, d = setBackupList w' c0) ∧ ∀ b', b = some b' → b' ∈ d.bus) →
        ∀ (lf br : Option Str) (r : Made Msg),
        r = (match lf with
          | some f =>
            if f = bytes "manifest" ∨ f ∈ Log.all.map Log.name then
              (send w' st.peer clist c b lf br).bind fun l => .ok (.clients l) []
            else .ok (.warning (bytes "File not supported")) []
          | none => (send w' st.peer clist c b lf br).bind fun l => .ok (.clients l) []) →
        (∀ m o, r = .ok m o → ∀ i ∈ m.infos, i.backups ≠ [] → ∃ cc, MayWatch sv w i.name cc) ∧
        (∀ p ∈ r.opened, ∃ n cc d l b, MayWatch sv w n cc ∧ cc.dir = some d ∧ w'.backups d = some l ∧ b ∈ l ∧
          Readable b p) := by
      intro c b clist h1 h2 lf br r hr
      subst hr
      split
      · split
        · exact rest c b _ br clist h1 h2
        · exact warn _
      · exact rest c b _ br clist h1 h2
    have self : ∀ d ∈ st.clients, ∃ c ∈ st.clients, core c = core d := fun d hd => ⟨d, hd, rfl⟩
    unfold reply
    dsimp only
    split
    · exact mid none none st.clients self (by intro d h; cases h) _ _ _ rfl
    · next name _ =>
      split
      · exact warn _
      · next c hf =>
        have hcm := (find_named hf).1
        have cl : ∀ d ∈ mapFirst (fun c => decide (c.name = name)) (setBackupList w') st.clients,
            ∃ c ∈ st.clients, core c = core d := by
          intro d hd
          exact core_mem (mapFirst_core (core_setBackupList w') st.clients) hd
        split
        · exact mid (some _) none _ cl (by intro d h; injection h with h; subst h; exact ⟨⟨c, hcm, rfl⟩, by intro b h; cases h⟩) _ _ _ rfl
        · split
          · exact warn _
          · split
            · exact warn _
            · next b hfb =>
              refine mid (some _) (some b) _ cl ?_ _ _ _ rfl
              intro d h
              injection h with h
              subst h
              refine ⟨⟨c, hcm, rfl⟩, ?_⟩
              intro b' h
              injection h with h
              subst h
              exact List.mem_of_find?_eq_some hfb
  obtain ⟨f1, f2⟩ := fin (parseReq s)
  constructor
  · intro st' msgs opened h m hm i hi hne
    simp only [step, request] at h
    split at h
    · split at h
      · cases h
      · injection h with _ h _
        subst h
        exfalso
        split at hm
        · simp only [List.mem_cons, List.not_mem_nil, or_false] at hm
          rcases hm with rfl | rfl | rfl <;> cases hi
        · rw [List.mem_singleton] at hm
          subst hm
          cases hi
    · split at h
      · next m' o hro =>
        injection h with _ h _
        subst h
        refine f1 m' o hro i ?_ hne
        split at hm
        · simp only [List.mem_cons, List.not_mem_nil, or_false] at hm
          rcases hm with rfl | rfl | rfl
          · cases hi
          · exact hi
          · cases hi
        · rw [List.mem_singleton] at hm
          subst hm
          exact hi
      · cases h
      · cases h
  · intro opened h p hp
    refine f2 p ?_
    simp only [step, request] at h
    split at h
    · exfalso
      split at h
      · rcases h with h | ⟨_, _, h⟩
        · injection h with h; subst h; cases hp
        · cases h
      · rcases h with h | ⟨_, _, h⟩
        · cases h
        · injection h with _ _ h; subst h; cases hp
    · split at h
      · next hro =>
        rcases h with h | ⟨_, _, h⟩
        · cases h
        · injection h with _ _ h; subst h; rw [hro]; exact hp
      · next hro =>
        rcases h with h | ⟨_, _, h⟩
        · injection h with h; subst h; rw [hro]; exact hp
        · cases h
      · rcases h with h | ⟨_, _, h⟩ <;> cases h

/-! ### One client -/

/-- A request for a client by its name. -/
theorem named_step {sv : Server} {st : State} {n : Str} (hn : n ≠ []) (hc : colon ∉ n) (w' : World) :
    (n ∉ names st.clients → ∃ st' msgs, step sv st (.ask w' (bytes "c:" ++ n)) = .goesOn st' msgs [] ∧
      msgs.filter Msg.plain = [.warning ((bytes "Could not find client: " ++ n).take 255)]) ∧
    (∀ c, st.clients.find? (fun c => decide (c.name = n)) = some c → v218 < st.peer →
      ∃ st' msgs i, step sv st (.ask w' (bytes "c:" ++ n)) = .goesOn st' msgs [] ∧
        msgs.filter Msg.plain = [.clients [i]] ∧ i.name = c.name ∧ i.labels = c.labels ∧
        i.backups.map (fun b => (b.bno, b.timestamp, b.flags)) =
          (setBackupList w' c).bus.map (fun b => (b.bno, b.timestamp, Monitor.flags b))) := by
  have hq := (C79_request hn hc (k := [1]) (by decide) (by decide) (f := [1]) (by decide) (by decide) []).2.1
  constructor
  · intro h
    have hf : st.clients.find? (fun c => decide (c.name = n)) = none := by
      rw [List.find?_eq_none]
      intro c hcm e
      exact h (List.mem_map.mpr ⟨c, hcm, by simpa using e⟩)
    simp only [step, request, hq, reply, hf]
    refine ⟨_, _, rfl, ?_⟩
    split <;> rfl
  · intro c hf hp
    obtain ⟨i, hi⟩ := showClient_recent w' hp (setBackupList w' c) (setBackupList w' c).bus
    obtain ⟨h1, h2, h3⟩ := showClient_ok hi
    simp only [step, request, hq, reply, hf, send, hi, Made.bind, Option.isSome_none, Bool.false_eq_true, if_false]
    refine ⟨_, _, i, rfl, ?_, ?_, ?_, h3⟩
    · split <;> rfl
    · rw [h1, core_name (core_setBackupList w' c)]
    · rw [h2, core_labels (core_setBackupList w' c)]

/-- **C79.** Asked for a client by its name, the server shows all of its backups, the newest first, if the monitor
may watch it; no backup if it may not; and says so if there is no such client. (For peers later than 2.1.8.) -/
theorem C79_named {sv : Server} {es : List Event} {w : World} {peer : Int} {st : State}
    (hh : Honest (disks es)) (hw : LastDisk es w) (hr : runs sv (start peer) es = some st) (hp : v218 < st.peer)
    {n : Str} (hn : n ≠ []) (hc : colon ∉ n) (w' : World) :
    (∀ cc d, MayWatch sv w n cc → cc.dir = some d →
      ∃ st' msgs i, step sv st (.ask w' (bytes "c:" ++ n)) = .goesOn st' msgs [] ∧
        msgs.filter Msg.plain = [.clients [i]] ∧ i.name = n ∧ i.labels = cc.labels ∧
        i.backups.map (fun b => (b.bno, b.timestamp, b.flags)) =
          (((w'.backups d).getD []).map (fun b => (b.bno, b.timestamp, Monitor.flags b))).reverse) ∧
    ((¬ ∃ cc, MayWatch sv w n cc) → ValidName n → w.conf n ≠ none →
      ∃ st' msgs i, step sv st (.ask w' (bytes "c:" ++ n)) = .goesOn st' msgs [] ∧
        msgs.filter Msg.plain = [.clients [i]] ∧ i.backups = []) ∧
    (¬ ValidName n ∨ w.conf n = none →
      ∃ st' msgs, step sv st (.ask w' (bytes "c:" ++ n)) = .goesOn st' msgs [] ∧
        msgs.filter Msg.plain = [.warning ((bytes "Could not find client: " ++ n).take 255)]) := by
  obtain ⟨s1, s2, s3, s4⟩ := history hh hw hr
  obtain ⟨n1, n2⟩ := named_step (sv := sv) (st := st) hn hc w'
  refine ⟨?_, ?_, ?_⟩
  · intro cc d hm hd
    have hm' := hm
    obtain ⟨⟨hv, t, text, hcf, hl⟩, hs⟩ := hm'
    obtain ⟨c, hf⟩ := find_of_mem (s4 n hv (by rw [hcf]; simp))
    obtain ⟨hcm, rfl⟩ := find_named hf
    obtain ⟨k1, k2, k3⟩ := current_mayWatch (s3 c hcm) hm
    obtain ⟨st', msgs, i, h1, h2, h3, h4, h5⟩ := n2 c hf hp
    refine ⟨st', msgs, i, h1, h2, h3, h4.trans k2, ?_⟩
    rw [hd] at k3
    injection k3 with k3
    rw [h5, k3]
    unfold setBackupList
    rw [k1, if_pos rfl, List.map_reverse]
  · intro hno hv hcf
    obtain ⟨c, hf⟩ := find_of_mem (s4 n hv hcf)
    obtain ⟨hcm, rfl⟩ := find_named hf
    obtain ⟨st', msgs, i, h1, h2, h3, h4, h5⟩ := n2 c hf hp
    refine ⟨st', msgs, i, h1, h2, ?_⟩
    have : c.permitted = false := by
      cases hpm : c.permitted with
      | false => rfl
      | true =>
        obtain ⟨cc, a, _⟩ := current_permitted hv (s3 c hcm) hpm
        exact absurd ⟨cc, a⟩ hno
    unfold setBackupList at h5
    rw [this, if_neg Bool.false_ne_true] at h5
    simpa using h5
  · intro hor
    refine n1 ?_
    intro hm
    rcases hor with hor | hor
    · exact hor (s2 n hm)
    · obtain ⟨c, hcm, rfl⟩ := List.mem_map.mp hm
      obtain ⟨text, h, _⟩ := s3 c hcm
      rw [hor] at h
      cases h

/-- **C79.** Asked for a log of a backup of a client that the monitor may watch, the server shows the lines of that
log, of the newest backup with that number. (For peers later than 2.1.8.) -/
theorem C79_log {sv : Server} {es : List Event} {w : World} {peer : Int} {st : State}
    (hh : Honest (disks es)) (hw : LastDisk es w) (hr : runs sv (start peer) es = some st) (hp : v218 < st.peer)
    {n : Str} (hn : n ≠ []) (hc : colon ∉ n) {cc : ClientConf} {d : Str} (hm : MayWatch sv w n cc)
    (hd : cc.dir = some d) (w' : World) {l : List Bu} (hl : w'.backups d = some l)
    {k : Str} (hk : k ≠ []) (hkc : colon ∉ k) {no : Nat} (hno : (Cntr.strtoull k).toNat = no) (h0 : no ≠ 0)
    {b : Bu} (hb : l.reverse.find? (fun b => decide (b.bno = no)) = some b) (hbp : b.path ≠ [])
    {g : Log} (hg : g ∈ b.logs) {lines : List Str}
    (hf : w'.file (b.path ++ [slash] ++ g.file) = some lines) :
    ∃ st' msgs i j, step sv st (.ask w' (bytes "c:" ++ n ++ bytes ":b:" ++ k ++ bytes ":l:" ++ g.name))
        = .goesOn st' msgs [b.path ++ [slash] ++ g.file] ∧
      msgs.filter Msg.plain = [.clients [i]] ∧ i.name = n ∧ i.backups = [j] ∧ j.bno = no ∧ j.lines = some lines := by
  obtain ⟨s1, s2, s3, s4⟩ := history hh hw hr
  have hm' := hm
  obtain ⟨⟨hv, t, text, hcf, hld⟩, hs⟩ := hm'
  obtain ⟨c, hfc⟩ := find_of_mem (s4 n hv (by rw [hcf]; simp))
  obtain ⟨hcm, rfl⟩ := find_named hfc
  obtain ⟨k1, k2, k3⟩ := current_mayWatch (s3 c hcm) hm
  rw [hd] at k3
  injection k3 with k3
  subst k3
  have hq := (C79_request hn hc hk hkc (f := g.name) (by cases g <;> decide) (by cases g <;> decide) []).2.2.2.1
  have hbus : (setBackupList w' c).bus = l.reverse := by
    unfold setBackupList
    rw [k1, if_pos rfl]
    show ((w'.backups c.dir).getD []).reverse = _
    rw [hl]
    rfl
  have hname : g.name ∈ Log.all.map Log.name := by cases g <;> decide
  have hbl : b.logs ≠ [] := by intro e; rw [e] at hg; cases hg
  have hfind : Log.all.find? (fun g' => b.logs.contains g' && decide (g.name = g'.name)) = some g := by
    have inj : ∀ x y : Log, x.name = y.name → x = y := by
      intro x y
      cases x <;> cases y <;> decide
    have e : (fun g' => b.logs.contains g' && decide (g.name = g'.name)) = (fun g' => decide (g' = g)) := by
      funext g'
      by_cases h : g' = g
      · subst h; simpa using hg
      · have : g.name ≠ g'.name := fun q => h (inj _ _ q).symm
        simp [this, h]
    rw [e]
    cases g <;> rfl
  have hpath : Prepend.prependS (some b.path) g.file = b.path ++ [slash] ++ g.file := by
    rw [logPath hbp]; simp
  have hb' : (setBackupList w' c).bus.find? (fun b => decide (b.bno = no)) = some b := by rw [hbus]; exact hb
  have hbno : b.bno = no := by simpa using List.find?_some hb
  have hdec : decide (st.peer ≤ v218) = false := by simpa using hp
  have hsb : showBackup w' st.peer (setBackupList w' c) (some g.name) none b =
      .ok ⟨b.bno, b.timestamp, Monitor.flags b, none, (Log.all.filter (fun g => b.logs.contains g)).map Log.name,
        some lines, none⟩ [b.path ++ [slash] ++ g.file] := by
    unfold showBackup showCounters
    rw [hdec, Bool.and_false, if_neg Bool.false_ne_true]
    simp only [Made.bind, if_neg hbl, showLog, hfind, openLog, hpath, hf, showDir]
    simp
  have hsend : ∀ clist, send w' st.peer clist (some (setBackupList w' c)) (some b) (some g.name) none =
      .ok [info st.peer (setBackupList w' c) [⟨b.bno, b.timestamp, Monitor.flags b, none,
        (Log.all.filter (fun g => b.logs.contains g)).map Log.name, some lines, none⟩]] [b.path ++ [slash] ++ g.file] := by
    intro clist
    simp only [send, showClient, List.map_cons, List.map_nil, Made.all, hsb, Made.bind]
    simp
  simp only [step, request, hq, reply, hfc, hno, if_neg h0, hb', Option.isSome_none, Bool.false_eq_true, if_false,
    hname, or_true, if_true, Option.map_none, hsend, Made.bind]
  refine ⟨_, _, info st.peer (setBackupList w' c) [⟨b.bno, b.timestamp, Monitor.flags b, none,
        (Log.all.filter (fun g => b.logs.contains g)).map Log.name, some lines, none⟩],
    ⟨b.bno, b.timestamp, Monitor.flags b, none, (Log.all.filter (fun g => b.logs.contains g)).map Log.name,
      some lines, none⟩, by simp only [List.append_nil]; rfl, ?_, ?_, rfl, hbno, rfl⟩
  · split <;> rfl
  · exact core_name (core_setBackupList w' c)

end Verif
