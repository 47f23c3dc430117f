import Verif.Spec.EndToEnd
import Verif.Props.Phase1Order
import Verif.Lemmas.Merge

/-!
# The list, and the entries of the second phase
-/

namespace Verif.EndToEnd
open Verif.Attribs Verif.Phase1 Verif.Phase2 Verif.Strlist Verif.Session Verif.Incexc Verif.Find

/-- The entry that the second phase reads for something that was told. -/
def entFor (cmd : Cmd) (a : Attr) (p : Str) (l : Option Str) : Ent :=
  { cmd := cmd
    path := some p
    link := l
    dev := a.dev.toNat
    ino := a.ino.toNat
    mtime := a.mtime
    ctime := a.ctime
    size := a.size
    compression := a.compression
    encryption := a.encryption.toNat
    salt := a.salt.toNat }

def evEnt : Ev → Option Ent
  | .entry cmd a p l => some (entFor cmd a p l)
  | .warn _ _ => none

theorem decode_encode {a : Attr} (h : a.InRange) : decode blank ((encode a).getD []) = some a := by
  obtain ⟨t, e, _, hd⟩ := C02_attribs_roundtrip a blank h
  rw [e]
  exact hd

theorem entOf_listed {cmd : Cmd} {a : Attr} {p : Str} {l : Option Str} (h : a.InRange) :
    ((Ev.entry cmd a p l).listed.map Entry.toSbuf).bind entOf = some (entFor cmd a p l) := by
  cases l with
  | none =>
    show entOf { attr := some ((encode a).getD []), path := some ⟨cmd.toByte, p⟩ } = _
    unfold entOf
    dsimp only
    rw [Option.bind_some, decode_encode h]
    dsimp only
    rw [Iobuf.ofByte_toByte]
    rfl
  | some t =>
    show entOf { attr := some ((encode a).getD []), path := some ⟨cmd.toByte, p⟩, link := some ⟨cmd.toByte, t⟩ } = _
    unfold entOf
    dsimp only
    rw [Option.bind_some, decode_encode h]
    dsimp only
    rw [Iobuf.ofByte_toByte]
    rfl

theorem scanned_listed (out : List Ev) (h : ∀ cmd a p l, Ev.entry cmd a p l ∈ out → a.InRange) :
    ((out.filterMap Ev.listed).map Entry.toSbuf).filterMap entOf = out.filterMap evEnt := by
  induction out with
  | nil => rfl
  | cons e es ih =>
    have ih := ih (fun cmd a p l hm => h cmd a p l (List.mem_cons_of_mem _ hm))
    cases e with
    | warn pr p => exact ih
    | entry cmd a p l =>
      have h1 := entOf_listed (cmd := cmd) (p := p) (l := l) (h cmd a p l (List.mem_cons_self ..))
      cases hx : (Ev.entry cmd a p l).listed with
      | none => cases l <;> cases hx
      | some x =>
        rw [hx] at h1
        rw [List.filterMap_cons, hx]
        dsimp only
        rw [List.map_cons, List.filterMap_cons, show entOf x.toSbuf = some (entFor cmd a p l) from h1, ih]
        rfl

theorem keys_ent (out : List Ev) : (out.filterMap evEnt).map entKey = out.filterMap Ev.key := by
  induction out with
  | nil => rfl
  | cons e es ih =>
    cases e with
    | warn pr p => exact ih
    | entry cmd a p l =>
      show entKey _ :: (es.filterMap evEnt).map entKey = _ :: es.filterMap Ev.key
      rw [ih]
      rfl

/-- The entry for metadata has the attributes of the one before it. -/
theorem told_attr {c : Cfg} {w : World} {out : List Ev} (h : Told c w out) :
    ∀ cmd a p l, Ev.entry cmd a p l ∈ out → ∃ cmd' l', Ev.entry cmd' a p l' ∈ out ∧ Main (.entry cmd' a p l') := by
  induction h with
  | nil => intro _ _ _ _ h; cases h
  | warn _ ih =>
    intro cmd a p l hm
    rcases List.mem_cons.mp hm with h | hm
    · cases h
    · obtain ⟨c', l', h1, h2⟩ := ih cmd a p l hm
      exact ⟨c', l', List.mem_cons_of_mem _ h1, h2⟩
  | plain hM _ _ ih =>
    intro cmd a p l hm
    rcases List.mem_cons.mp hm with h | hm
    · cases h
      exact ⟨_, _, List.mem_cons_self .., hM⟩
    · obtain ⟨c', l', h1, h2⟩ := ih cmd a p l hm
      exact ⟨c', l', List.mem_cons_of_mem _ h1, h2⟩
  | withMeta hM _ _ ih =>
    intro cmd a p l hm
    rcases List.mem_cons.mp hm with h | hm
    · cases h
      exact ⟨_, _, List.mem_cons_self .., hM⟩
    · rcases List.mem_cons.mp hm with h | hm
      · cases h
        exact ⟨_, _, List.mem_cons_self .., hM⟩
      · obtain ⟨c', l', h1, h2⟩ := ih cmd a p l hm
        exact ⟨c', l', List.mem_cons_of_mem _ (List.mem_cons_of_mem _ h1), h2⟩

theorem described_range {c : Cfg} {a : Attr} {n : Nat} (h : a.InRange) (hn : n < 10) : (Described c a n).InRange :=
  sentAttr_range (c := c) h hn

theorem comp_small {c : Cfg} {p : Str} (h : c.compression < 10) : inExcludeComp c.excom p c.compression < 10 :=
  Nat.lt_of_le_of_lt (comp_le c p .reg) h

theorem shown_attr {c : Cfg} {w : World} {p : Str} {a a' : Attr} {cmd : Cmd} {l : Option Str}
    (h : Shown c w p a cmd l a') (hc : c.compression < 10) :
    ∃ n, n < 10 ∧ (a' = Described c a n ∨ a' = Described c (Seen c p a) n) := by
  cases h with
  | file _ => exact ⟨_, comp_small hc, Or.inl rfl⟩
  | dir _ => exact ⟨_, hc, Or.inl rfl⟩
  | symlink _ _ _ => exact ⟨_, hc, Or.inl rfl⟩
  | device _ _ => exact ⟨_, comp_small hc, Or.inr rfl⟩
  | read _ => exact ⟨_, comp_small hc, Or.inl rfl⟩
  | special _ _ _ _ => exact ⟨_, hc, Or.inl rfl⟩

theorem seen_same (c : Cfg) (p : Str) (a : Attr) : (Seen c p a).dev = a.dev ∧ (Seen c p a).ino = a.ino ∧
    (Seen c p a).mtime = a.mtime ∧ (Seen c p a).ctime = a.ctime ∧ (Seen c p a).size = a.size ∧
    (Seen c p a).nlink = a.nlink := by
  unfold Seen
  split <;> exact ⟨rfl, rfl, rfl, rfl, rfl, rfl⟩

/-- The attributes of something right are those of the file. -/
theorem right_attr {c : Cfg} {w : World} {starts : List Elem} {pre : List Ev} {cmd : Cmd} {a : Attr} {p : Str}
    {l : Option Str} (h : Right c w starts pre cmd a p l) (hs : Sayable c w starts) :
    a.InRange ∧ ∃ a0, w.lstat p = some a0 ∧ a.dev = a0.dev ∧ a.ino = a0.ino ∧ a.mtime = a0.mtime ∧
      a.ctime = a0.ctime ∧ a.size = a0.size ∧ a.nlink = a0.nlink := by
  obtain ⟨par, top, a0, hr, hl, _, h⟩ := h
  have hin := hs.attr p a0 hl
  have hse := seen_range (c := c) (f := p) hin
  obtain ⟨s1, s2, s3, s4, s5, s6⟩ := seen_same c p a0
  rcases h with ⟨h, _⟩ | ⟨_, rfl, _⟩
  · obtain ⟨n, hn, rfl | rfl⟩ := shown_attr h hs.compression
    · exact ⟨described_range hin hn, a0, hl, rfl, rfl, rfl, rfl, rfl, rfl⟩
    · exact ⟨described_range hse hn, a0, hl, s1, s2, s3, s4, s5, s6⟩
  · exact ⟨described_range hse hs.compression, a0, hl, s1, s2, s3, s4, s5, s6⟩

/-- What is told of the files of a good day. -/
theorem day_right {d : Day} (hd : d.Good) {pre post : List Ev} {cmd : Cmd} {a : Attr} {p : Str} {l : Option Str}
    (h : d.told.out = pre ++ .entry cmd a p l :: post) (hm : Main (.entry cmd a p l)) :
    Right d.c d.w d.starts pre cmd a p l :=
  C95_entries_partial d.c d.w d.fuel d.starts hd.present hd.sayable.attr h hm

theorem day_range {d : Day} (hd : d.Good) {cmd : Cmd} {a : Attr} {p : Str} {l : Option Str}
    (h : Ev.entry cmd a p l ∈ d.told.out) : a.InRange := by
  obtain ⟨cmd', l', h1, h2⟩ := told_attr (C95_metadata d.c d.w d.fuel d.starts) cmd a p l h
  obtain ⟨pre, post, e⟩ := List.append_of_mem h1
  exact (right_attr (day_right hd e h2) hd.sayable).1

theorem day_list {d : Day} (hd : d.Good) {l : List Ent} (h : d.list = some l) :
    d.told.ret = .ok ∧ l = d.told.out.filterMap evEnt := by
  have hret : d.told.ret = .ok ∧ (d.fow = true → ∀ pr p, Ev.warn pr p ∉ d.told.out) := by
    have hno := C95_no_list d.c d.w d.fuel d.starts hd.sayable d.text d.fow (List.prefix_refl _)
    have hsome : server d.fow false Sbuf.empty [] (conversation d.text d.told) ≠ none := by
      intro e
      unfold Day.list at h
      rw [e] at h
      cases h
    constructor
    · by_cases e : d.told.ret = .ok
      · exact e
      · exact absurd (hno (Or.inl e)) hsome
    · intro hf pr p hw
      exact hsome (hno (Or.inr (Or.inr ⟨hf, pr, p, hw⟩)))
  refine ⟨hret.1, ?_⟩
  obtain ⟨f, hf, hr⟩ := C95_list d.c d.w d.fuel d.starts hd.sayable d.text d.fow hret.1 hret.2
  unfold Day.list at h
  rw [show server d.fow false Sbuf.empty [] (conversation d.text d.told) = some f from hf] at h
  have h := Option.some.inj h
  rw [← h]
  unfold scanned
  rw [hr]
  exact scanned_listed _ (fun cmd a p l hm => day_range hd hm)

theorem day_sorted {d : Day} (hd : d.Good) {l : List Ent} (h : d.list = some l) : SortedBy entKey l := by
  have h1 := C95_ordered_partial d.includes d.excludes _ d.starts d.c d.w d.t d.depth d.fuel hd.lines hd.configured rfl
    hd.tree hd.nested hd.fuel hd.present hd.accepted hd.agrees
  rw [(day_list hd h).2]
  have h2 : ((d.told.out.filterMap evEnt).map entKey).Pairwise EntryLt := by
    rw [keys_ent]
    exact h1
  exact List.pairwise_map.mp h2

theorem day_mem {d : Day} (hd : d.Good) {l : List Ent} (h : d.list = some l) {p : Ent} (hp : p ∈ l) :
    ∃ cmd a path link, Ev.entry cmd a path link ∈ d.told.out ∧ p = entFor cmd a path link := by
  rw [(day_list hd h).2] at hp
  obtain ⟨e, he, hx⟩ := List.mem_filterMap.mp hp
  cases e with
  | warn _ _ => cases hx
  | entry cmd a path link =>
    cases hx
    exact ⟨cmd, a, path, link, he, rfl⟩

theorem main_group {c : Cfg} {w : World} {starts : List Elem} {pre : List Ev} {cmd : Cmd} {a : Attr} {p : Str}
    {l : Option Str} (h : Right c w starts pre cmd a p l) : group cmd = 1 := by
  obtain ⟨_, _, _, _, _, _, ⟨h, _⟩ | ⟨rfl, _⟩⟩ := h
  · cases h with
    | file _ => cases c.encrypted <;> rfl
    | dir _ => rfl
    | symlink _ _ _ => rfl
    | device _ _ => cases c.encrypted <;> rfl
    | read _ => cases c.encrypted <;> rfl
    | special _ _ _ _ => rfl
  · rfl

theorem day_group {d : Day} (hd : d.Good) {l : List Ent} (h : d.list = some l) {p : Ent} (hp : p ∈ l) :
    group p.cmd ≠ 3 := by
  obtain ⟨cmd, a, path, link, hm, rfl⟩ := day_mem hd h hp
  show group cmd ≠ 3
  by_cases hM : Main (.entry cmd a path link)
  · obtain ⟨pre, post, e⟩ := List.append_of_mem hm
    rw [main_group (day_right hd e hM)]
    decide
  · have : cmd = .metadata ∨ cmd = .encMetadata := by
      by_cases h1 : cmd = .metadata
      · exact Or.inl h1
      · by_cases h2 : cmd = .encMetadata
        · exact Or.inr h2
        · exact absurd ⟨h1, h2⟩ hM
    rcases this with rfl | rfl <;> decide

theorem noClash_of {l : List Ent} (h : ∀ p ∈ l, group p.cmd ≠ 3) : NoClash entKey l := by
  intro a ha b hb hc
  rcases hc.2 with ⟨_, h3⟩ | ⟨h3, _⟩
  · exact h b hb h3
  · exact h a ha h3

theorem same_key_eq {l : List Ent} (h : SortedBy entKey l) {a b : Ent} (ha : a ∈ l) (hb : b ∈ l)
    (hk : entKey a = entKey b) : a = b := by
  induction l with
  | nil => cases ha
  | cons x xs ih =>
    obtain ⟨h1, h2⟩ := List.pairwise_cons.mp h
    rcases List.mem_cons.mp ha with ea | ha'
    · rcases List.mem_cons.mp hb with eb | hb'
      · rw [ea, eb]
      · have := h1 b hb'
        rw [← ea, hk] at this
        exact absurd this EntryLt.irrefl
    · rcases List.mem_cons.mp hb with eb | hb'
      · have := h1 a ha'
        rw [← eb, hk] at this
        exact absurd this EntryLt.irrefl
      · exact ih h2 ha' hb'

end Verif.EndToEnd
