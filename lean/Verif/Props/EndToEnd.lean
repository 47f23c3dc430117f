import Verif.Lemmas.EndToEnd
import Verif.Props.Session

/-!
# C97: from the file system to what is restored
-/

namespace Verif
open EndToEnd Phase1 Phase2 Session Manifest History Attribs Incexc

variable {C D S P : Type}

/-- C97: what the second phase of a backup reads is what it needs: in order, each place once, without data paths, and
without kinds of entries that get in each other's way. -/
theorem C97_scan_partial (d : Day) (hd : d.Good) (l : List Ent) (h : d.list = some l) :
    SortedBy entKey l ∧ (∀ p ∈ l, p.datapth = none) ∧ NoClash entKey l := by
  refine ⟨day_sorted hd h, ?_, noClash_of (fun p hp => day_group hd h hp)⟩
  intro p hp
  obtain ⟨cmd, a, path, link, _, rfl⟩ := day_mem hd h hp
  rfl

/-- C97: the list has an entry for every file that is wanted and that the other settings let through, and the entry says
what the file is; but for symbolic links that cannot be read. -/
theorem C97_listed_partial (d : Day) (hd : d.Good) (l : List Ent) (h : d.list = some l) (q : List Str) (a : Attr)
    (hq : d.Wants q) (ha : d.w.lstat (renderPath q) = some a)
    (hl : ∀ top, LetThrough d.c (renderPath q) (Seen d.c (renderPath q) a) top) :
    (kindOf a.mode = some .lnk ∧ d.w.readlink (renderPath q) = none) ∨
    ∃ p ∈ l, group p.cmd = 1 ∧ Describes d l (renderPath q) a p := by
  obtain ⟨hok, rfl⟩ := day_list hd h
  rcases (C95_wanted_partial d.includes d.excludes _ d.starts d.c d.w d.t d.depth d.fuel hd.lines hd.configured rfl
    hd.tree hd.nested hd.fuel hd.present hd.accepted hd.agrees hd.noMore hok).1 q a hq.1 hq.2 ha hl with
    ⟨e, he, hM, hpath⟩ | ⟨_, h1, h2⟩
  · right
    cases e with
    | warn _ _ => exact absurd hM (fun h => h)
    | entry cmd a' path link =>
      have hpath : path = renderPath q := hpath
      rw [← hpath] at ha ⊢
      have he : Ev.entry cmd a' path link ∈ d.told.out := he
      obtain ⟨pre, post, e⟩ := List.append_of_mem he
      have hright := day_right hd e hM
      obtain ⟨hin, a0, h0, r1, r2, r3, r4, r5, r6⟩ := right_attr hright hd.sayable
      rw [ha] at h0
      obtain rfl := Option.some.inj h0
      have n1 : ((a'.dev.toNat : Nat) : Int) = a.dev := by
        have := hin.dev.1
        omega
      have n2 : ((a'.ino.toNat : Nat) : Int) = a.ino := by
        have := hin.ino.1
        omega
      refine ⟨entFor cmd a' path link, List.mem_filterMap.mpr ⟨_, he, rfl⟩, main_group hright, rfl, n1, n2, r3, r4, r5, ?_⟩
      obtain ⟨par, top, a1, _, h1, _, hx⟩ := hright
      rw [ha] at h1
      obtain rfl := Option.some.inj h1
      rcases hx with ⟨hs, _⟩ | ⟨rfl, hdes, hsh, t, rfl, hne, e0, he0, b, ⟨cmd0, l0, rfl, hM0, hn0⟩, _, hsame⟩
      · exact Or.inl ⟨a', hs⟩
      · right
        refine ⟨rfl, by rw [← r6]; exact hsh.1, t, entFor cmd0 b t l0, rfl, hne, ?_, rfl, ?_, hn0, ?_, ?_⟩
        · refine List.mem_filterMap.mpr ⟨.entry cmd0 b t l0, ?_, rfl⟩
          show Ev.entry cmd0 b t l0 ∈ d.told.out
          rw [e]
          exact List.mem_append_left _ he0
        · have hmem : Ev.entry cmd0 b t l0 ∈ d.told.out := by
            rw [e]
            exact List.mem_append_left _ he0
          obtain ⟨pre', post', e'⟩ := List.append_of_mem hmem
          exact main_group (day_right hd e' hM0)
        · show b.dev.toNat = a'.dev.toNat
          rw [hsame.1]
        · show b.ino.toNat = a'.ino.toNat
          rw [hsame.2]
  · exact Or.inl ⟨h1, h2⟩

/-- C97: what the second phase reads says how the data are to be stored: encrypted if there is a password, and with the
configured compression, or none for endings that are not to be compressed. -/
theorem C97_storage_partial (d : Day) (hd : d.Good) (l : List Ent) (h : d.list = some l) (p : Ent) (hp : p ∈ l) :
    p.encryption = (if d.c.encrypted then 2 else 0) ∧ p.salt = 0 ∧ p.endfile = none ∧
      (p.compression = d.c.compression ∨
        ∃ path, p.path = some path ∧ p.compression = Find.inExcludeComp d.c.excom path d.c.compression) := by
  obtain ⟨cmd, a, path, link, hm, rfl⟩ := day_mem hd h hp
  obtain ⟨cmd', l', hm', hM⟩ := told_attr (C95_metadata d.c d.w d.fuel d.starts) cmd a path link hm
  obtain ⟨pre, post, e⟩ := List.append_of_mem hm'
  obtain ⟨_, _, a0, _, _, _, hr⟩ := day_right hd e hM
  have henc : ∀ b : Bool, (if b then (2 : Int) else 0).toNat = if b then 2 else 0 := by
    intro b
    cases b <;> rfl
  have one : ∀ (a1 : Attr) (n : Nat), a = Described d.c a1 n →
      (n = d.c.compression ∨ n = Find.inExcludeComp d.c.excom path d.c.compression) →
      (entFor cmd a path link).encryption = (if d.c.encrypted then 2 else 0) ∧ (entFor cmd a path link).salt = 0 ∧
      (entFor cmd a path link).endfile = none ∧ ((entFor cmd a path link).compression = d.c.compression ∨
        ∃ path', (entFor cmd a path link).path = some path' ∧
          (entFor cmd a path link).compression = Find.inExcludeComp d.c.excom path' d.c.compression) := by
    intro a1 n ea hn
    subst ea
    refine ⟨henc d.c.encrypted, rfl, rfl, ?_⟩
    rcases hn with rfl | rfl
    · exact Or.inl rfl
    · exact Or.inr ⟨path, rfl, rfl⟩
  rcases hr with ⟨hs, _⟩ | ⟨_, ha, _⟩
  · cases hs with
    | file _ => exact one _ _ rfl (Or.inr rfl)
    | dir _ => exact one _ _ rfl (Or.inl rfl)
    | symlink _ _ _ => exact one _ _ rfl (Or.inl rfl)
    | device _ _ => exact one _ _ rfl (Or.inr rfl)
    | read _ => exact one _ _ rfl (Or.inr rfl)
    | special _ _ _ _ => exact one _ _ rfl (Or.inl rfl)
  · exact one _ _ ha (Or.inl rfl)

/-- C97: from the file system to what is restored. In any history of backups, for a backup whose list the first phase
made on the day `d`: every file of that day that the configuration asks for and that the other settings let through is
in the backup, with what it was, and restoring its data gives its content; but for symbolic links that cannot be read,
and files that the client could not read when it was asked for them. Later backups and deletions do not change that. -/
theorem C97_restores_partial (L : Librsync C D S) (hL : L.Sound) (plain : Ent → C → P) (hpl : GoodPlain plain)
    (H : List (Made C D P)) (h : Sessions L plain H) (older newer : List (Made C D P)) (x : Made C D P)
    (hH : H = older ++ x :: newer) (d : Day) (hd : d.Good) (hx : d.list = some x.visit.scan) (q : List Str) (a : Attr)
    (hq : d.Wants q) (ha : d.w.lstat (renderPath q) = some a)
    (hl : ∀ top, LetThrough d.c (renderPath q) (Seen d.c (renderPath q) a) top) :
    (kindOf a.mode = some .lnk ∧ d.w.readlink (renderPath q) = none) ∨
    ∃ p ∈ x.visit.scan, group p.cmd = 1 ∧ Describes d x.visit.scan (renderPath q) a p ∧
      ((p.cmd ∈ dataKinds ∧ x.visit.ans p = none) ∨
       ∃ e ∈ x.entries, Kept x.visit p e ∧ (e.cmd ∈ dataKinds → ∃ dp c, e.datapth = some dp ∧
         restoreFile L (x.b :: newer.map Made.b) dp = .content c ∧ plain e c = x.visit.file (p.cmd, some (renderPath q)))) := by
  rcases C97_listed_partial d hd _ hx q a hq ha hl with hlnk | ⟨p, hp, hg, hdes⟩
  · exact Or.inl hlnk
  · right
    refine ⟨p, hp, hg, hdes, ?_⟩
    have hxm : x ∈ H := by
      rw [hH]
      exact List.mem_append_right _ (List.mem_cons_self ..)
    rcases C69_nothing_missing L hL plain hpl H h x hxm p hp with ⟨e, he, hk⟩ | hn
    · right
      obtain ⟨⟨p', hp', hk', hat⟩, hdata⟩ := C69_restores_what_was_there L hL plain hpl H h older newer x hH e he
      have hpp : p' = p := by
        have hs := (C97_scan_partial d hd _ hx).1
        refine same_key_eq hs hp' hp ?_
        rw [← hk', hk]
      subst hpp
      refine ⟨e, he, ⟨hk, hat⟩, ?_⟩
      have : entKey e = (p'.cmd, some (renderPath q)) := by
        rw [hk]
        show (p'.cmd, p'.path) = _
        rw [hdes.1]
      rw [this] at hdata
      exact hdata
    · exact Or.inl hn

/-- C97: and nothing else is in it: every entry of the backup is for a file of that day that the configuration asks
for. -/
theorem C97_nothing_else_partial (L : Librsync C D S) (hL : L.Sound) (plain : Ent → C → P) (hpl : GoodPlain plain)
    (H : List (Made C D P)) (h : Sessions L plain H) (x : Made C D P) (hx : x ∈ H) (d : Day) (hd : d.Good)
    (hs : d.list = some x.visit.scan) (e : Ent) (he : e ∈ x.entries) :
    ∃ q, e.path = some (renderPath q) ∧ d.Wants q := by
  obtain ⟨older, newer, hH⟩ := List.append_of_mem hx
  obtain ⟨⟨p, hp, hk, _⟩, _⟩ := C69_restores_what_was_there L hL plain hpl H h older newer x hH e he
  obtain ⟨cmd, a, path, link, hm, rfl⟩ := day_mem hd hs hp
  obtain ⟨cmd', l', hm', hM⟩ := told_attr (C95_metadata d.c d.w d.fuel d.starts) cmd a path link hm
  obtain ⟨q, hq, ht, hw⟩ := (C95_wanted_partial d.includes d.excludes _ d.starts d.c d.w d.t d.depth d.fuel hd.lines
    hd.configured rfl hd.tree hd.nested hd.fuel hd.present hd.accepted hd.agrees hd.noMore (day_list hd hs).1).2 _ hm' hM
  refine ⟨q, ?_, ht, hw⟩
  have : e.path = some path := congrArg Prod.snd hk
  rw [this]
  exact congrArg some hq

/-- C97: a backup on a good day completes, in any history of backups on good days, and adds a backup to it: the client
answers with what was asked for, files do not change behind the back of their modification times, and new data paths
are new. -/
theorem C97_completes_partial (L : Librsync C D S) (hL : L.Sound) (plain : Ent → C → P) (hpl : GoodPlain plain)
    (H : List (Made C D P)) (h : Sessions L plain H) (s : Settings) (reset : Bool) (bno : Nat) (hard : Bool)
    (alloc : Ent → Str) (v : Visit C P) (d : Day) (hd : d.Good) (hv : d.list = some v.scan) (hans : Honest plain v)
    (hlast : ∀ x, H.getLast? = some x → Steady s.windows v x ∧ ∃ d' : Day, d'.Good ∧ d'.list = some x.visit.scan)
    (hal : GoodAlloc alloc v H.getLast?) (hbno : ∀ x ∈ H, x.b.bno < bno) (h0 : 0 < bno) :
    ∃ l es, session L s reset bno hard alloc v.ans v.scan (H.getLast?.map Made.entries) (H.map Made.b) =
      some (l, es) ∧ l.map Backup.bno = H.map (fun x => x.b.bno) ++ [bno] ∧
      Sessions L plain (List.zipWith (fun b m => ⟨b, m.1, m.2⟩) l
        (H.map (fun m => (m.entries, m.visit)) ++ [(es, v)])) := by
  obtain ⟨h1, h2, h3⟩ := C97_scan_partial d hd _ hv
  have ht : Truthful plain v := ⟨h1, h2, hans⟩
  have hst : ∀ x, H.getLast? = some x → Steady s.windows v x ∧ NoClash entKey (v.scan ++ x.entries) := by
    intro x hx
    obtain ⟨hst, d', hd', hv'⟩ := hlast x hx
    refine ⟨hst, noClash_of ?_⟩
    intro p hp
    rcases List.mem_append.mp hp with hp | hp
    · exact day_group hd hv hp
    · obtain ⟨older, newer, hH⟩ := List.append_of_mem (List.mem_of_getLast? hx)
      obtain ⟨⟨p', hp', hk, _⟩, _⟩ := C69_restores_what_was_there L hL plain hpl H h older newer x hH p hp
      have : p.cmd = p'.cmd := congrArg Prod.fst hk
      rw [this]
      exact day_group hd' hv' hp'
  obtain ⟨l, es, e, hb⟩ := C69_completes L hL plain hpl H h s reset bno hard alloc v ht hst h3 hal
  exact ⟨l, es, e, hb, Sessions.backup h ht hst h3 hal hbno h0 e⟩

end Verif
