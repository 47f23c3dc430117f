import Verif.Lemmas.Session
import Verif.Props.Dpth
import Mathlib.Data.List.Nodup

/-!
# Whole backups: what is restored is what the client had
-/

namespace Verif.Session
open Verif.Phase2 Verif.Manifest Verif.History Verif.Dpth

variable {C D S P : Type}

/-- C69: in any history of whole backups and deletions, every entry in the manifest of a stored backup is one that the
client's scan found at the time of that backup. It has the attributes that the scan found, or those that the
client sent with the data. If it is of a kind that has data, then a restore of it from that backup,
whatever backups have been made or deleted since, gives what the file contained at the time of that
backup. -/
theorem C69_restores_what_was_there (L : Librsync C D S) (hL : L.Sound) (plain : Ent → C → P)
    (hpl : GoodPlain plain) (H : List (Made C D P)) (h : Sessions L plain H)
    (older newer : List (Made C D P)) (x : Made C D P) (hH : H = older ++ x :: newer) (e : Ent)
    (he : e ∈ x.entries) :
    (∃ p ∈ x.visit.scan, entKey e = entKey p ∧
      (attributes e = attributes p ∨
        p.cmd ∈ dataKinds ∧ ∃ r c, x.visit.ans p = some (r, c) ∧ attributes e = attributes r)) ∧
    (e.cmd ∈ dataKinds → ∃ d c, e.datapth = some d ∧
      restoreFile L (x.b :: newer.map Made.b) d = .content c ∧ plain e c = x.visit.file (entKey e)) := by
  obtain ⟨Z, rfl, hr, hz⟩ := sessions_inv hL hpl h
  obtain ⟨Z1, Z2, rfl, rfl, h2⟩ := List.map_eq_append_iff.1 hH
  obtain ⟨z, Z3, rfl, rfl, rfl⟩ := List.map_eq_cons_iff.1 h2
  obtain ⟨hb, ⟨_, f2, f3, _⟩, hm, _⟩ := hz z (by simp)
  refine ⟨hm e he, ?_⟩
  intro hk
  cases hd : e.datapth with
  | none => exact absurd hd ((f2 e he).1 hk)
  | some d =>
    obtain ⟨hmem, c, hw, hpc⟩ := f3 e he d hd
    rw [← hb] at hmem
    obtain ⟨c', hw', hres⟩ := C24_every_entry_restores L hL _ hr (Z1.map Prod.snd) (Z3.map Prod.snd) z.2
      (by simp) _ _ hmem
    rw [hw] at hw'
    cases hw'
    refine ⟨d, c, rfl, ?_, hpc⟩
    have e1 : (Z3.map Prod.fst).map Made.b = (Z3.map Prod.snd).map Dated.b := by
      rw [List.map_map, List.map_map]
      exact List.map_congr_left (fun y hy => (hz y (by simp [hy])).1.symm)
    rw [e1, ← hb]
    exact hres

/-- C69: nothing is missing. Everything the scan found is in the manifest, except files that the client could
not read when asked for them. -/
theorem C69_nothing_missing (L : Librsync C D S) (hL : L.Sound) (plain : Ent → C → P)
    (hpl : GoodPlain plain) (H : List (Made C D P)) (h : Sessions L plain H) (x : Made C D P) (hx : x ∈ H)
    (p : Ent) (hp : p ∈ x.visit.scan) :
    (∃ e ∈ x.entries, entKey e = entKey p) ∨ p.cmd ∈ dataKinds ∧ x.visit.ans p = none := by
  obtain ⟨Z, rfl, _, hz⟩ := sessions_inv hL hpl h
  obtain ⟨z, hzz, rfl⟩ := List.mem_map.1 hx
  exact (hz z hzz).2.2.2 p hp

/-- C69: the manifests are in order, with one entry for each path and group of kinds. -/
theorem C69_manifests_in_order (L : Librsync C D S) (hL : L.Sound) (plain : Ent → C → P)
    (hpl : GoodPlain plain) (H : List (Made C D P)) (h : Sessions L plain H) (x : Made C D P) (hx : x ∈ H) :
    SortedBy entKey x.entries := by
  obtain ⟨Z, rfl, _, hz⟩ := sessions_inv hL hpl h
  obtain ⟨z, hzz, rfl⟩ := List.mem_map.1 hx
  exact (hz z hzz).2.1.1

/-- C69: a backup completes. In any history, a backup by a client that does what it should does not fail. -/
theorem C69_completes (L : Librsync C D S) (hL : L.Sound) (plain : Ent → C → P)
    (hpl : GoodPlain plain) (H : List (Made C D P)) (h : Sessions L plain H) (s : Settings) (reset : Bool)
    (bno : Nat) (hard : Bool) (alloc : Ent → Str) (v : Visit C P) (ht : Truthful plain v)
    (hst : ∀ x, H.getLast? = some x → Steady s.windows v x ∧ NoClash entKey (v.scan ++ x.entries))
    (hnc : NoClash entKey v.scan) (hal : GoodAlloc alloc v H.getLast?) :
    ∃ l es, session L s reset bno hard alloc v.ans v.scan (H.getLast?.map Made.entries) (H.map Made.b) =
      some (l, es) ∧ l.map Backup.bno = H.map (fun x => x.b.bno) ++ [bno] := by
  obtain ⟨Z, rfl, hr, hz⟩ := sessions_inv hL hpl h
  obtain ⟨⟨pfile, hx⟩, ho⟩ := session_ctx hL hpl hr hz ht hst hnc hal reset
  obtain ⟨want, harr, _⟩ := session_arrives hx ho
  obtain ⟨l, hfin, hbno⟩ := C24_backup_completes L hL _ hr _ _ harr bno hard
  have hbs : (Z.map Prod.fst).map Made.b = (Z.map Prod.snd).map Dated.b := by
    rw [List.map_map, List.map_map]
    exact List.map_congr_left (fun z hzz => (hz z hzz).1.symm)
  have hany := none_failed hx ho
  rw [← hbs] at hfin
  refine ⟨l, _, session_eq hany hfin, ?_⟩
  rw [hbno, List.map_map, List.map_map]
  congr 1
  refine List.map_congr_left (fun z hzz => ?_)
  simp only [Function.comp_apply]
  rw [(hz z hzz).1]

/-- The paths that the allocator of data paths hands out (`C19`), one for each entry of the scan in turn, are good, as long as
there are enough of them. `ls` lists the data directory of the previous backup. (The program does not take a path
for entries that do not need one.) -/
theorem C69_allocator_is_good (maxSub : Int) (ls : Str → List Str) (hls : ∀ p, ∀ s ∈ ls p, Name s)
    (d : Dpth) (hd : init maxSub ls = some d) (v : Visit C P) (hscan : v.scan.Nodup) (gzs : List Bool)
    (hlen : gzs.length = v.scan.length)
    (hroom : ∀ k, k + 1 < gzs.length → (dpthIncr maxSub (after maxSub d k)).2 = true)
    (cur : Option (Made C D P))
    (hdata : ∀ x, cur = some x → ∀ q, x.b.data q ≠ none → ∃ e gz, q = dpthMk e gz ∧ Stored ls e) :
    GoodAlloc (fun p => ((allocateAll maxSub d gzs)[v.scan.idxOf p]?).getD []) v cur := by
  have hok := (init_above hls hd).1
  have hnd := C19_session_distinct_partial maxSub d hok gzs hroom
  have hl : (allocateAll maxSub d gzs).length = v.scan.length := by
    rw [allocateAll_length, hlen]
  have get : ∀ p ∈ v.scan, ∃ h : v.scan.idxOf p < (allocateAll maxSub d gzs).length,
      ((allocateAll maxSub d gzs)[v.scan.idxOf p]?).getD [] = (allocateAll maxSub d gzs)[v.scan.idxOf p] := by
    intro p hp
    have h : v.scan.idxOf p < (allocateAll maxSub d gzs).length := by
      rw [hl]; exact List.idxOf_lt_length_of_mem hp
    refine ⟨h, ?_⟩
    rw [List.getElem?_eq_getElem h]; rfl
  constructor
  · intro p hp q hq heq
    obtain ⟨h1, e1⟩ := get p hp
    obtain ⟨h2, e2⟩ := get q hq
    simp only at heq
    rw [e1, e2] at heq
    have := (List.Nodup.getElem_inj_iff hnd).1 heq
    have a := List.getElem_idxOf (List.idxOf_lt_length_of_mem hp)
    have b := List.getElem_idxOf (List.idxOf_lt_length_of_mem hq)
    rw [← a, ← b]
    simp only [this]
  · intro p hp x hx
    left
    obtain ⟨h1, e1⟩ := get p hp
    apply Classical.byContradiction
    intro hne
    obtain ⟨e, gz, he, hst⟩ := hdata x hx _ hne
    simp only at he
    rw [e1] at he
    exact C19_avoids_current maxSub ls hls d hd gzs hroom e hst gz (he ▸ List.getElem_mem h1)

/-! ### A history

Two backups of a client with a directory and three files. Between them one file has changed, one has gone, one has been
made and one has stayed the same. -/

def dir (p : String) : Ent := { cmd := .directory, path := some (bytes p) }
def fil (p : String) (mtime : Int) : Ent := { cmd := .file, path := some (bytes p), mtime := mtime, compression := 0 }

def answer (file : Key → Int) (e : Ent) : Option (Ent × Int) := some (e, file (entKey e))

def file1 (k : Key) : Int :=
  if k.2 = some (bytes "/d/a") then 10 else if k.2 = some (bytes "/d/b") then 20 else 30
def file2 (k : Key) : Int :=
  if k.2 = some (bytes "/d/a") then 15 else if k.2 = some (bytes "/d/b") then 20 else 40

def visit1 : Visit Int Int :=
  { scan := [dir "/d", fil "/d/a" 1, fil "/d/b" 1, fil "/d/c" 1], ans := answer file1, file := file1 }
def visit2 : Visit Int Int :=
  { scan := [dir "/d", fil "/d/a" 2, fil "/d/b" 1, fil "/d/e" 2], ans := answer file2, file := file2 }

def alloc1 (e : Ent) : Str := if e.path = some (bytes "/d") then bytes "t0" else
  if e.path = some (bytes "/d/a") then bytes "t1" else if e.path = some (bytes "/d/b") then bytes "t2" else bytes "t3"
def alloc2 (e : Ent) : Str := if e.path = some (bytes "/d") then bytes "t4" else
  if e.path = some (bytes "/d/a") then bytes "t5" else if e.path = some (bytes "/d/b") then bytes "t6" else bytes "t7"

def sets : Settings := ⟨true, 0, false⟩

def idPlain : Ent → Int → Int := fun _ c => c

/-- The two backups. -/
abbrev first := session toy sets false 1 false alloc1 visit1.ans visit1.scan none []
theorem first_some : first.isSome = true := by decide +kernel
abbrev made1 : List (Made Int Int Int) :=
  List.zipWith (fun b m => ⟨b, m.1, m.2⟩) (first.get first_some).1 [((first.get first_some).2, visit1)]
abbrev second := session toy sets false 2 false alloc2 visit2.ans visit2.scan (made1.getLast?.map Made.entries)
  (made1.map Made.b)
theorem second_some : second.isSome = true := by decide +kernel

theorem history : ∃ H, Sessions toy idPlain H ∧
    H.map (fun x => (x.b.bno, x.entries.map (fun e => (e.path, e.datapth)))) =
      [(1, [(some (bytes "/d"), none), (some (bytes "/d/a"), some (bytes "t1")),
            (some (bytes "/d/b"), some (bytes "t2")), (some (bytes "/d/c"), some (bytes "t3"))]),
       (2, [(some (bytes "/d"), none), (some (bytes "/d/a"), some (bytes "t1")),
            (some (bytes "/d/b"), some (bytes "t2")), (some (bytes "/d/e"), some (bytes "t7"))])] ∧
    H.map (fun x => (x.b.data (bytes "t1"), x.b.delta (bytes "t1"))) =
      [(none, some (-5)), (some 15, none)] := by
  have r1 : Sessions toy idPlain made1 := by
    refine Sessions.backup (s := sets) (reset := false) (bno := 1) (hard := false)
      (alloc := alloc1) (v := visit1) .empty ⟨by decide +kernel, by decide, ?_⟩
      (by intro x hx; cases hx) (by decide +kernel)
      ⟨by decide +kernel, by intro p _ x hx; cases hx⟩ (by simp) (by decide) (Option.some_get first_some).symm
    intro p _ _ e c h
    simp only [visit1, answer, Option.some.injEq, Prod.mk.injEq] at h
    obtain ⟨rfl, rfl⟩ := h
    exact ⟨rfl, rfl⟩
  have last : ∀ x, made1.getLast? = some x →
      x.b.data (bytes "t4") = none ∧ x.b.data (bytes "t5") = none ∧ x.b.data (bytes "t6") = none ∧
      x.b.data (bytes "t7") = none ∧ x.visit.file = file1 ∧
      x.entries = [dir "/d", { fil "/d/a" 1 with datapth := some (bytes "t1") },
        { fil "/d/b" 1 with datapth := some (bytes "t2") }, { fil "/d/c" 1 with datapth := some (bytes "t3") }] := by
    intro x hx
    have h : made1.getLast?.map (fun x => (x.b.data (bytes "t4"), x.b.data (bytes "t5"), x.b.data (bytes "t6"),
        x.b.data (bytes "t7"), x.entries)) = some (none, none, none, none,
        [dir "/d", { fil "/d/a" 1 with datapth := some (bytes "t1") },
        { fil "/d/b" 1 with datapth := some (bytes "t2") }, { fil "/d/c" 1 with datapth := some (bytes "t3") }]) := by
      decide +kernel
    rw [hx] at h
    simp only [Option.map_some, Option.some.injEq, Prod.mk.injEq] at h
    obtain ⟨h1, h2, h3, h4, h5⟩ := h
    refine ⟨h1, h2, h3, h4, ?_, h5⟩
    have hm := List.mem_of_getLast? hx
    simp only [made1] at hm
    cases hl : (first.get first_some).1 with
    | nil => rw [hl] at hm; cases hm
    | cons b t =>
      rw [hl] at hm
      simp only [List.zipWith_cons_cons, List.zipWith_nil_right, List.mem_singleton] at hm
      rw [hm]
      rfl
  have r2 := Sessions.backup (L := toy) (plain := idPlain) (s := sets) (reset := false) (bno := 2) (hard := false)
    (alloc := alloc2) (v := visit2) r1 ⟨by decide +kernel, by decide, by
      intro p _ _ e c h
      simp only [visit2, answer, Option.some.injEq, Prod.mk.injEq] at h
      obtain ⟨rfl, rfl⟩ := h
      exact ⟨rfl, rfl⟩⟩
    (by
      intro x hx
      obtain ⟨_, _, _, _, h5, h6⟩ := last x hx
      unfold Steady LooksSame LinkBecameFile
      rw [h5, h6]
      decide +kernel)
    (by decide +kernel)
    ⟨by decide +kernel, by
      intro p hp x hx
      obtain ⟨h4, h5, h6, h7, _, _⟩ := last x hx
      left
      simp only [visit2, List.mem_cons, List.not_mem_nil, or_false] at hp
      rcases hp with rfl | rfl | rfl | rfl <;> assumption⟩ (by decide +kernel) (by decide)
      (Option.some_get second_some).symm
  exact ⟨_, r2, by decide +kernel, by decide +kernel⟩

end Verif.Session
