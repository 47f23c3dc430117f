import Verif.Lemmas.Phase1Order
import Verif.Props.Phase1Cases
import Verif.Props.Scan

/-!
# C95: the order of the list, and what the configuration asks for
-/

namespace Verif
open Phase1 Strlist Attribs Find Incexc

/-- The entries are in the order that manifests are kept in, no two for the same place in it: by path, and the entry of
a file before the one for its metadata. What is missing are names that are no longer there when they are looked at;
directories on file systems that are left out, see `C95_twice_violated`; and nested included directories of which one
lies beneath something that is left out, see `C62_scan_partial`. -/
theorem C95_ordered_partial (includes excludes : List (List Str)) (dirs starts : List Elem) (c : Cfg) (w : World)
    (t : Scan.Tree) (depth fuel : Nat)
    (hgood : ∀ l ∈ includes ++ excludes, ∀ n ∈ l, GoodName n)
    (hcfg : configure (includes.map renderPath) (excludes.map renderPath) = some (dirs, starts))
    (hconf : c.find.incexcdir = dirs) (htree : GoodTree t depth)
    (hnest : NoNested includes excludes (NotFiltered c.find)) (hfuel : depth < fuel)
    (hp : Present c w starts) (hac : Accepted c w starts) (hag : Agrees c w starts t) :
    SortedBy id ((client c w fuel starts St.init).out.filterMap Ev.key) := by
  obtain ⟨l, h1, h2, _⟩ := C62_scan_partial includes excludes dirs starts c.find t depth fuel hgood hcfg hconf htree
    hnest hfuel
  have hsub := walkAll_leads hp hac hag fuel starts (fun _ h => h) l h1
  rw [client_eq]
  exact (exec_keys (walkAll c w fuel starts) (walkAll_good hp fuel) (h2.sublist hsub) [] St.init hash_init).1

/-- Every file that the lines of the configuration ask for is in the list if the first phase says that all is well,
provided that the other settings let it through; but for symbolic links that cannot be read. And the list has no file
that the lines of the configuration do not ask for. -/
theorem C95_wanted_partial (includes excludes : List (List Str)) (dirs starts : List Elem) (c : Cfg) (w : World)
    (t : Scan.Tree) (depth fuel : Nat)
    (hgood : ∀ l ∈ includes ++ excludes, ∀ n ∈ l, GoodName n)
    (hcfg : configure (includes.map renderPath) (excludes.map renderPath) = some (dirs, starts))
    (hconf : c.find.incexcdir = dirs) (htree : GoodTree t depth)
    (hnest : NoNested includes excludes (NotFiltered c.find)) (hfuel : depth < fuel)
    (hp : Present c w starts) (hac : Accepted c w starts) (hag : Agrees c w starts t) (hno : NoMore c w starts t)
    (hok : (client c w fuel starts St.init).ret = .ok) :
    (∀ q a, t q ≠ .missing → Wanted includes excludes (NotFiltered c.find) q → w.lstat (renderPath q) = some a →
      (∀ top, LetThrough c (renderPath q) (Seen c (renderPath q) a) top) →
      (∃ e ∈ (client c w fuel starts St.init).out, Main e ∧ e.path = renderPath q) ∨
      (.warn .noFollow (renderPath q) ∈ (client c w fuel starts St.init).out ∧ kindOf a.mode = some .lnk ∧
        w.readlink (renderPath q) = none)) ∧
    (∀ e ∈ (client c w fuel starts St.init).out, Main e →
      ∃ q, e.path = renderPath q ∧ t q ≠ .missing ∧ Wanted includes excludes (NotFiltered c.find) q) := by
  obtain ⟨l, h1, h2, h3⟩ := C62_scan_partial includes excludes dirs starts c.find t depth fuel hgood hcfg hconf htree
    hnest hfuel
  constructor
  · intro q a hq hw hl ht
    obtain ⟨par, top, hr⟩ := scan_reached hp hag hno fuel starts (fun _ h => h) l h1 _ ((h3 _).mpr ⟨q, rfl, hq, hw⟩)
    exact C95_complete_partial c w fuel starts hp hok hr hl (ht top)
  · intro e he hm
    have hsub := walkAll_leads hp hac hag fuel starts (fun _ h => h) l h1
    have hk := (exec_keys (walkAll c w fuel starts) (walkAll_good hp fuel) (h2.sublist hsub) [] St.init hash_init).2
    rw [client_eq] at he
    cases e with
    | warn pr p => exact absurd hm (fun h => h)
    | entry cmd a p x =>
      obtain ⟨f, hf, hx⟩ := hk (cmd, some p) (List.mem_filterMap.mpr ⟨_, he, rfl⟩)
      cases hx
      exact (h3 p).mp (hsub.subset hf)

namespace Phase1Cases

/-- The files of `exTree`. -/
def rowsTree : List Row :=
  [⟨bytes "/", attr 1 10 4 2 4096, .names [bytes "z", bytes "a"], none⟩,
   ⟨bytes "/a", attr 1 11 4 2 4096, .names [bytes "b"], none⟩,
   ⟨bytes "/a/b", attr 1 12 4 2 4096, .names [bytes "c"], none⟩,
   ⟨bytes "/a/b/c", attr 1 13 8 1 500, .noOpen, none⟩,
   ⟨bytes "/z", attr 1 14 8 1 500, .noOpen, none⟩]

def cfgTree : Cfg :=
  { cfg with
    find := ⟨[], [], [], [], exDirs, 0, 0⟩
    nobackup := []
    crossAll := true }

theorem treeRow {p : Str} {par : Int} {top : Bool} (h : Reached cfgTree (world rowsTree) [⟨bytes "/", 1⟩] p par top) :
    ∃ r ∈ rowsTree, r.path = p := by
  obtain ⟨r, hr, e⟩ := List.mem_map.mp (reached_table (by decide +kernel) h)
  exact ⟨r, hr, e⟩

theorem treeFs {p : Str} {par : Int} {top : Bool} (h : Reached cfgTree (world rowsTree) [⟨bytes "/", 1⟩] p par top) :
    (world rowsTree).fstype p = some 1 := by
  obtain ⟨r, hr, rfl⟩ := treeRow h
  have : ∀ r ∈ rowsTree, (world rowsTree).fstype r.path = some 1 := by decide +kernel
  exact this r hr

/-- `C95_ordered_partial` and `C95_wanted_partial` are about this file system; the other conditions are those of
`C62_scan_partial`. -/
theorem tree_ok : Present cfgTree (world rowsTree) [⟨bytes "/", 1⟩] ∧ Accepted cfgTree (world rowsTree) [⟨bytes "/", 1⟩] ∧
    Agrees cfgTree (world rowsTree) [⟨bytes "/", 1⟩] exTree ∧ NoMore cfgTree (world rowsTree) [⟨bytes "/", 1⟩] exTree ∧
    GoodTree exTree 3 ∧ (client cfgTree (world rowsTree) 4 [⟨bytes "/", 1⟩] St.init).ret = .ok ∧
    (client cfgTree (world rowsTree) 4 [⟨bytes "/", 1⟩] St.init).out.filterMap Ev.key =
      [(.directory, some (bytes "/")), (.directory, some (bytes "/a/b")), (.file, some (bytes "/a/b/c")),
       (.file, some (bytes "/z"))] := by
  refine ⟨present_table (by decide +kernel), fun p par top a h _ _ _ => ⟨1, treeFs h, by decide, Or.inl rfl⟩, ⟨?_, ?_⟩,
    ?_, exTree_good, by decide +kernel, by decide +kernel⟩
  · intro p par top h
    obtain ⟨r, hr, rfl⟩ := treeRow h
    have : ∀ r ∈ rowsTree, Scan.lstat exTree r.path ≠ .missing := by decide +kernel
    exact this r hr
  · intro p par top a l h _ _ _ he
    obtain ⟨r, hr, rfl⟩ := treeRow h
    have : ∀ r ∈ rowsTree, (world rowsTree).entries r.path = r.dir ∧
        (r.dir = .noOpen ∨ Scan.lstat exTree r.path = (match r.dir with | .names l => .dir l | _ => .missing)) := by
      decide +kernel
    obtain ⟨h1, h2⟩ := this r hr
    rw [h1] at he
    rw [he] at h2
    rcases h2 with h2 | h2
    · cases h2
    · exact h2
  · intro p par top a n ns h hl ht
    have hfs := treeFs h
    obtain ⟨r, hr, rfl⟩ := treeRow h
    have : ∀ r ∈ rowsTree, (world rowsTree).lstat r.path = some r.attr ∧ (world rowsTree).entries r.path = r.dir ∧
        ((kindOf r.attr.mode = some .dir ∧ r.dir ≠ .noOpen ∧ r.dir ≠ .bad) ∨ Scan.lstat exTree r.path = .file) := by
      decide +kernel
    obtain ⟨h1, h2, h3⟩ := this r hr
    rw [h1] at hl
    cases hl
    rcases h3 with ⟨h3, h4, h5⟩ | h3
    · refine ⟨h3, ⟨fun n hn => (by cases hn), fun _ => ⟨⟨1, hfs, by decide, Or.inl rfl⟩, Or.inr (Or.inl rfl)⟩⟩, ?_⟩
      rw [h2]
      cases hx : r.dir with
      | names l => exact ⟨l, rfl⟩
      | noOpen => exact absurd hx h4
      | bad => exact absurd hx h5
    · rw [h3] at ht
      cases ht

end Phase1Cases

end Verif
