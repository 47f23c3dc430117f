import Verif.Props.EndToEnd

/-!
# C97: cases
-/

namespace Verif
open EndToEnd Phase1 Phase2 Session Manifest History Attribs Incexc Strlist

namespace EndToEndCases
open Phase1Cases

/-- The file system of `C95_wanted_partial`: `/`, `/a`, which is excluded, `/a/b`, which is not, `/a/b/c` and `/z`. -/
def day : Day where
  c := cfgTree
  w := world rowsTree
  includes := exIncludes
  excludes := exExcludes
  starts := [⟨bytes "/", 1⟩]
  t := exTree
  depth := 3
  fuel := 4
  text _ p := p
  fow := true

theorem tree_attr {p : Str} {a : Attr} (h : (world rowsTree).lstat p = some a) : a.InRange := by
  obtain ⟨r, hr, rfl⟩ := Option.map_eq_some_iff.mp
    (show (rowsTree.find? (fun r => decide (r.path = p))).map Row.attr = some a from h)
  have hm := List.mem_of_find?_eq_some hr
  simp only [rowsTree, List.mem_cons, List.not_mem_nil, or_false] at hm
  rcases hm with rfl | rfl | rfl | rfl | rfl <;> exact attr_range (by decide)

theorem day_good : day.Good where
  lines := exLines_good.1
  configured := exLines_good.2.1
  tree := exTree_good
  nested := exLines_good.2.2.1
  fuel := by decide
  present := tree_ok.1
  accepted := tree_ok.2.1
  agrees := tree_ok.2.2.1
  noMore := tree_ok.2.2.2.1
  sayable := {
    path := fun p par top h => by
      obtain ⟨r, hr, rfl⟩ := treeRow h
      have : ∀ r ∈ rowsTree, 0 ∉ r.path ∧ PathCmp.hasDotComponent r.path = false ∧ r.path.length ≤ 65535 := by
        decide +kernel
      exact ⟨(this r hr).1, dotFree_of_check (this r hr).2.1, (this r hr).2.2⟩
    attr := fun _ _ h => tree_attr h
    target := fun p t h => by
      obtain ⟨r, hr, ht⟩ := Option.bind_eq_some_iff.mp
        (show (rowsTree.find? (fun r => decide (r.path = p))).bind Row.target = some t from h)
      have : ∀ r ∈ rowsTree, r.target = none := by decide +kernel
      rw [this r (List.mem_of_find?_eq_some hr)] at ht
      cases ht
    compression := by decide }

/-- What the second phase reads. -/
def list : List Ent :=
  [{ cmd := .directory, path := some (bytes "/"), dev := 1, ino := 10, mtime := 6, ctime := 7, size := 4096, compression := 9 },
   { cmd := .directory, path := some (bytes "/a/b"), dev := 1, ino := 12, mtime := 6, ctime := 7, size := 4096, compression := 9 },
   { cmd := .file, path := some (bytes "/a/b/c"), dev := 1, ino := 13, mtime := 6, ctime := 7, size := 500, compression := 9 },
   { cmd := .file, path := some (bytes "/z"), dev := 1, ino := 14, mtime := 6, ctime := 7, size := 500, compression := 9 }]

theorem day_lists : day.list = some list := by decide +kernel

/-- `C97_listed_partial`: a file that is wanted. -/
example : day.Wants [bytes "a", bytes "b", bytes "c"] ∧
    day.w.lstat (renderPath [bytes "a", bytes "b", bytes "c"]) = some (attr 1 13 8 1 500) := by
  refine ⟨⟨by decide +kernel, [bytes "a", bytes "b"], by decide +kernel, ?_, ?_⟩, by decide +kernel⟩
  · have : ∀ y ∈ exIncludes ++ exExcludes, y <+: [bytes "a", bytes "b", bytes "c"] → y <+: [bytes "a", bytes "b"] := by
      decide +kernel
    exact ⟨by decide +kernel, by decide +kernel, this⟩
  · intro a _ _ _
    exact ⟨rfl, fun r hr => (by cases hr), Or.inl rfl⟩

/-- The client sends the length of the path as content. -/
def visit : Visit Int Int where
  scan := list
  ans p := some (p, ((p.path.getD []).length : Int))
  file k := ((k.2.getD []).length : Int)

def alloc (e : Ent) : Str := e.path.getD []

/-- `C97_completes_partial`: the first backup of that day; and so `C97_restores_partial` is about something. -/
example : ∃ H : List (Made Int Int Int), Sessions toy idPlain H ∧ ∃ x ∈ H, day.list = some x.visit.scan := by
  obtain ⟨l, es, _, hb, hS⟩ := C97_completes_partial toy (by intro a b; simp [toy]; omega) idPlain (fun _ _ _ _ _ => rfl) [] .empty sets false 1
    false alloc visit day day_good day_lists (fun p _ _ e c h => by cases h; exact ⟨rfl, rfl⟩)
    (fun x hx => by cases hx) ⟨by decide +kernel, fun p _ x hx => by cases hx⟩ (fun x hx => by cases hx) (by decide)
  have hlen : l.length = 1 := by
    have := congrArg List.length hb
    rw [List.length_map] at this
    exact this
  match l, hlen with
  | [b], _ => exact ⟨_, hS, ⟨b, es, visit⟩, List.mem_singleton.mpr rfl, day_lists⟩

end EndToEndCases

end Verif
