import Verif.Lemmas.YajlLines
import Verif.Lemmas.YajlDef

/-!
# The answers of a server as JSON values
-/

namespace Verif.Yajl
open Verif.JsonInput Verif.Monitor

/-- The calls are those for a value, and how deep it is. -/
def IsVal (d : Nat) (ts : List Tok) : Prop := ∃ v : J, v.toks = ts ∧ v.depth ≤ d ∧ (IntsOk ts → v.Plain)
/-- The calls are those for values. -/
def IsVals (d : Nat) (ts : List Tok) : Prop := ∃ v : Js, v.toks = ts ∧ v.depth ≤ d ∧ (IntsOk ts → v.Plain)
/-- The calls are those for members. -/
def IsMems (d : Nat) (ts : List Tok) : Prop := ∃ v : Ms, v.toks = ts ∧ v.depth ≤ d ∧ (IntsOk ts → v.Plain)

theorem intsOk_left {a b : List Tok} (h : IntsOk (a ++ b)) : IntsOk a := fun n hn => h n (by simp [hn])
theorem intsOk_right {a b : List Tok} (h : IntsOk (a ++ b)) : IntsOk b := fun n hn => h n (by simp [hn])

theorem isVal_str {d : Nat} (s : Str) : IsVal d [.str s] :=
  ⟨.str s, by rw [J.toks], by rw [J.depth]; exact Nat.zero_le _, fun _ => by rw [J.Plain]; trivial⟩

theorem isVal_int {d : Nat} (n : Int) : IsVal d [.int n] :=
  ⟨.int n, by rw [J.toks], by rw [J.depth]; exact Nat.zero_le _, fun h => by rw [J.Plain]; exact h n (by simp)⟩

theorem isVals_nil {d : Nat} : IsVals d [] :=
  ⟨.nil, by rw [Js.toks], by rw [Js.depth]; exact Nat.zero_le _, fun _ => by rw [Js.Plain]; trivial⟩

theorem isMems_nil {d : Nat} : IsMems d [] :=
  ⟨.nil, by rw [Ms.toks], by rw [Ms.depth]; exact Nat.zero_le _, fun _ => by rw [Ms.Plain]; trivial⟩

theorem isVals_cons {d : Nat} {a b : List Tok} (ha : IsVal d a) (hb : IsVals d b) : IsVals d (a ++ b) := by
  obtain ⟨v, h1, h2, h3⟩ := ha
  obtain ⟨vs, k1, k2, k3⟩ := hb
  refine ⟨.cons v vs, by rw [Js.toks, h1, k1], by rw [Js.depth]; omega, fun h => ?_⟩
  rw [Js.Plain]
  exact ⟨h3 (intsOk_left h), k3 (intsOk_right h)⟩

theorem isMems_cons {d : Nat} {a b : List Tok} (k : Str) (ha : IsVal d a) (hb : IsMems d b) :
    IsMems d (.key k :: (a ++ b)) := by
  obtain ⟨v, h1, h2, h3⟩ := ha
  obtain ⟨vs, k1, k2, k3⟩ := hb
  refine ⟨.cons k v vs, by rw [Ms.toks, h1, k1], by rw [Ms.depth]; omega, fun h => ?_⟩
  have h' : IntsOk (a ++ b) := fun n hn => h n (by simp [List.mem_append.mp hn])
  rw [Ms.Plain]
  exact ⟨h3 (intsOk_left h'), k3 (intsOk_right h')⟩

/-- All the members of both. -/
def Ms.append : Ms → Ms → Ms
  | .nil, b => b
  | .cons k v a, b => .cons k v (a.append b)

theorem Ms.append_toks : ∀ a b : Ms, (a.append b).toks = a.toks ++ b.toks
  | .nil, b => by simp [Ms.append, Ms.toks]
  | .cons k v a, b => by simp [Ms.append, Ms.toks, Ms.append_toks a b]

theorem Ms.append_depth : ∀ a b : Ms, (a.append b).depth = max a.depth b.depth
  | .nil, b => by simp [Ms.append, Ms.depth]
  | .cons k v a, b => by
    rw [Ms.append, Ms.depth, Ms.depth, Ms.append_depth a b]
    omega

theorem Ms.append_plain : ∀ {a b : Ms}, a.Plain → b.Plain → (a.append b).Plain
  | .nil, b, _, h => h
  | .cons k v a, b, h1, h2 => by
    rw [Ms.Plain] at h1
    rw [Ms.append, Ms.Plain]
    exact ⟨h1.1, Ms.append_plain h1.2 h2⟩

theorem isMems_append {d : Nat} {a b : List Tok} (ha : IsMems d a) (hb : IsMems d b) : IsMems d (a ++ b) := by
  obtain ⟨x, h1, h2, h3⟩ := ha
  obtain ⟨y, k1, k2, k3⟩ := hb
  exact ⟨x.append y, by rw [Ms.append_toks, h1, k1], by rw [Ms.append_depth]; omega,
    fun h => Ms.append_plain (h3 (intsOk_left h)) (k3 (intsOk_right h))⟩

theorem isVals_flatten {d : Nat} : ∀ {l : List (List Tok)}, (∀ x ∈ l, IsVal d x) → IsVals d l.flatten
  | [], _ => isVals_nil
  | x :: l, h => by
    rw [List.flatten_cons]
    exact isVals_cons (h x (by simp)) (isVals_flatten (fun y hy => h y (by simp [hy])))

theorem isVal_arr {d : Nat} {a : List Tok} (h : IsVals d a) : IsVal (d + 1) (.startArr :: (a ++ [.endArr])) := by
  obtain ⟨vs, h1, h2, h3⟩ := h
  refine ⟨.arr vs, by rw [J.toks, h1], by rw [J.depth]; omega, fun h => ?_⟩
  rw [J.Plain]
  exact h3 (fun n hn => h n (by simp [hn]))

theorem isVal_obj {d : Nat} {a : List Tok} (h : IsMems d a) : IsVal (d + 1) (.startMap :: (a ++ [.endMap])) := by
  obtain ⟨vs, h1, h2, h3⟩ := h
  refine ⟨.obj vs, by rw [J.toks, h1], by rw [J.depth]; omega, fun h => ?_⟩
  rw [J.Plain]
  exact h3 (fun n hn => h n (by simp [hn]))

theorem isMems_one {d : Nat} {a : List Tok} (k : Str) (ha : IsVal d a) : IsMems d (.key k :: a) := by
  have := isMems_cons k ha isMems_nil
  rwa [List.append_nil] at this

theorem isMems_str {d : Nat} (k : String) (s : Str) : IsMems d (strPair k s) := isMems_one (bytes k) (isVal_str s)
theorem isMems_int {d : Nat} (k : String) (n : Int) : IsMems d (intPair k n) := isMems_one (bytes k) (isVal_int n)

theorem isMems_strs {d : Nat} (k : Str) (l : List Str) :
    IsMems (d + 1) ([.key k, .startArr] ++ l.map .str ++ [.endArr]) := by
  have h : IsVals d (l.map Tok.str) := by
    have := isVals_flatten (d := d) (l := l.map (fun s => [Tok.str s])) (by
      intro x hx
      obtain ⟨s, _, rfl⟩ := List.mem_map.mp hx
      exact isVal_str s)
    have e : (l.map (fun s => [Tok.str s])).flatten = l.map Tok.str := by
      induction l with
      | nil => rfl
      | cons x l ih =>
        rw [List.map_cons, List.flatten_cons, List.map_cons]
        have h2 := isVals_flatten (d := d) (l := l.map (fun s => [Tok.str s])) (by
          intro x hx
          obtain ⟨s, _, rfl⟩ := List.mem_map.mp hx
          exact isVal_str s)
        rw [ih h2]
        rfl
    rwa [e] at this
  exact isMems_one k (isVal_arr h)

theorem isMems_arr {d : Nat} (k : Str) {α : Type} (f : α → List Tok) (l : List α) (h : ∀ x ∈ l, IsVal d (f x)) :
    IsMems (d + 1) ([.key k, .startArr] ++ (l.map f).flatten ++ [.endArr]) := by
  have := isVals_flatten (d := d) (l := l.map f) (by
    intro x hx
    obtain ⟨s, hs, rfl⟩ := List.mem_map.mp hx
    exact h s hs)
  exact isMems_one k (isVal_arr this)

theorem isVal_row (field : Cmd → Str) (r : Cmd × Cntr.Ent) : IsVal 1 (rowToks field r) := by
  have h1 : IsMems 0 (if (r.1, Cntr.Flag.single) ∈ Cntr.table then [] else
      intPair "changed" (signed r.2.changed.toNat) ++ intPair "same" (signed r.2.same.toNat) ++
      intPair "deleted" (signed r.2.deleted.toNat) ++ intPair "scanned" (signed r.2.phase1.toNat)) := by
    split
    · exact isMems_nil
    · exact isMems_append (isMems_append (isMems_append (isMems_int _ _) (isMems_int _ _)) (isMems_int _ _))
        (isMems_int _ _)
  have := isVal_obj (isMems_append (isMems_append (isMems_append (isMems_str (d := 0) "name" (field r.1))
    (isMems_str "type" [r.1.toByte])) (isMems_int "count" (signed r.2.count.toNat))) h1)
  unfold rowToks
  simpa using this

theorem isMems_counters (field : Cmd → Str) (rows : List (Cmd × Cntr.Ent)) : IsMems 2 (countersToks field rows) :=
  isMems_arr (bytes "counters") (rowToks field) rows (fun x _ => isVal_row field x)

theorem isVal_child (field : Cmd → Str) (k : ChildInfo) : IsVal 3 (childToks field k) := by
  have := isVal_obj (isMems_append (isMems_append (isMems_append (isMems_append (isMems_int (d := 2) "pid" k.pid)
    (isMems_int "backup" k.bno)) (isMems_str "action" (actionStr k.status))) (isMems_str "phase" (statusStr k.status)))
    (isMems_counters field k.counters))
  unfold childToks
  simpa using this

theorem isMems_content (asked : Option Log) (lines : Option (List Str)) : IsMems 1 (contentToks asked lines) := by
  unfold contentToks
  split
  · exact isMems_strs _ _
  · exact isMems_nil

theorem isMems_logs (asked : Option Log) (b : BackupInfo) : IsMems 2 (logToks asked b) := by
  unfold logToks
  split
  · exact isMems_nil
  · have := isMems_one (bytes "logs") (isVal_obj (isMems_append (isMems_strs (d := 0) (bytes "list") b.logs)
      (isMems_content asked b.lines)))
    simpa using this

theorem isVal_backup (field : Cmd → Str) (asked : Option Log) (b : BackupInfo) : IsVal 3 (backupToks field asked b) := by
  have key : ∀ x y : List Tok, IsMems 2 x → IsMems 2 y →
      IsVal 3 ([.startMap] ++ intPair "number" (signed b.bno) ++ intPair "timestamp" b.timestamp ++
        [.key (bytes "flags"), .startArr] ++ b.flags.map .str ++ [.endArr] ++ x ++ logToks asked b ++ y ++ [.endMap]) := by
    intro x y hx hy
    have := isVal_obj (isMems_append (isMems_append (isMems_append (isMems_append (isMems_append
      (isMems_int (d := 2) "number" (signed b.bno)) (isMems_int "timestamp" b.timestamp))
      (isMems_strs (d := 1) (bytes "flags") b.flags)) hx) (isMems_logs asked b)) hy)
    simpa using this
  unfold backupToks
  refine key _ _ ?_ ?_
  · split
    · exact isMems_counters _ _
    · exact isMems_nil
  · split
    · next d _ _ =>
      have := isMems_one (bytes "browse") (isVal_obj (isMems_append (isMems_str (d := 1) "directory" d)
        (isMems_one (bytes "entries") (isVal_arr (isVals_nil (d := 0))))))
      simpa using this
    · exact isMems_nil

theorem isVal_client (field : Cmd → Str) (asked : Option Log) (i : Info) : IsVal 5 (clientToks field asked i) := by
  have key : ∀ x y z : List Tok, IsMems 4 x → IsMems 4 y → IsMems 4 z →
      IsVal 5 ([.startMap] ++ strPair "name" i.name ++ x ++ strPair "run_status" (runStr i.run) ++ intPair "protocol" 1 ++
        y ++ z ++
        [.key (bytes "backups"), .startArr] ++ (i.backups.map (backupToks field asked)).flatten ++ [.endArr, .endMap]) := by
    intro x y z hx hy hz
    have := isVal_obj (isMems_append (isMems_append (isMems_append (isMems_append (isMems_append (isMems_append
      (isMems_str (d := 4) "name" i.name) hx) (isMems_str "run_status" (runStr i.run))) (isMems_int "protocol" 1)) hy) hz)
      (isMems_arr (bytes "backups") (backupToks field asked) i.backups (fun x _ => isVal_backup field asked x)))
    simpa using this
  unfold clientToks
  refine key _ _ _ ?_ ?_ ?_
  · split
    · exact isMems_nil
    · exact isMems_strs (d := 3) _ _
  · split
    · exact isMems_nil
    · exact isMems_arr _ _ _ (fun x _ => isVal_child field x)
  · split
    · exact isMems_str _ _
    · exact isMems_nil

/-- Every answer is an object. -/
theorem isVal_msg (field : Cmd → Str) (asked : Option Log) (m : Msg) : IsVal 7 (msgToks field asked m) := by
  cases m with
  | clients l =>
    have := isVal_obj (isMems_arr (bytes "clients") (clientToks field asked) l (fun x _ => isVal_client field asked x))
    unfold msgToks
    simpa using this
  | warning t =>
    have := isVal_obj (isMems_str (d := 6) "warning" t)
    unfold msgToks
    simpa using this
  | start t =>
    have := isVal_obj (isMems_str (d := 6) "response-start" t)
    unfold msgToks
    simpa using this
  | finish t =>
    have := isVal_obj (isMems_str (d := 6) "response-end" t)
    unfold msgToks
    simpa using this

end Verif.Yajl
