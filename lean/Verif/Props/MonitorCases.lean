import Verif.Props.MonitorDisk

/-!
# C79: cases, and where it fails
-/

namespace Verif
open Verif Monitor

namespace Monitor

/-- What an answer says about clients. -/
def Out.infos : Out → List Info
  | .goesOn _ msgs _ => msgs.flatMap Msg.infos
  | _ => []

/-- What is said about clients in the answer to `s`, after a history. -/
def after (sv : Server) (peer : Int) (es : List Event) (w : World) (s : Str) : List Info :=
  match runs sv (start peer) es with
  | none => []
  | some st => (step sv st (.ask w s)).infos

/-- The settings of a client in the cases below: `mon` may watch if the text of the client or of the server says
`open`. -/
def demoLoad (g n text : Str) : Option ClientConf :=
  some ⟨if text = bytes "open" ∨ g = bytes "open" then [bytes "mon"] else [], [], [text], some (bytes "/d/" ++ n)⟩

def demo : Server := ⟨⟨some (bytes "mon"), none⟩, [], demoLoad⟩

def demoBu (n : Nat) (working : Bool) : Bu :=
  ⟨n, 1000 + n, bytes "/d/x", false, true, working, false, !working, true, [.backup]⟩

/-- A disk with the clients `a`, `b` and `x:y`, with these settings of `b`. -/
def demoWorld (g t : Int) (text : Str) : World where
  names := some [bytes ".", bytes "b", bytes "a", bytes "x:y"]
  globalTime := some g
  conf n := if n = bytes "a" ∨ n = bytes "x:y" then some (1, bytes "open") else if n = bytes "b" then some (t, text) else none
  dirTime _ := some 5
  backups d := if d = bytes "/d/a" then some [demoBu 1 false, demoBu 2 true] else some [demoBu 7 false]
  file _ := some [bytes "line"]
  browse _ _ := none

theorem demo_honest {g g' g'' t t' t'' : Int} {x x' x'' : Str} (ht : t ≠ 0) (ht' : t' ≠ 0) (ht'' : t'' ≠ 0)
    (h1 : t = t' → x = x') (h2 : t = t'' → x = x'') (h3 : t' = t'' → x' = x'') :
    Honest [demoWorld g t x, demoWorld g' t' x', demoWorld g'' t'' x''] := by
  have conf : ∀ g t x n s y, (demoWorld g t x).conf n = some (s, y) →
      ((n = bytes "a" ∨ n = bytes "x:y") ∧ s = 1 ∧ y = bytes "open") ∨
        (¬ (n = bytes "a" ∨ n = bytes "x:y") ∧ n = bytes "b" ∧ s = t ∧ y = x) := by
    intro g t x n s y h
    unfold demoWorld at h
    dsimp only at h
    split at h
    · next ha => injection h with h; injection h with h h'; exact .inl ⟨ha, h.symm, h'.symm⟩
    · next ha =>
      split at h
      · next hb => injection h with h; injection h with h h'; exact .inr ⟨ha, hb, h.symm, h'.symm⟩
      · cases h
  constructor
  · intro w hw n s y h
    simp only [List.mem_cons, List.not_mem_nil, or_false] at hw
    rcases hw with rfl | rfl | rfl
    all_goals
      rcases conf _ _ _ _ _ _ h with ⟨_, rfl, _⟩ | ⟨_, _, rfl, _⟩
      · decide
      · assumption
  · intro w hw w' hw' n s y y' h h'
    simp only [List.mem_cons, List.not_mem_nil, or_false] at hw hw'
    rcases hw with rfl | rfl | rfl <;> rcases hw' with rfl | rfl | rfl
    all_goals
      rcases conf _ _ _ _ _ _ h with ⟨a, _, rfl⟩ | ⟨a, _, e1, rfl⟩ <;>
      rcases conf _ _ _ _ _ _ h' with ⟨a', _, rfl⟩ | ⟨a', _, e2, rfl⟩
      · rfl
      · exact absurd a a'
      · exact absurd a' a
      · first
          | rfl
          | exact h1 (e1.symm.trans e2)
          | exact (h1 (e2.symm.trans e1)).symm
          | exact h2 (e1.symm.trans e2)
          | exact (h2 (e2.symm.trans e1)).symm
          | exact h3 (e1.symm.trans e2)
          | exact (h3 (e2.symm.trans e1)).symm
  · intro w hw ns hns n q h
    obtain ⟨s, y⟩ := q
    simp only [List.mem_cons, List.not_mem_nil, or_false] at hw
    rcases hw with rfl | rfl | rfl
    all_goals
      injection hns with hns
      subst hns
      rcases conf _ _ _ _ _ _ h with ⟨rfl | rfl, _⟩ | ⟨_, rfl, _⟩ <;> simp

theorem demo_honest1 {g t : Int} {x : Str} (ht : t ≠ 0) : Honest [demoWorld g t x] :=
  honest_sub (by simp) (demo_honest (g := g) (g' := g) (g'' := g) (x := x) (x' := x) (x'' := x) ht ht ht (fun _ => rfl) (fun _ => rfl) (fun _ => rfl))

theorem demo_honest2 {g g' t t' : Int} {x x' : Str} (ht : t ≠ 0) (ht' : t' ≠ 0) (h : t = t' → x = x') :
    Honest [demoWorld g t x, demoWorld g' t' x'] :=
  honest_sub (by simp +contextual) (demo_honest (g := g) (g' := g') (g'' := g') ht ht' ht' h h (fun _ => rfl))

/-- The version of a recent peer. -/
def recent : Int := Version.versionToLong (some (bytes "2.4.0"))

end Monitor

/-- A case that meets the hypotheses of the theorems: `b` is not open and is left out, `a` is shown with its
current backup and the one being made. -/
example :
    Honest (disks [.disk (demoWorld 1 1 (bytes "shut"))]) ∧
    LastDisk [.disk (demoWorld 1 1 (bytes "shut"))] (demoWorld 1 1 (bytes "shut")) ∧
    (∃ cc, MayWatch demo (demoWorld 1 1 (bytes "shut")) (bytes "a") cc) ∧
    (after demo recent [.disk (demoWorld 1 1 (bytes "shut"))] (demoWorld 1 1 (bytes "shut")) (bytes "c:")).map
      (fun i => (i.name, i.labels, i.backups.map (fun b => (b.bno, b.flags)))) =
      [(bytes "a", [bytes "open"], [(1, [bytes "deletable", bytes "current", bytes "manifest"]),
          (2, [bytes "deletable", bytes "working", bytes "manifest"])]),
        (bytes "x:y", [bytes "open"], [(7, [bytes "deletable", bytes "current", bytes "manifest"])])] := by
  refine ⟨demo_honest1 (by decide), ⟨[], [], rfl, rfl⟩,
    ⟨⟨[bytes "mon"], [], [bytes "open"], some (bytes "/d/a")⟩, ⟨by unfold ValidName; decide, 1, bytes "open", by decide, by decide⟩,
      .inr ⟨rfl, bytes "mon", rfl, by decide⟩⟩, by decide +kernel⟩

/-- A child at work, its counters and its end. -/
example :
    Told (.parent (clientsLine [(bytes "a", 77, 2)])) ∧ Told (.parent (Cntr.toStr Cntr.init (bytes "a") 77 2 4 (bytes "/etc"))) ∧
    (after demo recent [.disk (demoWorld 1 1 (bytes "shut")), .parent (Cntr.toStr Cntr.init (bytes "a") 77 2 4 (bytes "/etc")),
        .parent (clientsLine [(bytes "a", 77, 2)])] (demoWorld 1 1 (bytes "shut")) (bytes "c:")).map
      (fun i => (i.name, i.run, i.children.map (fun k => (k.pid, k.bno, k.status)))) =
      [(bytes "a", .running, [(77, 2, 4)]), (bytes "x:y", .idle, [])] ∧
    (after demo recent [.disk (demoWorld 1 1 (bytes "shut")), .parent (Cntr.toStr Cntr.init (bytes "a") 77 2 4 (bytes "/etc")),
        .parent (clientsLine [(bytes "a", 78, 3)])] (demoWorld 1 1 (bytes "shut")) (bytes "c:")).map
      (fun i => (i.name, i.run, i.children.map (fun k => (k.pid, k.bno, k.status)))) =
      [(bytes "a", .running, []), (bytes "x:y", .idle, [])] := by
  refine ⟨.inl ⟨_, by decide, rfl⟩, .inr ⟨_, _, _, _, _, _, by decide, by decide, by decide, by decide, by decide, rfl⟩,
    by decide +kernel, by decide +kernel⟩

/-- A log, and a change of the settings that is noticed. -/
example :
    (after demo recent [.disk (demoWorld 1 1 (bytes "shut"))] (demoWorld 1 1 (bytes "shut")) (bytes "c:a:b:2:l:backup")).map
      (fun i => (i.name, i.backups.map (fun b => (b.bno, b.lines)))) = [(bytes "a", [(2, some [bytes "line"])])] ∧
    Honest (disks [.disk (demoWorld 1 1 (bytes "shut")), .disk (demoWorld 1 2 (bytes "open"))]) ∧
    (after demo recent [.disk (demoWorld 1 1 (bytes "shut")), .disk (demoWorld 1 2 (bytes "open"))]
      (demoWorld 1 2 (bytes "open")) (bytes "c:")).map (fun i => (i.name, i.backups.map (·.bno))) =
      [(bytes "a", [1, 2]), (bytes "b", [7]), (bytes "x:y", [7])] :=
  ⟨by decide +kernel, demo_honest2 (by decide) (by decide) (by decide), by decide +kernel⟩

/-! ### Where it fails -/

theorem demo_shut (g t : Int) (cc : ClientConf) : ¬ MayWatch demo (demoWorld g t (bytes "shut")) (bytes "b") cc := by
  rintro ⟨⟨_, s, text, hc, hl⟩, hs⟩
  have e : text = bytes "shut" := by
    have : (demoWorld g t (bytes "shut")).conf (bytes "b") = some (t, bytes "shut") := by
      unfold demoWorld
      dsimp only
      rw [if_neg (by decide), if_pos rfl]
    rw [this] at hc
    injection hc with hc
    injection hc with _ hc
    exact hc.symm
  subst e
  have hl : demoLoad [] (bytes "b") (bytes "shut") = some cc := hl
  unfold demoLoad at hl
  rw [if_neg (by decide)] at hl
  injection hl with hl
  subst hl
  rcases hs with hs | ⟨_, me, _, hs | hs⟩
  · revert hs; decide
  · cases hs
  · cases hs

/-- C79 fails: a monitor that asks for a client by its name is told, although it may not watch that client, that
the client exists, its labels, whether it runs and the processes, the phase and the counters of its children: only
the list of backups is emptied. -/
theorem C79_named_violated :
    ∃ (sv : Server) (es : List Event) (w : World) (s : Str) (n : Str), Honest (disks es) ∧ LastDisk es w ∧
      (∀ e ∈ es, Told e) ∧ (∀ cc, ¬ MayWatch sv w n cc) ∧
      (after sv recent es w s).map (fun i => (i.name, i.labels, i.children.map (fun k => (k.pid, k.bno, k.status)))) =
        [(n, [bytes "shut"], [(77, 2, 4)])] := by
  refine ⟨demo, [.disk (demoWorld 1 1 (bytes "shut")), .parent (Cntr.toStr Cntr.init (bytes "b") 77 2 4 (bytes "/etc"))],
    demoWorld 1 1 (bytes "shut"), bytes "c:b", bytes "b", demo_honest1 (by decide), ⟨[], _, rfl, rfl⟩, ?_,
    demo_shut 1 1, by decide +kernel⟩
  intro e he
  simp only [List.mem_cons, List.not_mem_nil, or_false] at he
  rcases he with rfl | rfl
  · trivial
  · exact .inr ⟨_, _, _, _, _, _, by decide, by decide, by decide, by decide, by decide, rfl⟩

/-- C79 fails: a client with a colon in its name, which is a valid name, is in the overview, but it cannot be asked
for. -/
theorem C79_colon_violated :
    ∃ (sv : Server) (es : List Event) (w : World) (n : Str), Honest (disks es) ∧ LastDisk es w ∧
      (∃ cc, MayWatch sv w n cc) ∧ n ∈ (after sv recent es w (bytes "c:")).map (·.name) ∧
      n ∉ (after sv recent es w (bytes "c:" ++ n)).map (·.name) :=
  ⟨demo, [.disk (demoWorld 1 1 (bytes "shut"))], demoWorld 1 1 (bytes "shut"), bytes "x:y", demo_honest1 (by decide),
    ⟨[], _, rfl, rfl⟩, ⟨⟨[bytes "mon"], [], [bytes "open"], some (bytes "/d/x:y")⟩,
      ⟨by unfold ValidName; decide, 1, bytes "open", by decide, by decide⟩, .inr ⟨rfl, bytes "mon", rfl, by decide⟩⟩,
    by decide +kernel, by decide +kernel⟩

/-- Whether a null pointer is followed in the step. -/
def Monitor.Out.crashes : Out → Bool
  | .undefined => true
  | _ => false

/-- C79 fails: for a peer of version 2.1.8 or earlier, a null pointer is followed when a client has a backup that
is being made, or was left behind, while no child has sent counters. -/
theorem C79_crash_violated :
    ∃ (sv : Server) (peer : Int) (es : List Event) (w : World) (st : State), Honest (disks es) ∧ LastDisk es w ∧
      (∀ e ∈ es, Told e) ∧ runs sv (start peer) es = some st ∧ (step sv st (.ask w (bytes "c:"))).crashes = true := by
  have hs : (runs demo (start v218) [.disk (demoWorld 1 1 (bytes "shut"))]).any (fun st =>
      (step demo st (.ask (demoWorld 1 1 (bytes "shut")) (bytes "c:"))).crashes) = true := by decide +kernel
  cases hr : runs demo (start v218) [.disk (demoWorld 1 1 (bytes "shut"))] with
  | none => rw [hr] at hs; cases hs
  | some st =>
    rw [hr] at hs
    refine ⟨demo, v218, [.disk (demoWorld 1 1 (bytes "shut"))], demoWorld 1 1 (bytes "shut"), st, demo_honest1 (by decide), ⟨[], _, rfl, rfl⟩, ?_, hr, hs⟩
    intro e he
    rw [List.mem_singleton] at he
    subst he
    trivial

/-- C79 fails: when the main configuration file changes, the files of clients are read again, but with the main
settings as they were when the monitor connected: a `restore_clients` added there does not count. -/
theorem C79_global_violated :
    ∃ (sv : Server) (g : Str) (w w' : World) (n : Str), Honest (disks [.disk w, .disk w']) ∧
      w.globalTime ≠ w'.globalTime ∧ (∃ cc, MayWatch { sv with globalText := g } w' n cc) ∧
      n ∉ (after sv recent [.disk w, .disk w'] w' (bytes "c:")).map (·.name) :=
  ⟨demo, bytes "open", demoWorld 1 1 (bytes "shut"), demoWorld 2 1 (bytes "shut"), bytes "b",
    demo_honest2 (by decide) (by decide) (by decide), by decide,
    ⟨⟨[bytes "mon"], [], [bytes "shut"], some (bytes "/d/b")⟩, ⟨by unfold ValidName; decide, 1, bytes "shut", by decide, by decide⟩,
      .inr ⟨rfl, bytes "mon", rfl, by decide⟩⟩, by decide +kernel⟩

/-- C79 fails: when a file changes that a client's file includes, the time of the client's file does not change,
and the change is not noticed: a monitor that may no longer watch a client still sees its backups. -/
theorem C79_included_violated :
    ∃ (sv : Server) (w w' : World) (n : Str), w.conf n ≠ w'.conf n ∧ (∀ cc, ¬ MayWatch sv w' n cc) ∧
      (n, [7]) ∈ (after sv recent [.disk w, .disk w'] w' (bytes "c:")).map (fun i => (i.name, i.backups.map (·.bno))) :=
  ⟨demo, demoWorld 1 1 (bytes "open"), demoWorld 1 1 (bytes "shut"), bytes "b", by decide, demo_shut 1 1,
    by decide +kernel⟩

/-- C79 fails: asking for a client that may not be watched throws its list of backups away, and when the client may
be watched again the list is not read, because the time of the directory is still that of the last reading: the
overview shows no backup. -/
theorem C79_regranted_violated :
    ∃ (sv : Server) (w1 w2 w3 : World) (s : Str) (n : Str), Honest (disks [.disk w1, .disk w2, .ask w2 s, .disk w3]) ∧
      (∃ cc d l, MayWatch sv w3 n cc ∧ cc.dir = some d ∧ w3.backups d = some l ∧ l.find? (·.current) ≠ none) ∧
      (n, []) ∈ (after sv recent [.disk w1, .disk w2, .ask w2 s, .disk w3] w3 (bytes "c:")).map
        (fun i => (i.name, i.backups.map (·.bno))) ∧
      (n, [7]) ∈ (after sv recent [.disk w1, .disk w2, .disk w3] w3 (bytes "c:")).map
        (fun i => (i.name, i.backups.map (·.bno))) := by
  refine ⟨demo, demoWorld 1 1 (bytes "open"), demoWorld 1 2 (bytes "shut"), demoWorld 1 3 (bytes "open"), bytes "c:b",
    bytes "b", demo_honest (by decide) (by decide) (by decide) (by decide) (by decide) (by decide), ?_,
    by decide +kernel, by decide +kernel⟩
  exact ⟨⟨[bytes "mon"], [], [bytes "open"], some (bytes "/d/b")⟩, bytes "/d/b", [demoBu 7 false],
    ⟨⟨by unfold ValidName; decide, 3, bytes "open", by decide, by decide⟩, .inr ⟨rfl, bytes "mon", rfl, by decide⟩⟩, rfl, by decide, by decide⟩

end Verif
