import Verif.Props.JsonInput

/-!
# C93: cases
-/

namespace Verif
namespace JsonInputCases
open Monitor JsonInput

/-- The names of the counters do not matter. -/
def names : Cmd → Str := fun c => [c.toByte]

def bk (n : Nat) (flags : List String) (logs : List Log) : BackupInfo :=
  ⟨n, 1700000000 + n, flags.map bytes, none, logs.map Log.name, none, none⟩

theorem bk_ok {n : Nat} {flags : List String} {logs : List Log} (h : 0 < n ∧ n < 2 ^ 64)
    (hf : ∀ x ∈ flags, ∃ f, flagName f = some (bytes x) ∧ ∀ g, f ≠ .log g) : BackupOk (bk n flags logs) where
  bno := h
  flags := fun x hx => by
    obtain ⟨y, hy, rfl⟩ := List.mem_map.mp hx
    exact hf y hy
  logs := fun x hx => by
    obtain ⟨y, _, rfl⟩ := List.mem_map.mp hx
    exact ⟨y, rfl⟩
  counters := rfl
  entries := rfl

/-- A client at work, with counters, two backups and a log. -/
def laptop : Info where
  name := bytes "laptop"
  labels := [bytes "home", bytes "linux"]
  run := .running
  children := [⟨4711, 7, 2, [(.file, ⟨10, 1, 5, 2, 18⟩), (.bytes, ⟨123456, 0, 0, 0, 0⟩)]⟩]
  phase := none
  backups := [bk 7 ["working"] [.backup], bk 6 ["current", "manifest"] [.backup, .backupStats]]

def desktop : Info where
  name := bytes "desktop"
  labels := []
  run := .idle
  children := []
  phase := none
  backups := [bk 3 ["hardlinked", "current", "manifest"] [.backup]]

theorem laptop_ok : InfoOk laptop where
  name := by decide
  phase := rfl
  kids := by decide
  rows := fun k hk => by
    simp only [laptop, List.mem_singleton] at hk
    subst hk
    exact ⟨by decide, by decide⟩
  backups := fun b hb => by
    simp only [laptop, List.mem_cons, List.not_mem_nil, or_false] at hb
    rcases hb with rfl | rfl
    · refine bk_ok (by decide) (fun x hx => ?_)
      rw [List.mem_singleton] at hx
      subst hx
      exact ⟨.working, rfl, fun g c => by cases c⟩
    · refine bk_ok (by decide) (fun x hx => ?_)
      simp only [List.mem_cons, List.not_mem_nil, or_false] at hx
      rcases hx with rfl | rfl
      · exact ⟨.current, rfl, fun g c => by cases c⟩
      · exact ⟨.manifest, rfl, fun g c => by cases c⟩
  nodup := by decide

theorem desktop_ok : InfoOk desktop where
  name := by decide
  phase := rfl
  kids := by decide
  rows := fun k hk => by cases hk
  backups := fun b hb => by
    simp only [desktop, List.mem_singleton] at hb
    subst hb
    refine bk_ok (by decide) (fun x hx => ?_)
    simp only [List.mem_cons, List.not_mem_nil, or_false] at hx
    rcases hx with rfl | rfl | rfl
    · exact ⟨.hardlinked, rfl, fun g c => by cases c⟩
    · exact ⟨.current, rfl, fun g c => by cases c⟩
    · exact ⟨.manifest, rfl, fun g c => by cases c⟩
  nodup := by decide

theorem init_ready : Ready St.init := ⟨rfl, rfl, rfl, rfl, rfl, rfl, rfl, rfl, rfl, rfl, rfl, rfl⟩

/-- The hypotheses of `C93_answer_partial` can be met: an overview of two clients, at the beginning. Everything
is then shown. -/
example : ∃ s', feed 0 St.init (msgToks names none (.clients [laptop, desktop])) = .ok s' ∧ Ready s' ∧ result s' = 1 ∧
    ∃ a b, lookup s'.cl.list (bytes "laptop") = some a ∧ lookup s'.cl.list (bytes "desktop") = some b ∧
      a.run = .running ∧ ShowsAll laptop.children laptop.backups a.bus ∧ ShowsAll [] desktop.backups b.bus := by
  have hl : ∀ i ∈ [laptop, desktop], InfoOk i := by
    intro i hi
    simp only [List.mem_cons, List.not_mem_nil, or_false] at hi
    rcases hi with rfl | rfl
    · exact laptop_ok
    · exact desktop_ok
  obtain ⟨s', h1, h2, h3, _, h5, h6, _⟩ := C93_answer_partial (now := 0) (field := names) (asked := none) init_ready hl
    (by decide) (fun _ _ _ _ => .inl rfl)
  have hst : ∀ n bs, Steady (shownBackups St.init.cl.list n) bs := fun n bs => ⟨List.Pairwise.nil, .inl (Nat.zero_le 1)⟩
  obtain ⟨a, ha, has, hab⟩ := h6 laptop (by simp)
  obtain ⟨b, hb, _, hbb⟩ := h6 desktop (by simp)
  refine ⟨s', h1, h2, ?_, a, b, ha, hb, has.run, hab (hst _ _), hbb (hst _ _)⟩
  unfold result
  rw [if_pos (by rw [h3]; rfl), if_pos (by rw [h5]; rfl)]

/-- The lines of a log. -/
def asked : Info := { desktop with backups := [{ bk 3 ["current"] [.backup] with lines := some [bytes "one", bytes "two"] }] }

theorem asked_ok : InfoOk asked where
  name := by decide
  phase := rfl
  kids := by decide
  rows := fun k hk => by cases hk
  backups := fun b hb => by
    simp only [asked, List.mem_singleton] at hb
    subst hb
    have h : BackupOk (bk 3 ["current"] [.backup]) := by
      refine bk_ok (by decide) (fun x hx => ?_)
      rw [List.mem_singleton] at hx
      subst hx
      exact ⟨.current, rfl, fun g c => by cases c⟩
    exact ⟨h.bno, h.flags, h.logs, rfl, rfl⟩
  nodup := by decide

/-- The hypotheses of `C93_log` can be met. -/
example : ∃ s', feed 0 St.init (msgToks names (some .backup) (.clients [asked])) = .ok s' ∧
    s'.lines = [bytes "one", bytes "two"] := by
  obtain ⟨s', h1, _, _, h4, _⟩ := C93_log (now := 0) (field := names) (g := .backup) (l := [bytes "one", bytes "two"])
    init_ready asked_ok rfl rfl (by decide) (by decide)
  exact ⟨s', h1, h4⟩

/-- The hypotheses of `C93_history` can be met: an overview, a log, an overview, a warning. -/
example : ∃ s', hear names St.init [(1, none, .clients [laptop, desktop]), (2, some .backup, .clients [asked]),
    (3, none, .clients [laptop]), (4, none, .warning (bytes "Backup not found"))] = .ok s' ∧ Ready s' := by
  obtain ⟨s', h1, h2, _⟩ := C93_history (field := names) [(1, none, .clients [laptop, desktop]),
    (2, some .backup, .clients [asked]), (3, none, .clients [laptop]), (4, none, .warning (bytes "Backup not found"))]
    St.init init_ready (by
      intro m hm
      simp only [List.mem_cons, List.not_mem_nil, or_false] at hm
      rcases hm with rfl | rfl | rfl | rfl
      · refine .clients (fun i hi => ?_) (fun _ _ _ _ => .inl rfl)
        simp only [List.mem_cons, List.not_mem_nil, or_false] at hi
        rcases hi with rfl | rfl
        · exact laptop_ok
        · exact desktop_ok
      · exact .log asked_ok rfl rfl (by decide) (l := [bytes "one", bytes "two"]) (by decide)
      · refine .clients (fun i hi => ?_) (fun _ _ _ _ => .inl rfl)
        rw [List.mem_singleton] at hi
        exact hi ▸ laptop_ok
      · exact .warning (by decide))
  exact ⟨s', h1, h2⟩

/-! ### Merging -/

def e (id bno : Nat) (f : List JsonInput.Flag) (prev : Option Nat) : JsonInput.Entry := ⟨id, bno, f, some bno, prev⟩

/-- The hypotheses of `C93_merge_partial` and `C93_back_partial` can be met: 7 is still there, 6 has gone, and
so has the selection; 8 and 2 are new. -/
example : ([e 10 8 [.working] none, e 11 7 [.current] none, e 12 5 [] none, e 13 2 [] none].map (·.bno)).Nodup ∧
    [e 0 7 [.working] none, e 1 6 [.current] (some 0), e 2 5 [] (some 1)].Pairwise (fun a b => b.bno < a.bno) ∧
    mergeBuLists (some 1) [e 0 7 [.working] none, e 1 6 [.current] (some 0), e 2 5 [] (some 1)]
      [e 10 8 [.working] none, e 11 7 [.current] none, e 12 5 [] none, e 13 2 [] none] =
      ([e 10 8 [.working] none, e 0 7 [.current] (some 10), e 2 5 [] (some 0), e 13 2 [] (some 2)], none) := by
  decide +kernel

/-! ### What the server says -/

/-- The hypotheses of `C93_server_says` can be met. -/
example : StatOk ⟨bytes "a", 0, true, [], bytes "/d", 0, .idle, [],
    [⟨2, 20, bytes "/d/2", false, false, true, false, false, false, []⟩,
     ⟨1, 10, bytes "/d/1", true, false, false, false, true, true, [.backup]⟩]⟩ where
  name := by decide
  kids := by decide
  bno := by decide
  nodup := by decide
  apart := by decide

/-! ### What goes wrong -/

def outDefined : JsonInput.Out → Bool
  | .ok _ => true
  | _ => false

def isStop : JsonInput.Out → Bool
  | .stop => true
  | _ => false

def isUndefined : JsonInput.Out → Bool
  | .undefined => true
  | _ => false

def shown (n : String) : JsonInput.Out → List (Nat × List JsonInput.Flag)
  | .ok s => (shownBackups s.cl.list (bytes n)).map (fun e => (e.bno, e.flags))
  | _ => []

def box (bs : List BackupInfo) : Info := ⟨bytes "box", [], .idle, [], none, bs⟩

end JsonInputCases

open JsonInput JsonInputCases Monitor

/-- C93 fails: the backup at work, the latest one of those that are shown, goes away, because it has failed and has
been deleted, and the rest stays. The first entry is taken off the list, and the search ends there. The others of
the new list are then taken to be new, and are put in before those that are already there: each backup that is left
is shown twice, once as it is and once as it was. -/
theorem C93_backups_violated :
    shown "box" (hear names St.init [(0, none, .clients [box [bk 7 ["working"] [], bk 6 ["current"] [.backup], bk 5 [] [.backup]]])]) =
      [(7, [.working]), (6, [.current, .log .backup]), (5, [.log .backup])] ∧
    shown "box" (hear names St.init [(0, none, .clients [box [bk 7 ["working"] [], bk 6 ["current"] [.backup], bk 5 [] [.backup]]]),
      (1, none, .clients [box [bk 6 ["current"] [.backup], bk 5 ["deletable"] [.backup]]])]) =
      [(6, [.current, .log .backup]), (6, [.current, .log .backup]), (5, [.deletable, .log .backup]), (5, [.log .backup])] := by
  constructor <;> decide +kernel

/-- C93 fails: two backups have been made since the last answer. The second one is put between two others, and the
pointer back of the one after it still leads past it: going up the list from 5, one comes to 7, and not to 6. -/
theorem C93_back_violated :
    mergeBuLists none [e 0 5 [.current] none] [e 1 7 [.current] none, e 2 6 [] none, e 3 5 [] none] =
      ([e 1 7 [.current] none, e 2 6 [] (some 1), e 0 5 [] (some 1)], none) ∧
    ¬ Linked none [e 1 7 [.current] none, e 2 6 [] (some 1), e 0 5 [] (some 1)] := by
  refine ⟨by decide +kernel, ?_⟩
  rintro ⟨_, _, h, _⟩
  exact absurd h (by decide)

/-- C93 fails: a client that the server no longer tells about stays in the list. -/
theorem C93_deleted_violated :
    shown "box" (hear names St.init [(0, none, .clients [box [bk 6 ["current"] []], desktop]), (1, none, .clients [desktop])]) =
      [(6, [.current])] := by
  decide +kernel

/-- C93 fails: a key of 32 bytes or more, from the other side, runs over the end of the array it is copied to. -/
theorem C93_key_violated : isUndefined (feed 0 St.init [.startMap, .key (List.replicate 32 65)]) = true := by
  decide +kernel

/-- C93 fails: counters, or the end of the backups, before any name: a null pointer is followed. -/
theorem C93_order_violated :
    isUndefined (feed 0 St.init [.startMap, .key (bytes "counters"), .startArr]) = true ∧
    isUndefined (feed 0 St.init [.startMap, .key (bytes "backups"), .startArr, .endArr]) = true := by
  constructor <;> decide +kernel

/-- C93 fails: the marks around answers, which a client can ask for, and the listing of a directory are not known
to the client; it gives up. -/
theorem C93_answers_violated :
    isStop (feed 0 St.init (msgToks names none (.start (bytes "c:")))) = true ∧
    isStop (feed 0 St.init (msgToks names none (.finish (bytes "c:")))) = true ∧
    isStop (feed 0 St.init (msgToks names none
      (.clients [box [{ bk 6 ["current"] [.backup] with entries := some (bytes "/home", []) }]]))) = true := by
  refine ⟨?_, ?_, ?_⟩ <;> decide +kernel

end Verif
