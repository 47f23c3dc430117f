import Verif.Props.CommandLine

/-!
# C96: what goes wrong, and cases
-/

namespace Verif
open CommandLine Seed

namespace CommandLine

instance (g : Given) : Decidable (Shows g) := by unfold Shows; infer_instance

instance (g : Given) : Decidable (Helps g) :=
  decidable_of_iff (g.1 = .help ∨ g.1 = .question ∨ g.1 = .unused ∨
      (g.1 = .action ∧ g.2.any (fun v => decide (actionOf v = none)) = true)) (by
    obtain ⟨k, v⟩ := g
    unfold Helps
    constructor
    · rintro (h | h | h | ⟨h1, h2⟩)
      · exact Or.inl h
      · exact Or.inr (Or.inl h)
      · exact Or.inr (Or.inr (Or.inl h))
      · cases v with
        | none => cases h2
        | some v =>
          simp only at h1
          subst h1
          exact Or.inr (Or.inr (Or.inr ⟨v, rfl, by simpa using h2⟩))
    · rintro (h | h | h | ⟨v, h1, h2⟩)
      · exact Or.inl h
      · exact Or.inr (Or.inl h)
      · exact Or.inr (Or.inr (Or.inl h))
      · injection h1 with h3 h4
        subst h3 h4
        exact Or.inr (Or.inr (Or.inr ⟨rfl, by simpa using h2⟩)))

instance (g : Given) : Decidable (Plain g) := by unfold Plain; infer_instance

/-- A client, with `randomise = 1200`, where everything works. -/
def good : Env := ⟨fun _ _ => some ⟨.client, 1200⟩, fun _ => true, true, true⟩

/-- A server. -/
def goodServer : Env := ⟨fun _ _ => some ⟨.server, 0⟩, fun _ => true, true, true⟩

end CommandLine

/-- A restore: `-fb3 -a restore -d /tmp/ -rx`. -/
example : Spells [(.force, none), (.backup, some (bytes "3")), (.action, some (bytes "restore")),
    (.dir, some (bytes "/tmp/")), (.regex, some (bytes "x"))]
    [bytes "-fb3", bytes "-a", bytes "restore", bytes "-d", bytes "/tmp/", bytes "-rx"] :=
  (C96_spelled _ _).mp (by decide +kernel)

example : main good (bytes "/etc/burp.conf") [bytes "-fb3", bytes "-a", bytes "restore", bytes "-d", bytes "/tmp/",
    bytes "-rx"] = .client { Line.init (bytes "/etc/burp.conf") with
      act := .restore
      backup := some (bytes "3")
      dir := some (bytes "/tmp")
      force := true
      regex := some (bytes "x") } 0 false := by decide +kernel

/-- Two ways to write a deletion. -/
example : main good [] [bytes "-b", bytes "5", bytes "-adelete", bytes "--"] =
    main good [] [bytes "-a", bytes "delete", bytes "-b5"] ∧
    (main good [] [bytes "-a", bytes "delete", bytes "-b5"]).code = none := by decide +kernel

/-- The premises of `C96_order` for them. -/
example : let gs : List Given := [(.backup, some (bytes "5")), (.action, some (bytes "delete"))]
    (∀ g ∈ gs, Plain g) ∧ ∀ n, gs.filter (fun g => decide (g.1.subject = n)) =
      [((.action, some (bytes "delete")) : Given), (.backup, some (bytes "5"))].filter
        (fun g => decide (g.1.subject = n)) := by
  refine ⟨by decide +kernel, ?_⟩
  intro n
  by_cases h : n = 0
  · subst h
    decide +kernel
  · have h1 : ¬ Letter.subject .action = n := fun e => h (by rw [← e]; rfl)
    simp [List.filter, h1]

/-- No deletion without a backup, none without the whole word, nothing with a word too many, an unknown option, or an
argument that is missing. -/
example : main good [] [bytes "-a", bytes "delete"] = .noBackup ∧
    (∃ l, main good [] [bytes "-a", bytes "del", bytes "-b", bytes "1"] = .client l 0 false ∧ l.act = .diff) ∧
    main good [] [bytes "-a", bytes "delete", bytes "-b", bytes "1", bytes "2"] = .usage ∧
    main good [] [bytes "-a", bytes "delete", bytes "-b", bytes "1", bytes "-y"] = .usage ∧
    main good [] [bytes "-a", bytes "delete", bytes "-b"] = .usage := by
  refine ⟨by decide +kernel, ⟨_, rfl, ?_⟩, by decide +kernel, by decide +kernel, by decide +kernel⟩
  decide +kernel

/-- The version is shown although a word is wrong later. -/
example : main good [] [bytes "-fV", bytes "-y"] = .shown := by decide +kernel

/-- A difference has two backups; a third is not looked at. -/
example : ∃ l, main good [] [bytes "-a", bytes "d", bytes "-b1", bytes "-b2", bytes "-b3"] = .client l 0 false ∧
    l.backup = some (bytes "1") ∧ l.backup2 = some (bytes "2") := by
  refine ⟨_, rfl, ?_⟩
  decide +kernel

/-- A backup that is started by a timer waits, and has the lock. -/
example : (∃ l, main good [] [bytes "-a", bytes "t"] = .client l 1200 true) ∧
    (∃ l, main good [] [bytes "-a", bytes "t", bytes "-q", bytes "60"] = .client l 60 true) ∧
    main { good with lock := false } [] [bytes "-a", bytes "t"] = .noLock ∧
    (∃ l, main goodServer [] [] = .server l) ∧
    main { goodServer with lock := false } [] [] = .noLock := by
  refine ⟨⟨_, rfl⟩, ⟨_, rfl⟩, by decide +kernel, ⟨_, rfl⟩, by decide +kernel⟩

/-- Success without `client` or `server`: a test of the configuration. -/
example : (main good [] [bytes "-t"]).code = some 0 := by decide +kernel

/-- C96 fails: an action need not be one of those that there are. Only the first letter is looked at, except for
`delete`: `-a browse` makes a backup, and `-a remove` restores, over files that are there if `-f` is given. -/
theorem C96_action_violated :
    (∃ l, main good [] [bytes "-a", bytes "browse"] = .client l 0 true ∧ l.act = .backup) ∧
    (∃ l, main good [] [bytes "-f", bytes "-a", bytes "remove"] = .client l 0 false ∧ l.act = .restore ∧ l.force = true ∧
      l.backup = some (bytes "0")) := by
  refine ⟨⟨_, rfl, ?_⟩, ⟨_, rfl, ?_⟩⟩ <;> decide +kernel

/-- C96 fails: the help has options "to use with '-a c'", but that action is answered with the help. -/
theorem C96_help_violated (e : Env) (conffile : Str) (v : Str) :
    main e conffile [bytes "-a", bytes "c", bytes "-C", v] = .usage :=
  (C96_first (gs := []) (g := (.action, some (bytes "c"))) (gs' := [(.client, some v)])
    (Spells.separate [] .action (bytes "c") (by simp) (by decide)
      (Spells.separate [] .client v (by simp) (by decide) .done)) (by simp) e conffile).2
    (Or.inr (Or.inr (Or.inr ⟨bytes "c", rfl, by decide⟩)))

/-- C96 fails: the test of the settings for one client always reports failure, also when they are good:
`burp -t -C client`. -/
theorem C96_test_violated {e : Env} {conffile : Str} {c : Conf} {v : Str} (h : e.load conffile [] = some c)
    (_ : e.loadClient v = true) : main e conffile [bytes "-t", bytes "-C", v] = .tested (-1) := by
  have hs : Spells [(.test, none), (.client, some v)] [bytes "-t", bytes "-C", v] :=
    Spells.flags [.test] (by simp) (by decide)
      (Spells.separate [] .client v (by simp) (by decide) .done)
  have hp : ∀ g ∈ ([(.test, none), (.client, some v)] : List Given), Plain g := by
    intro g hg
    simp only [List.mem_cons, List.not_mem_nil, or_false] at hg
    rcases hg with rfl | rfl <;> simp [Plain, Shows, Helps]
  have h' : e.load (lineOf conffile [(.test, none), (.client, some v)]).conffile
      (allOverrides (lineOf conffile [(.test, none), (.client, some v)])) = some c := h
  rw [C96_line hs hp, start_eq, h']
  simp only
  have h1 : (lineOf conffile [(.test, none), (.client, some v)]).test = true := rfl
  have h2 : (lineOf conffile [(.test, none), (.client, some v)]).origClient = some v := rfl
  rw [if_pos h1, h2]
  simp [runTestConfs]

example : (good.load (bytes "c") [] = some ⟨.client, 1200⟩) ∧ good.loadClient (bytes "x") = true := ⟨rfl, rfl⟩

/-- C96 fails: `-q 0` does not take the delay away that is in the configuration. -/
theorem C96_delay_violated : ∃ l, main good [] [bytes "-a", bytes "t", bytes "-q", bytes "0"] = .client l 1200 true :=
  ⟨_, rfl⟩

end Verif
