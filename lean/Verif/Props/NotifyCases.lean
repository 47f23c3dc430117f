import Verif.Props.Notify

/-!
# C83: cases, and where it fails
-/

namespace Verif
open Verif RunAction Notify

namespace Notify

/-- A client that may do anything. -/
def exC : Conf := ⟨true, true, true, true, true, true, false, 2⟩

/-- All is well, and the timer conditions are met. -/
def exE : Env := ⟨true, false, true, true, .got, .ok false, 0, some true, true⟩

/-- All four scripts are set. The setting about failovers has its default. -/
def exS : Settings := ⟨bytes "cli", some (bytes "pre.sh"), [], true, some (bytes "post.sh"), [bytes "arg"], true, true,
  some (bytes "ok.sh"), [bytes "me@here"], false, false, some (bytes "bad.sh"), [], true⟩

/-- Scripts succeed. -/
def exW (ret : Int) (left : Bool) : World :=
  ⟨fun _ => 0, fun _ => [], ret, 3, 1, left, bytes "/spool/cli", bytes "/spool/cli/current"⟩

/-- The script for successes, as called. -/
def exOk : List Str := [bytes "ok.sh", bytes "cli", bytes "/spool/cli", bytes "/spool/cli/current", bytes "log",
  bytes "backup", bytes "3", bytes "me@here"]

/-- The script for failures, as called. -/
def exBad : List Str := [bytes "bad.sh", bytes "cli", bytes "/spool/cli", bytes "/spool/cli/current", bytes "log",
  bytes "backup", bytes "0"]

instance (l : List Ev) : Decidable (Began l) :=
  decidable_of_iff (Ev.did (.backedUp true) ∈ l ∨ Ev.did (.backedUp false) ∈ l)
    ⟨fun h => h.elim (fun h => ⟨_, h⟩) (fun h => ⟨_, h⟩), fun ⟨r, h⟩ => by
      cases r
      · exact Or.inr h
      · exact Or.inl h⟩

/-- The whole course of a backup. -/
example : Began (child exC exE exS (exW 0 false) true (bytes "backupphase1")).1 ∧
    scripts (child exC exE exS (exW 0 false) true (bytes "backupphase1")).1 =
    [told exS (bytes "pre.sh") (bytes "pre") (bytes "backup") false false, exOk,
      told exS (bytes "post.sh") (bytes "post") (bytes "backup") false false ++ [bytes "arg"]] := by decide +kernel

example : scripts (child exC exE exS (exW (-1) false) true (bytes "backupphase1")).1 =
    [told exS (bytes "pre.sh") (bytes "pre") (bytes "backup") false false, exBad,
      told exS (bytes "post.sh") (bytes "post") (bytes "backup") true false ++ [bytes "arg"]] := by decide +kernel

/-- The hypotheses of `C83_failure_told` and `C83_success_told` are met. -/
example : Began (actionServer exC exE exS (exW (-1) false) true (bytes "backupphase1")).evs ∧
    ¬ (exS.failoversSetting = true ∧ (exW (-1) false).failoversLeft = true) := by decide +kernel

example : Began (actionServer exC exE exS (exW 0 false) true (bytes "backupphase1timed")).evs ∧
    Wanted exS (exW 0 false) := by decide +kernel

/-- Those of `C83_success_true_partial`. -/
example : exOk ∈ scripts (actionServer exC exE exS (exW 0 false) true (bytes "backupphase1timed")).evs ∧
    exOk.head? = exS.success ∧ begins (bytes "backupphase1timed") (bytes "backupphase1timedcheck") = false := by
  decide +kernel

/-- Those of `C83_no_false_alarm`. -/
example : exBad ∈ scripts (actionServer exC exE exS (exW 1 false) true (bytes "backupphase1timed")).evs ∧
    exBad.head? = exS.failure ∧ exS.failure ≠ exS.success := by decide +kernel

/-- Those of `C83_not_met`. -/
example : scripts (actionServer exC { exE with timer := some false } exS (exW 0 false) true
    (bytes "backupphase1timed")).evs = [] := by decide +kernel

/-- Those of `C83_pre_stops`: the first script fails. -/
example : (child exC exE { exS with postRunOnFail := false } { exW 0 false with scriptRet := fun _ => 1, output := fun _ => bytes "no disc" } true
    (bytes "backupphase1")) = ([.script (told exS (bytes "pre.sh") (bytes "pre") (bytes "backup") false false),
      .did (.saidError (bytes "server pre script pre.sh returned an error")),
      .script [bytes "bad.sh", bytes "cli", [], bytes "no disc", [], [], []]], -1) := by decide +kernel

/-- Those of `C83_trouble_told` and `C83_timer_told`. -/
example : (scripts (actionServer exC { exE with lock := .error } exS (exW 0 false) true
    (bytes "backupphase1")).evs).length = 1 ∧
    (scripts (actionServer exC { exE with timer := none } exS (exW 0 false) true
    (bytes "backupphase1timed")).evs).length = 1 := by decide +kernel

/-- Only with warnings, or only with changes. -/
example : scripts (actionServer exC exE { exS with warningsOnly := true } { exW 0 false with warnings := 0 } true
    (bytes "backupphase1")).evs = [] ∧
    scripts (actionServer exC exE { exS with warningsOnly := true } (exW 0 false) true
      (bytes "backupphase1")).evs = [exOk] := by decide +kernel

end Notify

/-- C83 fails: a client that only asks whether it is time for a backup has the script for successes run, with the
log of the last backup, each time the answer is yes, though no backup is made (`src/server/run_action.c:585-588`,
`src/server/backup.c:338-344`). -/
theorem C83_check_violated : ∃ c e s w buf, scripts (actionServer c e s w true buf).evs = [exOk] ∧
    ¬ Began (actionServer c e s w true buf).evs :=
  ⟨exC, exE, exS, exW (-1) false, bytes "backupphase1timedcheck", by decide +kernel⟩

/-- C83 fails: when a backup is refused because the client may not force one, or because another client asks for
it, the script for successes is run as for a backup (`src/server/backup.c:310-315,346-352`,
`src/server/run_action.c:585-588`). -/
theorem C83_refused_violated :
    (∃ c e s w, c.canForceBackup = false ∧ scripts (actionServer c e s w true (bytes "backupphase1")).evs = [exOk] ∧
      ¬ Began (actionServer c e s w true (bytes "backupphase1")).evs) ∧
    (∃ c e s w, c.superClient = true ∧ scripts (actionServer c e s w true (bytes "backupphase1timed")).evs = [exOk] ∧
      ¬ Began (actionServer c e s w true (bytes "backupphase1timed")).evs) :=
  ⟨⟨{ exC with canForceBackup := false }, exE, exS, exW (-1) false, by decide +kernel⟩,
    ⟨{ exC with superClient := true }, exE, exS, exW (-1) false, by decide +kernel⟩⟩

/-- C83 fails: with as many backups as are allowed already running, a backup is turned away, and the script to be
run last is told that it succeeded and that the timer conditions were met (`src/server/run_action.c:564-569`,
`src/server/child.c:318-326`). -/
theorem C83_turned_away_violated : ∃ c e s w, ¬ Began (child c e s w true (bytes "backupphase1timed")).1 ∧
    (child c e s w true (bytes "backupphase1timed")).1.getLast? =
      some (.script (told s (bytes "post.sh") (bytes "post") (bytes "backup_timed") false false ++ s.postArgs)) :=
  ⟨exC, { exE with working := 2 }, exS, exW (-1) false, by decide +kernel⟩

/-- C83 fails: the setting to be notified of a failure while there are other servers to try works the other way
round. With it on, which is the default, a failed backup is not notified; with it off it is
(`src/server/run_action.c:574-579`, `src/server/child.c:180-185`). -/
theorem C83_failovers_violated : ∃ c e s w,
    Began (actionServer c e s w true (bytes "backupphase1")).evs ∧ w.backupRet ≠ 0 ∧ w.failoversLeft = true ∧
    s.failoversSetting = true ∧ scripts (actionServer c e s w true (bytes "backupphase1")).evs = [] ∧
    scripts (actionServer c e { s with failoversSetting := false } w true (bytes "backupphase1")).evs = [exBad] :=
  ⟨exC, exE, exS, exW (-1) true, by decide +kernel⟩

/-- C83 fails: when something is wrong with the lock as a backup is to be deleted, the notification calls it
`unknown` (`src/server/run_action.c:414-424`). -/
theorem C83_delete_violated : ∃ c e s w, scripts (actionServer c e s w true (bytes "Delete 0000003")).evs =
    [[bytes "bad.sh", bytes "cli", [], bytes "error in get_lock_sdirs()", [], bytes "unknown", bytes "0"]] :=
  ⟨exC, { exE with lock := .error }, exS, exW 0 false, by decide +kernel⟩

/-- C83 fails: a backup that was interrupted after the transfer is completed when the client next connects, and
then nobody is notified, though the settings ask for it; the script to be run last is told of a failure
(`src/server/run_action.c:543-547`). -/
theorem C83_finalised_violated : ∃ c e s w, e.rubble = .finalising ∧ Wanted s w ∧
    scripts (child c e s w true (bytes "backupphase1")).1 =
      [told s (bytes "pre.sh") (bytes "pre") (bytes "backup") false false,
       told s (bytes "post.sh") (bytes "post") (bytes "backup") true false ++ s.postArgs] :=
  ⟨exC, { exE with rubble := .finalising }, exS, exW 0 false, by decide +kernel⟩

/-- C83 fails: of many arguments for a script those beyond the sixty-third are dropped without a word
(`src/run_script.c:138-139`). -/
theorem C83_args_violated : ∃ c e s w cmd, s.successArgs.length = 57 ∧
    scripts (actionServer c e s w true (bytes "backupphase1")).evs = [cmd] ∧
    bytes "last" ∈ s.successArgs ∧ bytes "last" ∉ cmd :=
  ⟨exC, exE, { exS with successArgs := List.replicate 56 (bytes "a") ++ [bytes "last"] }, exW 0 false,
    exOk.take 7 ++ List.replicate 56 (bytes "a"), by decide +kernel⟩

/-- C83 in part: a script gets all of its arguments, if there are no more than sixty-three of them. -/
theorem C83_args_partial (script : Str) (args user : List Str) (h : args.length + user.length + 1 ≤ 63) :
    Notify.runScript (some script) args user = [.script (script :: args ++ user)] := by
  simp only [runScript, cmdline]
  rw [List.take_of_length_le (by simp; omega)]

end Verif
