import Verif.Model.Timer

/-!
# What is done from time to time while the server works: `src/server/child.c`

The server calls `timed_operation` for every entry that it works on. From time to time that tells the parent
process how far it has got, and it runs the timer again. With it: what a request for a timed backup does with
the timer (`src/server/backup.c`), and the file `backup` with which an administrator asks for a backup
(`src/server/timer.c`). Memory does not run out, and a file that is to be removed is removed.
-/

namespace Verif.TimedOps
open Verif

/-- The settings: `timer_repeat_interval`, whether there is a `timer_script`, and `timer_arg`. -/
structure Conf where
  repeatMin : Int
  useScript : Bool
  args : List Str
  deriving DecidableEq, Repr

/-- What the server finds when it looks at the clock (`get_current_day_and_hour_and_unixtime`,
`src/server/timer.c:49-63`, and `src/server/child.c:118`), and what the timer script returns if it is run then. -/
structure Moment where
  now : Int
  day : Str
  hour : Str
  script : Int
  deriving DecidableEq, Repr

/-- The storage directory of the client: whether there is the file `backup`, whether there is a backup, and the
time of that (`none`: it cannot be read). -/
structure Store where
  manual : Bool
  hasCurrent : Bool
  last : Option Int
  deriving DecidableEq, Repr

/-- `run_timer` with `check_manual_file`, `src/server/timer.c:21-47,252-307`: what it returns, and the storage
directory after that. The rest of `run_timer_internal` is `Timer.runTimer`. With a script, the file `backup` is
left to the script, which gets the directory as an argument. `none`: undefined behaviour. -/
def runTimer (c : Conf) (m : Moment) (st : Store) : Option (Int × Store) :=
  if c.useScript then some (m.script, st)
  else match Timer.runTimer ⟨st.manual, c.args, m.day, m.hour, m.now, st.hasCurrent, st.last⟩ with
    | .undefined => none
    | .error => some (-1, st)
    | .run => some (0, { st with manual := false })
    | .wait => some (1, st)

/-- What comes of the request for a timed backup. -/
inductive Begin where
  | error
  /-- `timer conditions not met` -/
  | notMet
  /-- `timer conditions met`, for a request that only asks -/
  | met
  | begun
  deriving DecidableEq, Repr

/-- The timer at the start of `run_backup`, `src/server/backup.c:321-345`. `check`: the request is
`backupphase1timedcheck`. -/
def begin (c : Conf) (check : Bool) (m : Moment) (st : Store) : Option (Begin × Store) :=
  match runTimer c m st with
  | none => none
  | some (r, st) =>
    some (if r < 0 then .error else if r ≠ 0 then .notMet else if check then .met else .begun, st)

/-- `cntr_status`: what the server is doing. -/
inductive Doing where
  | scanning | backup | other
  deriving DecidableEq, Repr

/-- `enum append_ret`. -/
inductive Append where
  | ok | blocked | error
  deriving DecidableEq, Repr

/-- What `write_status` needs: whether there is a connection to the parent process, whether there is a backup
number, what `cntr_to_str` gives, and what comes of writing. -/
structure Wire where
  pipe : Bool
  bno : Nat
  line : Str
  append : Append
  deriving DecidableEq, Repr

/-- The static variables of `write_status` and `check_timer_script`: when each of them last did something, and
the status line that is still to be written. `sent` are the lines that have been written, the last one first,
with the time. -/
structure Proc where
  statusLast : Int := 0
  pending : Option Str := none
  timerLast : Int := 0
  sent : List (Int × Str) := []
  deriving DecidableEq, Repr

/-- `write_status`, `src/server/child.c:24-70`. `false`: an error. -/
def writeStatus (p : Proc) (now : Int) (w : Wire) : Bool × Proc :=
  let diff := now - p.statusLast
  if diff < 2 then (true, if diff < 0 then { p with statusLast := now } else p)
  else
    let p := { p with statusLast := now }
    if !w.pipe then (true, p)
    else if w.bno = 0 then (true, p)
    else
      match p.pending, w.line with
      | none, [] => (false, p)
      | pend, line =>
        let l := pend.getD line
        match w.append with
        | .ok => (true, { p with pending := none, sent := (now, l) :: p.sent })
        | .blocked => (true, { p with pending := some l })
        | .error => (false, p)

/-- `check_timer_script`, `src/server/child.c:72-109`. `none`: undefined behaviour, in the timer or because the
interval in seconds is no `int`. -/
def checkTimer (c : Conf) (d : Doing) (m : Moment) (p : Proc) (st : Store) : Option (Int × Proc × Store) :=
  if d ≠ .scanning ∧ d ≠ .backup then some (0, p, st)
  else
    let interval := c.repeatMin * 60
    if interval < -2 ^ 31 ∨ 2 ^ 31 ≤ interval then none
    else if interval = 0 then some (0, p, st)
    else
      let diff := m.now - p.timerLast
      if diff < interval then some (0, if diff < 0 then { p with timerLast := m.now } else p, st)
      else
        match runTimer c m st with
        | none => none
        | some (r, st) => some (r, { p with timerLast := m.now }, st)

/-- `timed_operation`, `src/server/child.c:111-129`. `timed`: the client asked for a timed backup (`act`). -/
def timedOp (c : Conf) (timed : Bool) (d : Doing) (m : Moment) (w : Wire) (p : Proc) (st : Store) :
    Option (Int × Proc × Store) :=
  let r := writeStatus p m.now w
  if !r.1 then some (-1, r.2, st)
  else if !timed then some (0, r.2, st)
  else checkTimer c d m r.2 st

/-- What happens while a backup is being made: the server comes to the next entry, or an administrator creates
the file `backup`. -/
inductive Ev where
  | entry (d : Doing) (m : Moment) (w : Wire)
  | touch
  deriving DecidableEq, Repr

/-- How it goes on. -/
inductive Run where
  | undefined
  /-- `timed_operation` did not return 0, and the backup is given up (`src/server/backup_phase1.c:65-68`,
  `src/server/backup_phase2.c:1248-1250`) -/
  | stopped (ret : Int) (st : Store)
  | going (p : Proc) (st : Store)
  deriving DecidableEq, Repr

/-- The calls of `timed_operation` during a backup. Phases 3 and 4 use `timed_operation_status_only`
(`src/server/child.c:131-143`), with something else than `scanning` and `backup`. -/
def run (c : Conf) (timed : Bool) : Proc → Store → List Ev → Run
  | p, st, [] => .going p st
  | p, st, .touch :: es => run c timed p { st with manual := true } es
  | p, st, .entry d m w :: es =>
    match timedOp c timed d m w p st with
    | none => .undefined
    | some (r, p, st) => if r ≠ 0 then .stopped r st else run c timed p st es

end Verif.TimedOps
