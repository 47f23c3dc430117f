import Verif.Model.Basic

/-!
# What to do with an interrupted backup: `src/server/rubble.c`
-/

namespace Verif.Rubble

/-- The loop of `incexc_matches`, `src/server/rubble.c:78-83`, on what is left of the file and of the
string. `fzp_read` returns 4096 bytes as long as there are as many. -/
def matchLoop (old inc : Str) : Str :=
  if h : old = [] then inc
  else
    let buf := old.take 4096
    if inc.length < buf.length then inc
    else if buf ≠ inc.take buf.length then inc
    else matchLoop (old.drop 4096) (inc.drop buf.length)
termination_by old.length
decreasing_by
  have : 0 < old.length := List.length_pos_iff.mpr h
  simp only [List.length_drop]
  omega

/-- `incexc_matches`, `src/server/rubble.c:63-92`: `old` is the content of the file `incexc` in the working
directory, `none` if it cannot be opened. -/
def incexcMatches (old : Option Str) (incexc : Str) : Bool :=
  match old with
  | none => true
  | some o => (matchLoop o incexc).isEmpty

/-- `enum recovery_method`, `src/conf.h:25-30`. -/
inductive Method where
  | unset | delete | resume
  deriving DecidableEq, Repr

/-- What is looked at. -/
structure Leftover where
  /-- `lstat(sdirs->rworking)` -/
  exists_ : Bool
  phase1tmp : Bool
  phase1data : Bool
  changed : Bool
  unchanged : Bool
  /-- lines of the file `resumed`, `none` if there is none -/
  resumed : Option Nat
  /-- whether the file `resumed` can be appended to -/
  appendable : Bool
  incexc : Option Str
  /-- whether the file `log` can be opened -/
  logOpens : Bool
  deriving DecidableEq, Repr

/-- Settings of the client that is connected. -/
structure Settings where
  method : Method
  maxResumeAttempts : Int
  /-- another client is connected that acts for this one -/
  superClient : Bool
  incexc : Str
  deriving DecidableEq, Repr

/-- What becomes of the working directory. -/
inductive Outcome where
  /-- only the symbolic link was there: it is removed -/
  | linkRemoved
  /-- removed -/
  | deleted
  /-- kept, and resumed if the client asks for a backup -/
  | resume
  /-- kept, and the request of the client is refused -/
  | refused
  deriving DecidableEq, Repr

/-- `append_to_resume_file`, `src/server/rubble.c:24-41`: the lines after it. -/
def appended (l : Leftover) : Option Nat :=
  if l.appendable then some (l.resumed.getD 0 + 1) else l.resumed

/-- `src/server/rubble.c:332-340`: there is still a temporary file of phase 1, or phase 1 has not got
under way. -/
def phase1Incomplete (l : Leftover) : Bool :=
  l.phase1tmp || (!l.phase1tmp && !l.phase1data && !l.changed && !l.unchanged)

/-- `working_resume`, `src/server/rubble.c:129-160`. -/
def workingResume (l : Leftover) (s : Settings) : Outcome :=
  if s.superClient then .refused
  else if incexcMatches l.incexc s.incexc then .resume else .deleted

/-- The end of `recover_working`, `src/server/rubble.c:367-395`, with the method that has been decided
on. Removing does not fail. -/
def byMethod (l : Leftover) (s : Settings) (m : Method) : Outcome :=
  if m = .delete then .deleted
  else if !l.logOpens then .refused
  else match m with
    | .resume => workingResume l s
    | _ => .refused

/-- `recover_working`, `src/server/rubble.c:309-402`. -/
def recoverWorking (l : Leftover) (s : Settings) : Outcome :=
  if !l.exists_ then .linkRemoved
  else if phase1Incomplete l then byMethod l s .delete
  else if 0 < s.maxResumeAttempts then
    match appended l with
    | none => .refused
    | some n =>
      if s.maxResumeAttempts < (n : Int) then byMethod l s .delete else byMethod l s s.method
  else byMethod l s s.method

/-- The files `log` and `log.gz` in the directory `finishing` points to. -/
structure Log where
  plain : Bool
  gz : Bool
  deriving DecidableEq, Repr

/-- `fix_log_finishing`, `src/server/rubble.c:188-249`: the files after it, and whether it reports
success. Nothing fails. -/
def fixLogFinishing (l : Log) : Log × Bool :=
  if l.plain then
    if l.gz then ({ l with gz := false }, false)
    else (l, true)
  else
    if l.gz then ({ plain := true, gz := false }, false)
    else (l, true)

end Verif.Rubble
