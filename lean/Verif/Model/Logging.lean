import Verif.Model.Basic

/-!
# Model: warnings and messages, and where they are written

`src/log.c`. The text of the time, the name of the program and its process number, which `logp` puts before each line,
is given with each call (`st`).
-/

namespace Verif.Logging

/-- `CMD_WARNING` and `CMD_MESSAGE`, `src/cmd.h:35-36`. -/
def cmdWarning : Byte := 119
def cmdMessage : Byte := 112

/-- The global variables of `src/log.c:15-21` (all but those for JSON and the counters), the files, what has gone to
syslog and to the standard output, what has been sent to the other side, and the counters of `cntr_add`. -/
structure Lg where
  cur : Option Str := none
  doSyslog : Bool := true
  doStdout : Bool := true
  files : Str → Str := fun _ => []
  syslog : List Str := []
  stdout : Str := []
  sent : List (Byte × Str) := []
  warnings : Nat := 0
  messages : Nat := 0

/-- `vsnprintf` with 512 bytes, for instance `src/log.c:38`. -/
def fit (s : Str) : Str := s.take 511

/-- Up to the first NUL. -/
def cstr (s : Str) : Str := s.takeWhile (· ≠ 0)

/-- `logp`, `src/log.c:31-76`, without JSON. Simplified: writing does not fail. -/
def logp (st text : Str) (g : Lg) : Lg :=
  match g.cur with
  | some p => { g with files := fun q => if q = p then g.files p ++ (st ++ fit text) else g.files q }
  | none =>
    { g with
      syslog := if g.doSyslog then g.syslog ++ [fit text] else g.syslog
      stdout := if g.doStdout then g.stdout ++ (st ++ fit text) else g.stdout }

/-- `asfd->write_str`, which sends nothing for an empty text, `src/asfd.c:482-494`, `:496-505`. -/
def send (c : Byte) (text : Str) (g : Lg) : Lg :=
  if text = [] then g else { g with sent := g.sent ++ [(c, text)] }

/-- `logw`, `src/log.c:238-258`. `conn`: there is another side; `est`: this is an estimate. -/
def logw (conn est : Bool) (st text : Str) (g : Lg) : Lg :=
  let buf := fit text
  let g := if conn && est then { g with stdout := g.stdout ++ (bytes "\nWARNING: " ++ buf) }
    else logp st (bytes "WARNING: " ++ buf) (if conn then send cmdWarning buf g else g)
  { g with warnings := g.warnings + 1 }

/-- `logm`, `src/log.c:218-236`. `wants`: the other side takes messages. -/
def logm (conn est wants : Bool) (st text : Str) (g : Lg) : Lg :=
  let buf := fit text
  let g := if conn && est then { g with stdout := g.stdout ++ (bytes "\nMESSAGE: " ++ buf) }
    else logp st (bytes "MESSAGE: " ++ buf) (if conn && wants then send cmdMessage buf g else g)
  { g with messages := g.messages + 1 }

/-- `src/log.c:310-316`. -/
def label (c : Byte) : Str :=
  if c = cmdMessage then bytes "MESSAGE" else if c = cmdWarning then bytes "WARNING" else bytes "unset"

/-- `log_recvd`, `src/log.c:307-326`. `cntr_add` has other counters for other commands. -/
def logRecvd (st : Str) (c : Byte) (raw : Str) (g : Lg) : Lg :=
  let text := cstr (raw.reverse.dropWhile (· = 10)).reverse
  let g := logp st (label c ++ bytes ": " ++ text ++ bytes "\n") g
  { g with
    warnings := if c = cmdWarning then g.warnings + 1 else g.warnings
    messages := if c = cmdMessage then g.messages + 1 else g.messages }

/-- `log_fzp_set`, `src/log.c:146-174`. `opens`: the file can be opened (it is opened to add at its end). Simplified:
without `openlog` and `closelog`. -/
def setLog (st : Str) (path : Option Str) (opens sys out : Bool) (g : Lg) : Bool × Lg :=
  let g := { g with cur := none }
  match path with
  | none => (true, { g with doSyslog := sys, doStdout := out })
  | some p =>
    let g := logp st (bytes "Logging to " ++ p ++ bytes "\n") g
    if opens then (true, { g with cur := some p, doSyslog := sys, doStdout := out }) else (false, g)

/-- What a program does with its log. -/
inductive Ev where
  | plain (st text : Str)
  | warn (conn est : Bool) (st text : Str)
  | msg (conn est wants : Bool) (st text : Str)
  | recvd (st : Str) (c : Byte) (raw : Str)
  | set (st : Str) (path : Option Str) (opens sys out : Bool)
  deriving DecidableEq, Repr

/-- One of these. -/
def step (g : Lg) : Ev → Lg
  | .plain st text => logp st text g
  | .warn conn est st text => logw conn est st text g
  | .msg conn est wants st text => logm conn est wants st text g
  | .recvd st c raw => logRecvd st c raw g
  | .set st path opens sys out => (setLog st path opens sys out g).2

/-- Any number of these. -/
def run (g : Lg) (es : List Ev) : Lg := es.foldl step g

end Verif.Logging
