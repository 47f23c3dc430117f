import Verif.Model.Asfd
import Verif.Model.Yajl

/-!
# Model: the monitor client

`burp -a m` stands between a program (or a person) and the server: what is typed goes to the server, what the server
answers is printed. `src/client/monitor.c`, `src/asfd.c`, `src/async.c`.
-/

namespace Verif.Relay
open Yajl (getLine LineOut)

/-- The three descriptors of `monitor_client_main_loop`, `src/client/monitor.c:20-62`: `typed` is the read buffer of the
standard input, `line` its `rbuf`; `srvBuf` is the write buffer of the server, `gone` what has been written to it;
`outBuf` is the write buffer of the standard output, `shown` what has been written to it. `over`: the loop has ended. -/
structure St where
  typed : Str := []
  line : Option Str := none
  srvBuf : Str := []
  gone : Str := []
  outBuf : Str := []
  shown : Str := []
  over : Bool := false
  deriving DecidableEq, Repr

/-- What can happen. A message of the server has been read whole (`Asfd` has how); some bytes come from the standard
input; a line is taken from what was read; the line is copied; some bytes are written; one of the two ends. -/
inductive Ev where
  | server (m : Str)
  | keys (r : Str)
  | take
  | copy
  | wroteOut (n : Nat)
  | wroteSrv (n : Nat)
  | inputEnds
  | serverEnds
  deriving DecidableEq, Repr

/-- `CMD_GEN`, `src/cmd.h:31`, as `copy_input_to_output` has it, `src/client/monitor.c:10-15`. -/
def cmdGen : Byte := 99

/-- One thing that happens; `none` if it can not happen now. The real loop has a fixed order within a round, this has
more orders. `server`: `parse_readbuf_standard`, `src/asfd.c:109-134`, with the limit of `extract_buf`, `:37-69`, then
`copy_input_to_output` to the standard output, `:402-405`; it waits for room. `keys`: `asfd_do_read`, `:165-190`, only
when there is no line to be had from what was read before, `src/async.c:118-120`; no room is taken for the end.
`take`: `parse_readbuf_line_buf`, `:81-107`. `copy`: `asfd_write`, `:482-494`, which passes over what is empty, and waits for room.
`inputEnds`, `serverEnds`: `asfd_do_read` gets nothing, and `async_io` gives an error, `src/async.c:200-202`. -/
def step (s : St) (e : Ev) : Option St :=
  if s.over then none else
  match e with
  | .server m =>
    if m.length + 5 ≥ Asfd.bufMax then some { s with over := true }
    else if s.outBuf.length + m.length ≥ Asfd.bufMax - 1 then none
    else some { s with outBuf := s.outBuf ++ m }
  | .keys r =>
    if s.line = none ∧ getLine s.typed = .none ∧ r ≠ [] ∧ s.typed.length + r.length ≤ Yajl.bufMax then
      some { s with typed := s.typed ++ r }
    else none
  | .take =>
    if s.line = none then
      match getLine s.typed with
      | .none => if s.typed.length = Yajl.bufMax then some { s with over := true } else none
      | .tooLong => some { s with over := true }
      | .line l rest => some { s with line := some l, typed := rest }
    else none
  | .copy =>
    match s.line with
    | none => none
    | some l =>
      if l = [] then some { s with line := none }
      else match Asfd.append s.srvBuf ⟨cmdGen, l⟩ with
        | none => none
        | some b => some { s with line := none, srvBuf := b }
  | .wroteOut n => some { s with outBuf := s.outBuf.drop n, shown := s.shown ++ s.outBuf.take n }
  | .wroteSrv n => some { s with srvBuf := s.srvBuf.drop n, gone := s.gone ++ s.srvBuf.take n }
  | .inputEnds => some { s with over := true }
  | .serverEnds => some { s with over := true }

/-- Any number of things; `none` if one of them can not happen. -/
def run (s : St) : List Ev → Option St
  | [] => some s
  | e :: es => match step s e with
    | none => none
    | some t => run t es

end Verif.Relay
