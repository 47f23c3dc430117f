import Verif.Model.MainLoop
import Verif.Spec.Net
import Verif.Lemmas.Asfd

/-!
# What the main process of the server is meant to do
-/

namespace Verif.MainLoop
open Verif Verif.Iobuf Verif.Asfd

/-- The child that is forked for a connection. -/
def Incoming.pid? : Incoming → Option Nat
  | .error => none
  | .refused => none
  | .client pid _ => some pid
  | .monitor pid => some pid

/-- The children of all turns, in order. -/
def forked (ts : List Turn) : List Nat := (ts.flatMap (·.incoming)).filterMap Incoming.pid?

/-- No two children have the same process number. -/
def Distinct (ts : List Turn) : Prop := (forked ts).Nodup

/-- The messages of a child, among what has been passed on. -/
def fromChild (pid : Nat) (told : List Said) : List Rec :=
  told.filterMap (fun x => match x with | .status p r => if p = pid then some r else none | .list _ => none)

/-- The bytes are those of the messages, or the child stopped before it had written them all. -/
def Writes (net : Str) (ms : List Rec) : Prop :=
  (∀ m ∈ ms, Sendable m) ∧ net <+: (ms.map (fun r => r.cmd :: hex04 r.buf.length ++ r.buf)).flatten

/-- Each child for a client writes messages. -/
def Honest (ts : List Turn) : Prop :=
  ∀ t ∈ ts, ∀ pid net, Incoming.client pid net ∈ t.incoming → ∃ ms, Writes net ms

/-- What the child of a monitor has read from its pipe, when it has read in the way of `evs`. -/
def heard (w : Writer) (evs : List Ev) : List Rec := (Asfd.run (arriving w.tx.sent) evs).delivered

/-- The name that a message carries is what is between its first two tabs. -/
def Names (m : Rec) (name : Str) : Prop :=
  ∃ a b, cstr m.buf = a ++ Cntr.tab :: (name ++ Cntr.tab :: b) ∧ Cntr.tab ∉ a ∧ Cntr.tab ∉ name

/-- How much room messages take at most. -/
def room (ms : List Rec) : Nat := (ms.map (fun r => r.buf.length + 6)).sum

end Verif.MainLoop
