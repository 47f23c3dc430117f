import Verif.Model.ResumeCntr
import Verif.Spec.Resume

/-!
# What the counters of a resumed backup have to be
-/

namespace Verif.ResumeCntr
open Verif.Phase2 Verif.Resume

variable {E : Type}

/-- The record has been dealt with when the backup is complete: it needs no data, or the client can send
them. -/
def settled (w : Walk E) (sent : E → Bool) (o : Out E) : Bool := !toChanged w o || sent (subject o)

/-- The counters `c` at the end of a phase 2 that begins with the counters `c0` and has the records `outs` to
deal with: each is counted once, in whatever order the data arrive. -/
def Counted (w : Walk E) (sent : E → Bool) (recvd : E → UInt64) (kept : E → Option UInt64) (c0 : Cntr.Cntr)
    (outs : List (Out E)) (c : Cntr.Cntr) : Prop :=
  ∃ order : List (Out E), order.Perm (outs.filter (settled w sent)) ∧ c = order.foldl (count w recvd kept) c0

/-- Phase 2 stopped when it had made the records `seen` and received the data for `changed`. When the data of
an entry arrive, the entry after it has been looked at, or the scan has ended: in
`backup_phase2_server_all`, `src/server/backup_phase2.c:1251-1330`, the request for an entry is sent and the
next entry is looked at before anything is read. -/
def StoppedSeen (w : Walk E) (sent : E → Bool) (scan : List E) (prev : Option (List E))
    (seen changed : List (Out E)) : Prop :=
  seen <+: phase2 w scan prev ∧
  changed <+: seen.filter (fun o => toChanged w o && sent (subject o)) ∧
  ∀ o ∈ changed, seen = phase2 w scan prev ∨
    ∃ a b, seen = a ++ o :: b ∧ b.filterMap Out.scanned ≠ []

/-- What goes to the list of unchanged entries. -/
def unchangedOf (w : Walk E) (seen : List (Out E)) : List (Out E) :=
  (seen.filter (fun o => match o with | .deleted _ => false | _ => true)).filter (fun o => !toChanged w o)

/-- The lists of changed and unchanged entries, `counters_d` and `counters_n` after any number of
interruptions, each followed by resuming. -/
inductive Halted (w : Walk E) (isDir sent : E → Bool) (len : Out E → Option UInt64) (scan : List E)
    (prev : Option (List E)) : List (Out E) → List (Out E) → List Row → List Row → Prop where
  | first {seen changed} (h : StoppedSeen w sent scan prev seen changed) :
      Halted w isDir sent len scan prev changed (unchangedOf w seen) (changed.map (rowOf w))
        ((seen.filter (fun o => !toChanged w o)).map (rowOf w))
  | again {ch un cd cn seen changed} (c : Cntr.Cntr) (h : Halted w isDir sent len scan prev ch un cd cn)
      (h' : StoppedSeen w sent (resume (outInfo w isDir) w.key ch un scan prev).scan
        (resume (outInfo w isDir) w.key ch un scan prev).prev seen changed) :
      Halted w isDir sent len scan prev
        ((resume (outInfo w isDir) w.key ch un scan prev).changed ++ changed)
        ((resume (outInfo w isDir) w.key ch un scan prev).unchanged ++ unchangedOf w seen)
        ((resumeCounters (outInfo w isDir) len c ch un cd cn).2.1 ++ changed.map (rowOf w))
        ((resumeCounters (outInfo w isDir) len c ch un cd cn).2.2 ++
          (seen.filter (fun o => !toChanged w o)).map (rowOf w))

end Verif.ResumeCntr
