import Verif.Spec.Path
import Verif.Model.Sdirs

/-!
# Where the things of a client are to be

Places are told by the names on the way (`components`).
-/

namespace Verif.Sdirs
open Verif

/-- Neither is the other, or inside of the other. -/
def Outside (p q : List Str) : Prop := ¬ p <+: q ∧ ¬ q <+: p

/-- What is kept for a client, apart from the lock and `deleteme`, and the way to it from the directory of the
client. -/
def kept (d : Dirs) : List (Str × List Str) :=
  [ (d.created, [bytes ".created"]),
    (d.command, [bytes ".command"]),
    (d.working, [bytes "working"]),
    (d.finishing, [bytes "finishing"]),
    (d.current, [bytes "current"]),
    (d.currenttmp, [bytes "current.tmp"]),
    (d.restoreList, [bytes "restore_list"]),
    (d.timestamp, [bytes "working", bytes "timestamp"]),
    (d.phase1data, [bytes "working", bytes "phase1.gz"]),
    (d.changed, [bytes "working", bytes "changed"]),
    (d.unchanged, [bytes "working", bytes "unchanged"]),
    (d.countersD, [bytes "working", bytes "counters_d"]),
    (d.countersN, [bytes "working", bytes "counters_n"]),
    (d.manifest, [bytes "working", bytes "manifest.gz"]),
    (d.datadirtmp, [bytes "working", bytes "data.tmp"]),
    (d.deltmppath, [bytes "working", bytes "deltmppath"]),
    (d.currentdata, [bytes "current", bytes "data"]),
    (d.cmanifest, [bytes "current", bytes "manifest.gz"]),
    (d.cincexc, [bytes "current", bytes "incexc"]) ]

/-- What is kept for a backup, and the way to it from the directory of the backup. -/
def keptReal (r : Real) : List (Str × List Str) :=
  [ (r.rworking, []),
    (r.treepath, [bytes "data", bytes "t"]),
    (r.relink, [bytes "relink"]),
    (r.rmanifest, [bytes "manifest.gz"]) ]

/-- A name that the server gives to a backup: it begins with a digit and has no separator. -/
def BackupName (n : Str) : Prop := (∃ c, n.head? = some c ∧ 48 ≤ c.toNat ∧ c.toNat ≤ 57) ∧ slash ∉ n

/-- Everything of a client: what is kept, the lock, `deleteme`, and what is kept for its backups. -/
def Place (d : Dirs) (p : Str) : Prop :=
  (∃ w, (p, w) ∈ kept d) ∨ p = d.client ∨ p = d.lockfile ∨ p = d.deleteme
  ∨ ∃ n w, BackupName n ∧ (p, w) ∈ keptReal (realOf d n)

end Verif.Sdirs
