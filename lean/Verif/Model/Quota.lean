import Verif.Model.Cmd

/-!
# Quotas: `src/server/quota.c` and the estimate of `src/server/backup_phase1.c`
-/

namespace Verif.Quota

/-- `cntr_add_val(cntr, CMD_BYTES_ESTIMATED, ...)` for every entry of the scan that counts,
`src/server/backup_phase1.c:71-75`, in `uint64_t`. `size` is `st_size`, which the cast makes unsigned. -/
def estimate (scan : List (Cmd × Int)) : Nat :=
  scan.foldl (fun n e => if e.1.isEstimatable then (n + (e.2 % 2 ^ 64).toNat) % 2 ^ 64 else n) 0

/-- What `check_quota` does: the message for the client, and whether the backup is refused. -/
inductive Verdict where
  | fine
  | warned
  | refused
  deriving DecidableEq, Repr

/-- `check_quota`, `src/server/quota.c:18-35`. (The log line for the hard quota gives the number of the
soft quota; log lines are not modelled.) -/
def checkQuota (byte hard soft : Nat) : Verdict :=
  if hard ≠ 0 ∧ byte > hard then .refused
  else if soft ≠ 0 ∧ byte > soft then .warned
  else .fine

end Verif.Quota
