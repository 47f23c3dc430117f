import Verif.Model.Manifest
import Verif.Model.Prepend
import Verif.Model.BackupNumber

/-!
# The difference between two backups: `src/server/diff.c`

A manifest is the list of its entries, as in `Verif/Model/Manifest.lean`; an entry that has been read ahead
into an `sbuf` is the head of the list. Errors of reading manifests and of sending are left out.
-/

namespace Verif.Diff
open Verif Verif.Manifest

variable {E : Type}

/-- `send_deletion` and `send_addition`, src/server/diff.c:40-48. -/
inductive Sign where
  | minus | plus
  deriving DecidableEq, Repr

/-- The loop of `diff_manifests`, src/server/diff.c:73-134. -/
def diffManifests (key : E → Cmd × Option Str) (mtime : E → Int) (l1 l2 : List E) : List (Sign × E) :=
  match l1, l2 with
  | [], [] => []
  | a :: as, [] => (.minus, a) :: diffManifests key mtime as []
  | [], b :: bs => (.plus, b) :: diffManifests key mtime [] bs
  | a :: as, b :: bs =>
    if pcmp key a b = 0 then
      (if mtime a ≠ mtime b then [(.minus, a), (.plus, b)] else []) ++ diffManifests key mtime as bs
    else if pcmp key a b < 0 then (.minus, a) :: diffManifests key mtime as (b :: bs)
    else (.plus, b) :: diffManifests key mtime (a :: as) bs
termination_by l1.length + l2.length

/-- The text sent for an entry, `send_diff`, src/server/diff.c:23-38. -/
def diffText (s : Sign) (path : Str) : Str :=
  Prepend.prependS (some (match s with | .minus => bytes "- " | .plus => bytes "+ ")) path

/-- What `do_diff_server` decides before it compares anything. -/
inductive Chosen (B : Type) where
  | needTwo
  | notFound
  | go (b1 b2 : B)
  deriving DecidableEq, Repr

/-- The choice of the two backups in `do_diff_server`, src/server/diff.c:170-194, from the list of backups;
an empty or missing number is 0. `strtoul` is modelled for text that starts with a digit, and gives 0 for
text that starts with another character (no blanks or signs). -/
def chooseBackups {B : Type} (bno : B → Nat) (bus : List B) (backup1 backup2 : Option Str) : Chosen B :=
  let n1 := BackupNumber.strtoul (backup1.getD [])
  let n2 := BackupNumber.strtoul (backup2.getD [])
  if n1 = 0 ∨ n2 = 0 ∨ n1 = n2 then .needTwo
  else match bus.find? (fun b => bno b == n1), bus.find? (fun b => bno b == n2) with
    | some b1, some b2 => .go b1 b2
    | _, _ => .notFound

end Verif.Diff
