import Verif.Model.BackupNumber
import Verif.Spec.Retention

/-!
# Histories of backups of one client, for numbering
-/

namespace Verif
open Verif.BackupNumber Verif.Retention

/-- The directory of a backup with number `n`: name and `timestamp` start with the number. -/
def IsBackup (n : Nat) (e : DirEnt) : Prop :=
  ∃ f t, e.name = stamp n f ∧ e.ts = stamp n t

/-- Something else that may be in the directory, such as a backup that was moved aside: its name does
not start with the same 8 characters as the `timestamp` inside it. -/
def Foreign (e : DirEnt) : Prop := e.ts.take 8 ≠ e.name.take 8

/-- The directory of a client, in any order, when `bs` are its finished backups: there may be a backup
in progress, one being finished, and other things. -/
def OnDisc (k : Links) (bs : List (Nat × DirEnt)) (dir : List DirEnt) : Prop :=
  ∃ others, dir.Perm (bs.map Prod.snd ++ others) ∧
    (∀ o ∈ others, Foreign o ∨ o.name = k.working ∨ o.name = k.finishing) ∧
    ∀ b ∈ bs, b.2.name ≠ k.working ∧ b.2.name ≠ k.finishing

/-- The histories of one client. `made` counts the backups that were finished; `bs` are those that
are left, with the numbers they were given, oldest first. Any of them can be deleted at any time. -/
inductive Hist : (made : Nat) → (bs : List (Nat × DirEnt)) → Prop where
  | start : Hist 0 []
  | backup {made bs} (h : Hist made bs) (k : Links) (dir : List DirEnt) (hd : OnDisc k bs dir)
      (e : DirEnt) (he : IsBackup (getNewBno k dir) e) :
      Hist (made + 1) (bs ++ [(getNewBno k dir, e)])
  | delete {made bs} (h : Hist made bs) (keep : Nat × DirEnt → Bool) : Hist made (bs.filter keep)

end Verif
