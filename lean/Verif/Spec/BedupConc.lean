import Verif.Model.BedupConc

/-!
# Deduplication while the server goes on, as a user sees it

What the server would have without `bedup` is `as.foldl Server.act s`.
-/

namespace Verif.BedupConc
open Verif

/-- What the disk is like before `bedup` begins, whatever the server is doing. -/
structure Fine (s : Server) : Prop where
  /-- files are below the directories of backups -/
  known : ∀ p, s.at_ p ≠ none → ∃ d e r, p.2 = d :: e :: r ∧ d ∈ s.used p.1
  busy : ∀ c d, s.busy c d → d ∈ s.used c
  /-- inodes that are not in use yet are not in use -/
  fresh : ∀ p i, s.at_ p = some i → i < s.next
  writing : ∀ i ∈ s.writing, i < s.next
  /-- only files of backups that are being made are written to -/
  closed : ∀ p i, s.at_ p = some i → i ∈ s.writing → s.inBusy p

/-- No backup of a client begins while `bedup` is at work on the files of that client. -/
def Quiet (t : Sys) : Act → Prop
  | .start c _ => t.prog.place ≠ .halfway c ∧ t.prog.place ≠ .inside c
  | _ => True

/-- Backups may begin at any time. -/
def Any (_ : Sys) (_ : Act) : Prop := True

/-- The server takes no finished backup away, and changes none. -/
def Act.keeps : Act → Prop
  | .drop _ _ => False
  | .replace _ _ _ => False
  | _ => True

end Verif.BedupConc
