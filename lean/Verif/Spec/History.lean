import Verif.Model.History
import Verif.Spec.Retention

/-!
# Histories of backups, and what a restore has to give
-/

namespace Verif
open Verif.History

/-- The property of librsync that burp relies on: a delta made against the signature of `a` turns
`a` into the wanted content. (librsync identifies blocks by strong checksums, so this is true up to
checksum collisions.) -/
def History.Librsync.Sound {C D S : Type} (L : Librsync C D S) : Prop :=
  ∀ a b, L.patch a (L.delta (L.sig a) b) = some b

/-- A stored backup together with what the client's files contained when it was made. `want` is not
part of the storage; it is what the restored content is compared with. -/
structure Dated (C D K : Type) where
  b : Backup C D K
  want : K → Option C

/-- `inc` is what the earlier phases of a backup can leave, if `want` are the contents on the
client, `cur` is the previous backup (if any) and `curWant` its contents. For each entry there is
one of four cases:
* a delta made by the client against the content in the previous backup, or a damaged delta that
  does not apply, in which case the entry is not part of the backup,
* a whole file,
* nothing: the entry is unchanged since the previous backup,
* a link to a file of the previous backup that has the same content. -/
def Arrives {C D S K : Type} (L : Librsync C D S) (cur : Option (Dated C D K))
    (inc : Incoming C D K) (want : K → Option C) : Prop :=
  (inc.man.map Prod.fst).Nodup ∧ (inc.man.map Prod.snd).Nodup ∧
  (∀ k, want k ≠ none → k ∈ inc.man.map Prod.fst) ∧
  ∀ k d, (k, d) ∈ inc.man →
    (∃ x a fd, cur = some x ∧ (k, d) ∈ x.b.man ∧ x.want k = some a ∧ inc.fwd d = some fd ∧
      ((∃ c, fd = L.delta (L.sig a) c ∧ want k = some c) ∨ (L.patch a fd = none ∧ want k = none))) ∨
    (∃ c, inc.fwd d = none ∧ inc.tmp d = some c ∧ want k = some c) ∨
    (∃ x, cur = some x ∧ (k, d) ∈ x.b.man ∧ inc.fwd d = none ∧ inc.tmp d = none ∧
      want k = x.want k) ∨
    (∃ c, inc.fwd d = none ∧ inc.tmp d = none ∧ (∀ x, cur = some x → x.b.data d = none) ∧
      inc.rel d = some c ∧ want k = some c)

/-- The histories of one client's storage, oldest backup first: any sequence of finished backups
(with any choice of hardlinked archives) and of deletions of deletable backups. -/
inductive Reachable {C D S K : Type} [DecidableEq K] (L : Librsync C D S) :
    List (Dated C D K) → Prop
  | empty : Reachable L []
  | backup {H : List (Dated C D K)} {bno : Nat} {hard : Bool} {inc : Incoming C D K}
      {want : K → Option C} {l : List (Backup C D K)} :
      Reachable L H → Arrives L H.getLast? inc want → (∀ x ∈ H, x.b.bno < bno) → 0 < bno →
      finish L bno hard inc (H.map Dated.b) = some l →
      Reachable L (List.zipWith Dated.mk l (H.map Dated.want ++ [want]))
  | delete {H : List (Dated C D K)} {bno : Nat} :
      Reachable L H →
      (∃ b ∈ H.map (fun x => x.b.bu), b.bno = bno ∧ Deletable (H.map (fun x => x.b.bu)) b) →
      Reachable L (H.filter (fun x => x.b.bno ≠ bno))

/-- A restore of entry `k` from the backup numbered `n` finds the entry in the manifest, and gives
content `c`. -/
def RestoresTo {C D S K : Type} (L : Librsync C D S) (H : List (Dated C D K)) (n : Nat) (k : K)
    (c : C) : Prop :=
  ∃ x newer d, H.dropWhile (fun y => y.b.bno ≠ n) = x :: newer ∧ (k, d) ∈ x.b.man ∧
    restoreFile L (x.b :: newer.map Dated.b) d = .content c

end Verif
