import Verif.Model.Basic

/-!
# Model of the retention policy: `src/server/delete.c`, `src/server/bu_get.c`

Backups of one client are a list, oldest first, as `bu_get_list` returns them
(`src/server/bu_get.c:142-218`). The directory scan itself is not modelled here; see
`Verif/Model/BackupNumber.lean`.
-/

namespace Verif.Retention

/-- `struct bu` (`src/bu.h:25-45`): the backup number and the `BU_HARDLINKED` flag, which
`maybe_add_ent` sets when the backup holds a `hardlinked` file (`src/server/bu_get.c:71`). Paths,
timestamps and the other flags are left out. -/
structure Bu where
  bno : Nat
  hard : Bool
deriving Repr, DecidableEq

/-- A list entry after `setup_indices`: with the `BU_DELETABLE` flag and `trbno`. -/
structure Ent where
  bu : Bu
  deletable : Bool
  trbno : Nat
deriving Repr, DecidableEq

/-- The number of the last backup, 0 if there is none. `src/server/bu_get.c:109,124,133`. -/
def lastBno (l : List Bu) : Nat := ((l.getLast?).map Bu.bno).getD 0

/-- The loops of `setup_indices`, `src/server/bu_get.c:112-137`: the backup after a hardlinked one
is deletable; `trbno = tr-bno+1`. `tr` is an `int` holding the last backup number, so this is exact
for backup numbers below `2^31` that do not exceed the last one. -/
def mark (tr : Nat) : Bool → List Bu → List Ent
  | _, [] => []
  | d, b :: bs =>
    { bu := b, deletable := d, trbno := if tr = 0 then 0 else tr - b.bno + 1 } :: mark tr b.hard bs

/-- `setup_indices`, `src/server/bu_get.c:104-140`. The oldest backup is deletable (line 128). -/
def setupIndices (l : List Bu) : List Ent := mark (lastBno l) true l

/-- The values that `r` takes in `for(r=rmax; r>rmin; r-=rmin)`, `src/server/delete.c:114`; `fuel`
bounds the number of rounds. -/
def rangesFuel (rmin : Nat) : Nat → Nat → List Nat
  | 0, _ => []
  | fuel + 1, r => if rmin < r then r :: rangesFuel rmin fuel (r - rmin) else []

/-- The same with enough rounds: `r` falls by at least one in each, because `rmin` is positive when
the loop runs (with `rmin` 0, `rmax` is 0 too). -/
def ranges (rmin r : Nat) : List Nat := rangesFuel rmin r r

/-- `src/server/delete.c:131-142`: walk from the most recent backup and delete deletable ones
strictly inside the range until one is left. Returns the deletions attempted, in order. -/
def thin (s r : Nat) : List Ent → Nat → List Ent
  | [], _ => []
  | e :: es, count =>
    if s < e.trbno ∧ e.trbno < r ∧ e.deletable = true then
      if count - 1 ≤ 1 then [e] else e :: thin s r es (count - 1)
    else thin s r es count

/-- The body of the loop over ranges, `src/server/delete.c:116-142`. -/
def thinRange (rmin r : Nat) (es : List Ent) : List Ent :=
  let s := r - rmin
  let count := (es.filter (fun e => decide (s < e.trbno) && decide (e.trbno ≤ r))).length
  if count ≤ 1 then [] else thin s r es.reverse count

/-- `range_loop`, `src/server/delete.c:103-146`; `knext` is `keep->next->flag`. `unsigned long`
arithmetic is exact: the product of the keep values is limited (`src/conffile.c:775`). -/
def rangeLoop (rmin knext : Nat) (es : List Ent) : List Ent :=
  (ranges rmin (rmin * knext)).flatMap (fun r => thinRange rmin r es)

/-- The loop over the keep values, `src/server/delete.c:163-172`, started with `m`; returns the
deletions it attempts and the final `m`. -/
def keepLoop (es : List Ent) : Nat → List Nat → List Ent × Nat
  | m, [] => ([], m)
  | m, [k] => ([], m * k)
  | m, k :: k2 :: ks =>
    let rest := keepLoop es (m * k) (k2 :: ks)
    (rangeLoop (m * k) k2 es ++ rest.1, rest.2)

/-- `src/server/delete.c:174-182`: find the first backup with `trbno>m`, and delete it and
everything before it in the list. -/
def oldest (m : Nat) (es : List Ent) : List Ent :=
  let before := es.takeWhile (fun e => decide (e.trbno ≤ m))
  match es.drop before.length with
  | [] => []
  | e :: _ => e :: before.reverse

/-- All deletions that one call of `do_delete_backups` attempts when none fails,
`src/server/delete.c:148-187`. They depend only on the list read at the start. -/
def plan (keep : List Nat) (l : List Bu) : List Ent :=
  let es := setupIndices l
  let k := keepLoop es 1 keep
  k.1 ++ oldest k.2 es

/-- What `delete_backup` can do (`src/server/delete.c:51-101`): remove the backup, fail before the
backup was moved away, or fail after it. -/
inductive Outcome | removed | failedBefore | failedAfter
deriving Repr, DecidableEq

/-- Run the deletions in order and stop at the first failure, as `range_loop` and
`do_delete_backups` do (`src/server/delete.c:137-138,179-180`). `o` says what each deletion does.
Returns the numbers removed, in order, and whether a deletion failed. -/
def execute (o : Nat → Outcome) : List Ent → List Nat × Bool
  | [] => ([], false)
  | e :: es =>
    match o e.bu.bno with
    | .removed => (e.bu.bno :: (execute o es).1, (execute o es).2)
    | .failedBefore => ([], true)
    | .failedAfter => ([e.bu.bno], true)

/-- The backups that are left when those with the given numbers are gone. -/
def without (l : List Bu) (gone : List Nat) : List Bu :=
  l.filter (fun b => !gone.contains b.bno)

/-- What a run of the policy did. -/
structure Result where
  left : List Bu
  removed : List Nat
  failed : Bool
deriving Repr, DecidableEq

/-- `delete_backups`, `src/server/delete.c:189-211`: repeat until a pass deletes nothing or fails.
`fuel` bounds the number of passes; `none` is an unfinished run. -/
def deleteBackups (keep : List Nat) (o : Nat → Outcome) : Nat → List Bu → Option Result
  | 0, _ => none
  | fuel + 1, l =>
    let p := execute o (plan keep l)
    let l' := without l p.1
    if p.2 then some ⟨l', p.1, true⟩
    else if p.1 = [] then some ⟨l, [], false⟩
    else (deleteBackups keep o fuel l').map (fun r => { r with removed := p.1 ++ r.removed })

/-- `finalise_keep_args`, `src/conffile.c:759-789`, after `atoi`: rejects zero and too large
products (the multiplication is in `uint64_t`, to which a negative value is converted), and adds
one to the last value if there are several. -/
def keepMult : Nat → List Int → Bool
  | _, [] => true
  | mult, k :: ks =>
    let m := ((mult : Int) * k % (2^64 : Int)).toNat
    if k = 0 then false else if m > 52560000 then false else keepMult m ks

def bumpLast : List Int → List Int
  | [] => []
  | [k] => [k + 1]
  | k :: ks => k :: bumpLast ks

def finaliseKeepArgs (keep : List Int) : Option (List Int) :=
  if keepMult 1 keep then
    some (if keep.length ≥ 2 then bumpLast keep else keep)
  else none

/-- A backup as the delete request sees it: with its time stamp text. -/
structure Named where
  bu : Bu
  stamp : Str
deriving Repr, DecidableEq

/-- What `do_delete_server` answers. -/
inductive Answer | removed (bno : Nat) | notDeletable | notFound | nothing
deriving Repr, DecidableEq

/-- The loop of `do_delete_server`, `src/server/delete.c:233-261`: the first backup whose time stamp
is the request or whose number is the number at the start of the request. `bno` is
`strtoul(backup)`. -/
def deleteServerLoop (req : Str) (bno : Nat) : List (Named × Bool) → Answer
  | [] => .notFound
  | (n, del) :: rest =>
    if n.stamp = req ∨ n.bu.bno = bno then (if del then .removed n.bu.bno else .notDeletable)
    else deleteServerLoop req bno rest

/-- `do_delete_server`, `src/server/delete.c:213-273`, with a succeeding `delete_backup`. `strtoul`
is a parameter: the request's numeric value. -/
def deleteServer (req : Str) (bno : Nat) (l : List Named) : Answer :=
  if req = [] then .nothing
  else deleteServerLoop req bno
    (l.zip ((setupIndices (l.map Named.bu)).map Ent.deletable))

end Verif.Retention
