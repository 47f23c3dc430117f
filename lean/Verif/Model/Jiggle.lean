import Verif.Model.History

/-!
# Model of finishing a backup as file system operations, with power cuts

`src/server/backup_phase4.c:166-494`, `src/server/link.c:103-160`. The same code as
`Verif/Model/History.lean`, but as single operations on a file system with hard links, so that the
power can go between any two of them.

Left out: creating and removing directories, errors reported by the file system, and the
buffering of file data by the operating system (an operation that has returned is on disc). Writing
a file is two operations: creating or truncating it, after which it has no useful content, and
completing it. Appending an entry to the deletions file is one operation.
-/

namespace Verif.Jiggle
open Verif.History

/-- File names. The first seven have a `datapth`:
* `cur`: in `data` of the original previous backup, when there is a duplicate of it
* `old`: the file that the code works on: in `currentdup/data`, or in `data` of the previous
  backup if that is a hardlinked archive (`src/server/backup_phase4.c:383-384`)
* `fin`, `tmp`, `fwd`, `rev`, `rel`: as in `Verif.History.Slot`
* `inflate`: `deltas.forward/inflate`, line 280
* `sig`: `currentdup/sig.tmp`, line 669 -/
inductive Name where
  | cur (d : Str) | old (d : Str) | fin (d : Str) | tmp (d : Str)
  | fwd (d : Str) | rev (d : Str) | rel (d : Str)
  | inflate | sig
deriving DecidableEq

/-- File contents; `junk` is what a file has between being opened for writing and completed. -/
inductive Blob (C D S : Type) where
  | whole (c : C) | delta (d : D) | sig (s : S) | junk
deriving DecidableEq

/-- A file system: names refer to inodes, inodes have contents. `dels` is the deletions file. -/
structure FS (C D S K : Type) where
  names : Name → Option Nat
  files : Nat → Blob C D S
  next : Nat
  dels : List K

variable {C D S K : Type}

/-- What a reader of the file gets. -/
def FS.look (fs : FS C D S K) (n : Name) : Option (Blob C D S) := (fs.names n).map fs.files

/-- Point update. -/
def upd {α β : Type} [DecidableEq α] (f : α → β) (a : α) (v : β) : α → β :=
  fun x => if x = a then v else f x

/-- Atomic operations. -/
inductive Act (C D S K : Type) where
  | unlink (n : Name)
  | rename (a b : Name)
  | link (a b : Name)
  /-- opening with "wb" -/
  | create (n : Name)
  /-- writing everything and closing -/
  | write (n : Name) (b : Blob C D S)
  /-- appending to the deletions file -/
  | note (k : K)

/-- Their effect. Opening an existing file truncates the inode, whatever other names it has. -/
def Act.run (a : Act C D S K) (fs : FS C D S K) : FS C D S K :=
  match a with
  | .unlink n => { fs with names := upd fs.names n none }
  | .rename a b =>
    match fs.names a with
    | none => fs
    | some i => { fs with names := upd (upd fs.names b (some i)) a none }
  | .link a b =>
    match fs.names a, fs.names b with
    | some i, none => { fs with names := upd fs.names b (some i) }
    | _, _ => fs
  | .create n =>
    match fs.names n with
    | some i => { fs with files := upd fs.files i .junk }
    | none => { fs with names := upd fs.names n (some fs.next),
                        files := upd fs.files fs.next .junk, next := fs.next + 1 }
  | .write n b =>
    match fs.names n with
    | some i => { fs with files := upd fs.files i b }
    | none => fs
  | .note k => { fs with dels := fs.dels ++ [k] }

/-- How a function returns. `chaos`: it read a file that is not a complete file of the expected
kind, so nothing can be said about what it does. -/
inductive Ret where
  | ok | error | chaos
deriving DecidableEq

/-- Programs: they look at files, test link counts, and act. -/
inductive Prog (C D S K : Type) where
  | ret (r : Ret)
  | look (n : Name) (k : Option (Blob C D S) → Prog C D S K)
  /-- `statp->st_nlink >= max_hardlinks` -/
  | many (n : Name) (k : Bool → Prog C D S K)
  | act (a : Act C D S K) (p : Prog C D S K)

/-- Run a program. `many` answers the link count test. Returns the states after each operation (a
power cut leaves one of them, or the first state), the last state and the return value. -/
def Prog.run (many : FS C D S K → Name → Bool) :
    Prog C D S K → FS C D S K → List (FS C D S K) × FS C D S K × Ret
  | .ret r, fs => ([], fs, r)
  | .look n k, fs => (k (fs.look n)).run many fs
  | .many n k, fs => (k (many fs n)).run many fs
  | .act a p, fs =>
    let r := p.run many (a.run fs)
    (a.run fs :: r.1, r.2)

/-- Go on with `q` if `p` returns without an error. -/
def Prog.andThen : Prog C D S K → Prog C D S K → Prog C D S K
  | .ret .ok, q => q
  | .ret r, _ => .ret r
  | .look n k, q => .look n (fun b => (k b).andThen q)
  | .many n k, q => .many n (fun b => (k b).andThen q)
  | .act a p, q => .act a (p.andThen q)

/-- `forward_patch_and_reverse_diff` after `inflate_or_link_oldfile`, with `do_patch`,
`gen_rev_delta`, `make_rev_sig` and `make_rev_delta`: `src/server/backup_phase4.c:31-207,293-364`. -/
def patchAndDiff (L : Librsync C D S) (hard : Bool) (k : K) (d : Str) : Prog C D S K :=
  .look .inflate fun b =>
  match b with
  | some (.whole x) =>
    .look (.fwd d) fun b =>
    match b with
    | some (.delta fd) =>
      .act (.create (.tmp d)) <|
      match L.patch x fd with
      | none =>
        -- lines 294-321
        .act (.unlink (.tmp d)) <| .act (.note k) <| .act (.unlink .inflate) <| .ret .ok
      | some c =>
        .act (.write (.tmp d) (.whole c)) <|
        if hard then
          -- lines 339-363
          .act (.rename (.tmp d) (.fin d)) <| .act (.unlink (.fwd d)) <|
          .act (.unlink .inflate) <| .ret .ok
        else
          -- lines 189-201
          .act (.create .sig) <| .act (.write .sig (.sig (L.sig c))) <|
          .look .sig fun b =>
          match b with
          | some (.sig s) =>
            .look (.old d) fun b =>
            match b with
            | some (.whole a) =>
              .act (.create (.rev d)) <| .act (.write (.rev d) (.delta (L.delta s a))) <|
              .act (.unlink .sig) <|
              -- lines 339-363
              .act (.rename (.tmp d) (.fin d)) <| .act (.unlink (.fwd d)) <|
              .act (.unlink (.old d)) <| .act (.unlink .inflate) <| .ret .ok
            | _ => .ret .chaos
          | _ => .ret .chaos
    | _ => .ret .chaos
  | _ => .ret .chaos

/-- `inflate_or_link_oldfile` and then the rest: `src/server/backup_phase4.c:209-254,280-291`.
`comp` is `dpth_is_compressed`. With too many links `do_link` copies the file instead
(`src/server/link.c:139-143`), otherwise it replaces an existing `inflate` (lines 146-154). -/
def forward (L : Librsync C D S) (hard comp : Bool) (k : K) (d : Str) : Prog C D S K :=
  .look (.old d) fun b =>
  match b with
  | none => .act (.unlink .inflate) (.ret .error)
  | some (.whole a) =>
    if comp then
      .act (.create .inflate) <| .act (.write .inflate (.whole a)) <| patchAndDiff L hard k d
    else
      .many (.old d) fun m =>
      if m then
        .act (.create .inflate) <|
        .look (.old d) fun b =>
        match b with
        | some x => .act (.write .inflate x) <| patchAndDiff L hard k d
        | none => .ret .chaos
      else
        .look .inflate fun b =>
        match b with
        | none => .act (.link (.old d) .inflate) <| patchAndDiff L hard k d
        | some _ =>
          .act (.unlink .inflate) <| .act (.link (.old d) .inflate) <| patchAndDiff L hard k d
  | some _ => .ret .chaos

/-- `jiggle`, `src/server/backup_phase4.c:367-494`. -/
def jiggle (L : Librsync C D S) (hard comp : Bool) (k : K) (d : Str) : Prog C D S K :=
  .look (.fin d) fun b =>
  match b with
  | some _ => .act (.unlink (.fwd d)) (.ret .ok)
  | none =>
    .look (.fwd d) fun b =>
    match b with
    | some _ => forward L hard comp k d
    | none =>
      .look (.tmp d) fun b =>
      match b with
      | some _ => .act (.rename (.tmp d) (.fin d)) (.ret .ok)
      | none =>
        .look (.old d) fun b =>
        match b with
        | some x =>
          let rest : Prog C D S K := if hard then .ret .ok else .act (.unlink (.old d)) (.ret .ok)
          .many (.old d) fun m =>
          if m then .act (.create (.fin d)) <| .act (.write (.fin d) x) rest
          else .act (.link (.old d) (.fin d)) rest
        | none =>
          .look (.rel d) fun b =>
          match b with
          | some _ => .act (.rename (.rel d) (.fin d)) (.ret .ok)
          | none => .ret .error

/-- The loop of `atomic_data_jiggle`, `src/server/backup_phase4.c:678-696`. -/
def jiggleAll (L : Librsync C D S) (hard : Bool) (comp : Str → Bool) :
    List (K × Str) → Prog C D S K
  | [] => .ret .ok
  | (k, d) :: es => (jiggle L hard (comp d) k d).andThen (jiggleAll L hard comp es)

end Verif.Jiggle
