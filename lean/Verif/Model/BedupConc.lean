import Verif.Model.Bedup

/-!
# Deduplication while the server goes on: `src/server/bedup.c` beside `src/server/backup.c`, `src/server/delete.c`

`bedup` takes locks of its own (`lockfile.bedup`, src/server/bedup.c:711-738) that nothing else looks at; the server
makes backups and deletes them while `bedup` runs. Each system call is one step. The number of links is left out, and
so are the checksums: `bedup` may pass a file by at any time, for whatever reason. Inode numbers are not used twice.
-/

namespace Verif.BedupConc
open Verif

/-- The name of a client, and the names that lead from its directory to a file. -/
abbrev Path := Str × List Str

/-- What the disk has: where paths lead, what inodes hold, and the next inode. The directory of each client has the
symbolic links `working` and `finishing`. -/
structure Server where
  at_ : Path → Option Nat
  content : Nat → Str
  next : Nat
  working : Str → Option Str
  finishing : Str → Option Str
  /-- the files that the server has open for writing -/
  writing : List Nat
  /-- the names of the backups that each client has had, which are never used again (C56) -/
  used : Str → List Str

/-- A backup is being made in this directory. -/
def Server.busy (s : Server) (c d : Str) : Prop := s.working c = some d ∨ s.finishing c = some d

/-- The path is below the directory of a backup that is being made. -/
def Server.inBusy (s : Server) (p : Path) : Prop := ∃ d e r, p.2 = d :: e :: r ∧ s.busy p.1 d

/-- The path is below the directory `d` of the client `c`. -/
def below (c d : Str) (p : Path) : Prop := p.1 = c ∧ p.2.head? = some d ∧ p.2.tail ≠ []

instance (c d : Str) (p : Path) : Decidable (below c d p) := by unfold below; infer_instance

/-- A path leads somewhere else from now on. -/
def Server.put (s : Server) (p : Path) (o : Option Nat) : Server :=
  { s with at_ := fun q => if q = p then o else s.at_ q }

/-- What the server does to the directories of clients. -/
inductive Act where
  /-- `sdirs_create_real_working`, src/server/sdirs.c:77-117: the link comes before the directory -/
  | start (c d : Str)
  /-- a file is created and opened, as `fzp_open(…, "wb")` does -/
  | create (p : Path)
  /-- something is written to a file that is open -/
  | write (i : Nat) (b : Str)
  /-- `fzp_close` -/
  | close (i : Nat)
  /-- `do_link`, as in `recursive_hardlink` and `atomic_data_jiggle` -/
  | link (p q : Path)
  /-- `do_rename` -/
  | rename (p q : Path)
  | unlink (p : Path)
  /-- `do_rename(sdirs->working, sdirs->finishing)`, src/server/backup.c:262 -/
  | finishing (c : Str)
  /-- `do_rename(sdirs->finishing, sdirs->current)`, src/server/backup.c:275 -/
  | finish (c : Str)
  /-- the link to a backup that was broken off is removed, after all that was in it, `working_delete`,
  src/server/rubble.c:117-124 -/
  | abandon (c : Str)
  /-- `do_rename_w(bu->path, sdirs->deleteme, …)`, src/server/delete.c:59, 83 and 97, and `deleteme_move` of the
  last backup, src/server/backup_phase4.c:850-851 -/
  | drop (c d : Str)
  /-- `do_rename(fdirs->currentdup, fdirs->fullrealcurrent)`, src/server/backup_phase4.c:854: the copy of the last
  backup, which is without the files that others have taken the place of, becomes the last backup -/
  | replace (c d sub : Str)
  deriving DecidableEq, Repr

/-- Where paths lead after the directory `sub` in the one that `finishing` points to has become the directory `d`. -/
def Server.replaced (s : Server) (c d sub : Str) (p : Path) : Option Nat :=
  if below c d p then
    match s.finishing c with
    | none => none
    | some w => s.at_ (c, w :: sub :: p.2.tail)
  else if p.1 = c ∧ p.2.head? = s.finishing c ∧ p.2.tail.head? = some sub then none
  else s.at_ p

/-- What comes of it. -/
def Server.act (s : Server) : Act → Server
  | .start c d => { s with working := fun x => if x = c then some d else s.working x,
                           used := fun x => if x = c then d :: s.used x else s.used x }
  | .create p => { s.put p (some s.next) with content := fun i => if i = s.next then [] else s.content i,
                                              next := s.next + 1, writing := s.next :: s.writing }
  | .write i b => { s with content := fun j => if j = i then s.content i ++ b else s.content j }
  | .close i => { s with writing := s.writing.filter (· ≠ i) }
  | .link p q => match s.at_ p with
    | none => s
    | some i => s.put q (some i)
  | .rename p q => match s.at_ p with
    | none => s
    | some i => (s.put p none).put q (some i)
  | .unlink p => s.put p none
  | .finishing c => { s with finishing := fun x => if x = c then s.working c else s.finishing x,
                             working := fun x => if x = c then none else s.working x }
  | .finish c => { s with finishing := fun x => if x = c then none else s.finishing x }
  | .abandon c => { s with working := fun x => if x = c then none else s.working x }
  | .drop c d => { s with at_ := fun p => if below c d p then none else s.at_ p }
  | .replace c d sub => { s with at_ := s.replaced c d sub }

/-- The data at a path. -/
def Server.view (s : Server) (p : Path) : Option Str := (s.at_ p).map s.content

/-- What a file is compared with in one go, `FULL_CHUNK`, src/server/bedup.c:145. -/
def chunk (s : Server) (i pos : Nat) : Str := ((s.content i).drop pos).take 4096

/-- How far `bedup` has got with a file. -/
inductive Phase where
  | idle
  /-- in the loop of `check_files`, src/server/bedup.c:335-447: the new file, and whether it is open -/
  | looked (new : Path) (ni : Option Nat)
  /-- in the loop of `full_match`, src/server/bedup.c:168-176: the new file, the old one, how much of them is known to
  be the same, and what was last read from the new one, which `full_match` reads first -/
  | comparing (new old : Path) (ni oi pos : Nat) (got : Option Str)
  /-- `full_match` has returned 1 -/
  | matched (new old : Path)
  /-- in `do_hardlink`, src/server/bedup.c:279-307, after `link` -/
  | linked (new : Path)
  | stopped
  deriving DecidableEq, Repr

/-- The directories of clients: where in `process_dir`, src/server/bedup.c:531-617, with `level` 0. -/
inductive Where where
  | outside
  /-- the links are being read: before `working`, and before `finishing` -/
  | entering (c : Str)
  | halfway (c : Str)
  | inside (c : Str)
  deriving DecidableEq, Repr

/-- `bedup -l`: where it is; the static buffers `working` and `finishing`, src/server/bedup.c:541-542; the files it
knows of; and what it does. -/
structure Prog where
  place : Where
  working : Str
  finishing : Str
  mem : List Path
  phase : Phase

/-- `get_link`, src/server/bedup.c:487-495: the buffer stays as it was if there is no such link. -/
def getLink (link : Option Str) (buffer : Str) : Str := link.getD buffer

/-- Names that `process_dir` passes over at the first two levels, `level_exclusion`, src/server/bedup.c:497-528. -/
def excluded (b : Prog) : List Str → Bool
  | d :: e :: _ => Bedup.levelExclusion 0 d b.working b.finishing || Bedup.levelExclusion 1 e b.working b.finishing
  | _ => true

/-- The last name with `ext`, `.bedup.` and a number. -/
def addExt (ext : Str) : List Str → List Str
  | [] => []
  | [n] => [n ++ ext]
  | n :: m :: r => n :: addExt ext (m :: r)

/-- The temporary name, src/server/bedup.c:283. -/
def tmp (ext : Str) (p : Path) : Path := (p.1, addExt ext p.2)

/-- A name like the temporary ones. -/
def isTmp (ext : Str) (p : Path) : Prop := ∃ n ∈ p.2.getLast?, ext <:+ n

/-- `rename(old, new)`: nothing happens if both are names of the same file. -/
def Server.renameOver (s : Server) (old new : Path) : Server :=
  match s.at_ old with
  | none => s
  | some i => if s.at_ new = some i then s else (s.put old none).put new (some i)

/-- The server and `bedup`. `old` is not part of either: it is the data that there has been at paths below the
directories of finished backups, from which it can be seen what the server means by a path. -/
structure Sys where
  server : Server
  prog : Prog
  old : Path → Option Str

/-- What the server may do, and when: it writes to files that it has just created, takes new names for new backups,
and a path below the directory of a finished backup always stands for the same data. `old` is the data that there has
been at such a path. -/
def Server.may (ext : Str) (old : Path → Option Str) (s : Server) : Act → Prop
  | .start c d => s.working c = none ∧ s.finishing c = none ∧ d ∉ s.used c ∧ ∀ r, s.at_ (c, d :: r) = none
  | .create p => s.inBusy p ∧ s.at_ p = none
  | .write i _ => i ∈ s.writing
  | .close _ => True
  | .link p q => s.inBusy q ∧ s.at_ q = none ∧ (isTmp ext p → isTmp ext q)
  | .rename p q => s.inBusy p ∧ s.inBusy q ∧ s.at_ q = none ∧ (isTmp ext p → isTmp ext q)
  | .unlink p => s.inBusy p
  | .finishing c => s.finishing c = none
  | .finish c => ∀ d r i, s.finishing c = some d → s.at_ (c, d :: r) = some i → i ∉ s.writing
  | .abandon c => ∀ d r, s.working c = some d → s.at_ (c, d :: r) = none
  | .drop c d => ¬ s.busy c d
  | .replace c d sub => ¬ s.busy c d ∧ d ∈ s.used c ∧ (∀ r, s.at_ (c, d :: r) = none) ∧
      ∀ w r i, s.finishing c = some w → s.at_ (c, w :: sub :: r) = some i → i ∉ s.writing ∧ ¬ isTmp ext (c, d :: r) ∧
        ∀ x, old (c, d :: r) = some x → s.content i = x

/-- The data that there has been at paths below the directories of finished backups. -/
def note (s : Server) (old : Path → Option Str) (p : Path) : Option Str :=
  match old p with
  | some x => some x
  | none => match p.2 with
    | d :: _ :: _ => if s.working p.1 = some d ∨ s.finishing p.1 = some d then none else s.view p
    | _ => none

/-- The loop of `full_match`, src/server/bedup.c:171-175, has `g` from the new file and reads from the old one. -/
def compared (s : Server) (p f : Path) (ni oi pos : Nat) (g : Str) : Phase :=
  if g ≠ chunk s oi pos then .looked p (some ni)
  else if g.length < 4096 then .matched p f
  else .comparing p f ni oi (pos + 4096) none

/-- A step of `bedup`. -/
inductive Does (ext : Str) : Sys → Sys → Prop where
  /-- `iterate_over_clients`, src/server/bedup.c:665-757: any client, in any order -/
  | enter (t : Sys) (c : Str) : t.prog.place = .outside → t.prog.phase = .idle →
      Does ext t { t with prog := { t.prog with place := .entering c } }
  /-- src/server/bedup.c:550 -/
  | readWorking (t : Sys) (c : Str) : t.prog.place = .entering c →
      Does ext t { t with prog := { t.prog with place := .halfway c,
                                                working := getLink (t.server.working c) t.prog.working } }
  /-- src/server/bedup.c:551 -/
  | readFinishing (t : Sys) (c : Str) : t.prog.place = .halfway c →
      Does ext t { t with prog := { t.prog with place := .inside c,
                                                finishing := getLink (t.server.finishing c) t.prog.finishing } }
  | leave (t : Sys) (c : Str) : t.prog.place = .inside c → t.prog.phase = .idle →
      Does ext t { t with prog := { t.prog with place := .outside } }
  /-- `lstat`, src/server/bedup.c:590: a file that is there, in any order. There are no files beside the directories
  of backups, and `bedup` does not look at its own temporary names. -/
  | look (t : Sys) (c : Str) (p : Path) : t.prog.place = .inside c → t.prog.phase = .idle → p.1 = c →
      (t.server.at_ p).isSome → excluded t.prog p.2 = false → ¬ isTmp ext p →
      Does ext t { t with prog := { t.prog with phase := .looked p none } }
  /-- the file stays as it is -/
  | pass (t : Sys) (p : Path) (o : Option Nat) : t.prog.phase = .looked p o →
      Does ext t { t with prog := { t.prog with phase := .idle } }
  /-- `add_file`, src/server/bedup.c:66-76, and `reset_old_file`, 309-322 -/
  | remember (t : Sys) (p : Path) (o : Option Nat) : t.prog.phase = .looked p o →
      Does ext t { t with prog := { t.prog with phase := .idle, mem := p :: t.prog.mem } }
  | openNew (t : Sys) (p : Path) (i : Nat) : t.prog.phase = .looked p none → t.server.at_ p = some i →
      Does ext t { t with prog := { t.prog with phase := .looked p (some i) } }
  | openOld (t : Sys) (p f : Path) (ni oi : Nat) : t.prog.phase = .looked p (some ni) → f ∈ t.prog.mem →
      t.server.at_ f = some oi →
      Does ext t { t with prog := { t.prog with phase := .comparing p f ni oi 0 none } }
  /-- the checksums differ -/
  | giveUp (t : Sys) (p f : Path) (ni oi pos : Nat) (got : Option Str) :
      t.prog.phase = .comparing p f ni oi pos got →
      Does ext t { t with prog := { t.prog with phase := .looked p (some ni) } }
  /-- src/server/bedup.c:170 -/
  | readNew (t : Sys) (p f : Path) (ni oi pos : Nat) : t.prog.phase = .comparing p f ni oi pos none →
      Does ext t { t with prog := { t.prog with phase := .comparing p f ni oi pos (some (chunk t.server ni pos)) } }
  /-- src/server/bedup.c:171-175 -/
  | readOld (t : Sys) (p f : Path) (ni oi pos : Nat) (g : Str) : t.prog.phase = .comparing p f ni oi pos (some g) →
      Does ext t { t with prog := { t.prog with phase := compared t.server p f ni oi pos g } }
  /-- `link`, src/server/bedup.c:288 -/
  | link (t : Sys) (p f : Path) (j : Nat) : t.prog.phase = .matched p f → t.server.at_ f = some j →
      t.server.at_ (tmp ext p) = none →
      Does ext t { t with server := t.server.put (tmp ext p) (some j), prog := { t.prog with phase := .linked p } }
  /-- `do_rename`, src/server/bedup.c:294, which works if the temporary name is there -/
  | rename (t : Sys) (p : Path) : t.prog.phase = .linked p → (t.server.at_ (tmp ext p)).isSome →
      Does ext t { t with server := t.server.renameOver (tmp ext p) p, prog := { t.prog with phase := .idle } }
  /-- `unlink`, src/server/bedup.c:300, after `do_rename` has failed -/
  | undo (t : Sys) (p : Path) : t.prog.phase = .linked p →
      Does ext t { t with server := t.server.put (tmp ext p) none, prog := { t.prog with phase := .stopped } }
  /-- an error, or the end -/
  | stop (t : Sys) : Does ext t { t with prog := { t.prog with phase := .stopped } }

/-- Steps of both, the server doing `as`, each time with `ok`. -/
inductive Run (ext : Str) (ok : Sys → Act → Prop) : Sys → List Act → Sys → Prop where
  | nil (t : Sys) : Run ext ok t [] t
  | does (t u v : Sys) (as : List Act) : Run ext ok t as u → Does ext u v → Run ext ok t as v
  | act (t u : Sys) (as : List Act) (a : Act) : Run ext ok t as u → u.server.may ext u.old a → ok u a →
      Run ext ok t (as ++ [a]) { u with server := u.server.act a, old := note (u.server.act a) u.old }

/-- The program as it begins. -/
def begin_ (s : Server) : Sys := ⟨s, ⟨.outside, [], [], [], .idle⟩, note s (fun _ => none)⟩

end Verif.BedupConc
