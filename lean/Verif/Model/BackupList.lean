import Verif.Model.BackupNumber

/-!
# The list of backups as it is read from the directory of a client: `src/server/bu_get.c`

With the sizes of the buffers that links and timestamps are read into. Texts have no zero byte. Allocation
does not fail, and directories can be read. `alphasort` is that of the C locale.
-/

namespace Verif.BackupList
open Verif.BackupNumber

/-- Something in the directory of a client: its name, whether it is a directory, what is in the file
`timestamp` in it, if that is a file that can be read, and the names of what else is in it. -/
structure Ent where
  name : Str
  isDir : Bool
  timestamp : Option Str
  files : List Str
  deriving DecidableEq, Repr

/-- The directory of a client: its path, what is in it, and what the links `working`, `finishing` and
`current` point to, if they are links. -/
structure Client where
  path : Str
  ents : List Ent
  working : Option Str
  finishing : Option Str
  current : Option Str
  deriving DecidableEq, Repr

/-- `get_link`, `src/server/bu_get.c:11-14`, with `readlink_w_in_dir` and `do_readlink`,
`src/fsops.c:560-588`, for a buffer of `size`, which is empty before: the target is cut off. -/
def getLink (size : Nat) : Option Str → Str
  | none => []
  | some target => target.take (size - 1)

/-- The size of the buffers for the links, `src/server/bu_get.c:147-149,229`, and for the timestamp,
line 39. -/
def bufSize : Nat := 38

/-- `timestamp_read`, `src/server/timestamp.c:11-27`: the first line, cut off. Nothing can be read from an
empty file. -/
def timestampRead (content : Str) : Option Str :=
  if content = [] then none else some ((content.take (bufSize - 1)).takeWhile (· ≠ newline))

/-- What is known of a backup: `struct bu`, `src/bu.h`, with the flags `BU_HARDLINKED`, `BU_CURRENT`,
`BU_WORKING`, `BU_FINISHING` and `BU_MANIFEST`. -/
structure Bak where
  basename : Str
  timestamp : Str
  bno : Nat
  hardlinked : Bool
  current : Bool
  working : Bool
  finishing : Bool
  manifest : Bool
  deriving DecidableEq, Repr

/-- `have_backup_file_name`, `src/server/bu_get.c:16-24`. The path is cut off at 255 characters; `cut` is
whether there is something at what is then left. -/
def haveFile (cut : Str → Bool) (path : Str) (files : List Str) (file : Str) : Bool :=
  let full := path ++ [slash] ++ file
  if full.length < 256 then decide (file ∈ files) else cut (full.take 255)

/-- `have_backup_file_name_w`, `src/server/bu_get.c:26-33`. -/
def haveFileW (cut : Str → Bool) (path : Str) (files : List Str) (file : Str) : Bool :=
  haveFile cut path files file || haveFile cut path files (file ++ bytes ".gz")

/-- `maybe_add_ent`, `src/server/bu_get.c:35-102`, and `bu_init`, `src/bu.c:12-28`: `none` if it is not a
backup. The flags for logs and statistics are left out. -/
def maybeAdd (cut : Str → Bool) (path : Str) (e : Ent) (current working finishing : Bool) : Option Bak :=
  if !e.isDir then none
  else match e.timestamp.bind timestampRead with
    | none => none
    | some ts =>
      if ts.take 8 ≠ e.name.take 8 then none
      else some ⟨e.name, ts, strtoul ts, decide (bytes "hardlinked" ∈ e.files), current, working, finishing,
        haveFileW cut (path ++ [slash] ++ e.name) e.files (bytes "manifest")⟩

/-- One turn of the loop of `do_bu_get_list`, `src/server/bu_get.c:178-203`. -/
def step (cut : Str → Bool) (withWorking : Bool) (c : Client) (e : Ent) (acc : List Bak) : List Bak :=
  let add := fun (b : Option Bak) => match b with
    | none => acc
    | some b => b :: acc
  if startsDigit e.name = false then acc
  else if e.name = getLink bufSize c.current then add (maybeAdd cut c.path e true false false)
  else if e.name = getLink bufSize c.working then
    if withWorking then add (maybeAdd cut c.path e false true false) else acc
  else if e.name = getLink bufSize c.finishing then
    if withWorking then add (maybeAdd cut c.path e false false true) else acc
  else add (maybeAdd cut c.path e false false false)

/-- `do_bu_get_list`, `src/server/bu_get.c:142-213`, before `setup_indices`: the entries in alphabetical
order, from the last to the first, each put in front. -/
def getList (cut : Str → Bool) (withWorking : Bool) (c : Client) : List Bak :=
  (c.ents.mergeSort (fun a b => strLe a.name b.name)).foldr (step cut withWorking c) []

/-- `bu_get_current`, `src/server/bu_get.c:225-233`. -/
def getCurrent (cut : Str → Bool) (c : Client) : Option Bak :=
  (c.ents.find? (fun e => decide (e.name = getLink bufSize c.current))).bind
    (fun e => maybeAdd cut c.path e true false false)

end Verif.BackupList
