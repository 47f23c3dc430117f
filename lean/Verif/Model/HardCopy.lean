import Verif.Model.Basic

/-!
# Model: the copy of the current backup, of which the next one is made

`recursive_hardlink`, `do_link` and `duplicate_file` of `src/server/link.c`, as they are used in
`src/server/backup_phase4.c:773-790`, where there is nothing yet at the place that is copied to.
-/

namespace Verif.HardCopy

/-- What is in a directory, in the order in which `readdir` gives it, `src/server/link.c:37-54`. -/
inductive Forest (α : Type) where
  | nil
  | file (name : Str) (x : α) (rest : Forest α)
  | dir (name : Str) (kids : Forest α) (rest : Forest α)
  deriving DecidableEq, Repr

/-- A file to be copied, and what goes wrong with it: whether `lstat` finds it, whether `link` works, after how many bytes
reading it fails, whether `fwrite` reports an error for its duplicate, and how many bytes of the duplicate get to the disk
if the flush in `fclose` fails. `src/server/link.c:73`, `:144`, `:116-125`, `:129`. -/
structure File where
  data : Str
  links : Nat := 1
  found : Bool := true
  linkable : Bool := true
  failsAt : Option Nat := none
  writable : Bool := true
  flushedAt : Option Nat := none
  deriving DecidableEq, Repr

/-- A file of the copy: another name of the same file, or a file of its own. `src/server/link.c:138-144`. -/
inductive Copy where
  | linked (data : Str)
  | own (data : Str)
  deriving DecidableEq, Repr

/-- What is in it. `src/server/link.c:116-125`, `:144`. -/
def Copy.data : Copy → Str
  | linked d => d
  | own d => d

/-- `duplicate_file`, `src/server/link.c:104-133`. The loop ends when nothing is read, be it the end of the file or an
error; what `fzp_close` returns is not looked at. Simplified: both files can be opened. -/
def duplicateFile (f : File) : Option Copy :=
  let got := match f.failsAt with
    | none => f.data
    | some n => f.data.take n
  if !f.writable then none
  else match f.flushedAt with
    | none => some (.own got)
    | some n => some (.own (got.take n))

/-- `do_link` without overwriting, `src/server/link.c:135-160`. -/
def doLink (max : Nat) (f : File) : Option Copy :=
  if f.links ≥ max then duplicateFile f
  else if !f.linkable then none
  else some (.linked f.data)

/-- `recursive_hardlink`, `src/server/link.c:13-101`; `none` if it returns an error, on which the copy is not used.
Simplified: directories can be made and read, `readdir` says what is a directory, and the client is not told to stop. -/
def copy (max : Nat) : Forest File → Option (Forest Copy)
  | .nil => some .nil
  | .file n f rest =>
    if !f.found then copy max rest
    else match doLink max f with
      | none => none
      | some c => (copy max rest).map (.file n c)
  | .dir n kids rest => match copy max kids with
    | none => none
    | some k => (copy max rest).map (.dir n k)

end Verif.HardCopy
