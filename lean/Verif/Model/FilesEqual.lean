import Verif.Model.Basic

/-!
# Model: whether two files are the same

`files_equal` of `src/fsops.c`, with which the client finds out whether its configuration has to be written again.
-/

namespace Verif.FilesEqual

/-- A file that has been opened: what is in it, and after how many bytes reading fails, if it does. What
`fzp_open` gives, `src/fsops.c:482-483`. -/
structure File where
  data : Str
  failsAt : Option Nat := none
  deriving DecidableEq, Repr

/-- `FULL_CHUNK`, `src/fsops.c:462`. -/
def fullChunk : Nat := 4096

/-- What can be read of a file. `fread` gives less than it was asked for at the end and when there is an error; the
caller does not tell them apart, `src/fsops.c:498-508`, `src/fzp.c:140-145`. -/
def readable (f : File) : Str :=
  match f.failsAt with
  | none => f.data
  | some n => f.data.take n

/-- The loop over a chunk, `src/fsops.c:502-506`, for two chunks of the same length. -/
def sameBytes : Str → Str → Bool
  | x :: xs, y :: ys => if x ≠ y then false else sameBytes xs ys
  | _, _ => true

/-- The loop over the chunks, `src/fsops.c:496-509`, for chunks of `n + 1` bytes: what is still to be read of the two
files. -/
def chunks (n : Nat) (a b : Str) : Bool :=
  if (a.take (n + 1)).length ≠ (b.take (n + 1)).length then false
  else if sameBytes (a.take (n + 1)) (b.take (n + 1)) = false then false
  else if _h : (a.take (n + 1)).length < n + 1 then true
  else chunks n (a.drop (n + 1)) (b.drop (n + 1))
termination_by a.length
decreasing_by
  simp only [List.length_take, List.length_drop] at *
  omega

/-- `files_equal`, `src/fsops.c:464-515`, for files that are not compressed, as the only caller says. `none` is a file
that cannot be opened. -/
def filesEqual (o n : Option File) : Bool :=
  match o, n with
  | none, none => true
  | none, some _ => false
  | some _, none => false
  | some a, some b => chunks (fullChunk - 1) (readable a) (readable b)

end Verif.FilesEqual
