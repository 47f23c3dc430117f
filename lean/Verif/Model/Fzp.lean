import Verif.Model.Basic

/-!
# Compressing, inflating and cutting files: `src/fzp.c`, `src/server/compress.c`, `src/server/zlibio.c`

Files are what can be read out of them: of a compressed file that is what it inflates to. Every call can fail.
The state keeps what the directory was like after each call, which is what there is after a crash; that the
disk may then lack what the kernel had not written yet is left out, as is what is in a compressed file byte by
byte.
-/

namespace Verif.Fzp
open Verif

/-- What comes after the last byte of a file: its end, a failing read, or - in a compressed file - an end that
comes too early. -/
inductive Tail where
  | eof
  | broken
  | cut
  deriving DecidableEq, Repr

/-- A file. -/
structure File where
  data : Str
  gz : Bool
  tail : Tail
  deriving DecidableEq, Repr

abbrev Dir := Str → Option File

/-- The directory, how many calls have been made, and what it was after each of them. -/
structure S where
  dir : Dir
  calls : Nat := 0
  hist : List Dir := []

/-- Which calls fail; how much of a write that fails is done; the size of the buffer, `ZCHUNK`, and the number
of the process. -/
structure World where
  fails : Nat → Bool
  short : Nat → Nat
  chunk : Nat
  pid : Str

/-- A call that leaves this directory. -/
def step (s : S) (d : Dir) : S := { dir := d, calls := s.calls + 1, hist := d :: s.hist }

/-- The directory with another file of some name. -/
def put (d : Dir) (n : Str) (f : Option File) : Dir := fun m => if m = n then f else d m

/-- `fzp_open` and `fzp_gzopen` for reading, src/fzp.c:81-113: what there is to be read. -/
def openR (w : World) (s : S) (n : Str) : Option File × S :=
  if w.fails s.calls then (none, step s s.dir) else (s.dir n, step s s.dir)

/-- The same for writing: a compressed file has no end until it is closed. -/
def openW (w : World) (s : S) (n : Str) (gz : Bool) : Bool × S :=
  if w.fails s.calls then (false, step s s.dir)
  else (true, step s (put s.dir n (some ⟨[], gz, if gz then .cut else .eof⟩)))

/-- More in a file. -/
def append (d : Dir) (n : Str) (bs : Str) : Dir :=
  match d n with
  | some f => put d n (some { f with data := f.data ++ bs })
  | none => d

/-- `fzp_write`, src/fzp.c:155-169: whether everything was written. -/
def write (w : World) (s : S) (n : Str) (bs : Str) : Bool × S :=
  if w.fails s.calls then (false, step s (append s.dir n (bs.take (w.short s.calls))))
  else (true, step s (append s.dir n bs))

/-- `fzp_close` after writing, src/fzp.c:115-135: what was buffered is written, and the end of a compressed
file. -/
def close (w : World) (s : S) (n : Str) : Bool × S :=
  if w.fails s.calls then
    (false, step s (match s.dir n with
      | some f => put s.dir n (some { f with data := f.data.take (w.short s.calls) })
      | none => s.dir))
  else
    (true, step s (match s.dir n with
      | some f => put s.dir n (some { f with tail := .eof })
      | none => s.dir))

/-- `unlink`. -/
def unlink (w : World) (s : S) (n : Str) : S :=
  if w.fails s.calls then step s s.dir else step s (put s.dir n none)

/-- `do_rename`, src/fsops.c:143-154. -/
def rename (w : World) (s : S) (a b : Str) : Bool × S :=
  if w.fails s.calls ∨ s.dir a = none then (false, step s s.dir)
  else (true, step s (fun m => if m = b then s.dir a else if m = a then none else s.dir m))

/-- `truncate`: a file that is shorter gets zeros. -/
def truncate (w : World) (s : S) (n : Str) (len : Nat) : Bool × S :=
  if w.fails s.calls then (false, step s s.dir)
  else
    match s.dir n with
    | some f => (true, step s (put s.dir n
        (some { f with data := f.data.take len ++ List.replicate (len - f.data.length) 0 })))
    | none => (false, step s s.dir)

/-- What `fzp_read` returns, src/fzp.c:137-153: how many bytes, or -1. `fread` returns 0 where it fails,
`gzread` -1. -/
inductive Got where
  | bytes (b : Str)
  | zero
  | minus
  deriving DecidableEq, Repr

/-- `fzp_read` of up to `n` bytes; with `gz` by `gzread`. -/
def read (gz : Bool) (n : Nat) (rest : Str) (tail : Tail) : Got :=
  if rest.take n ≠ [] then .bytes (rest.take n)
  else if gz ∧ tail = .broken then .minus
  else .zero

/-- `fzp_eof` after a read that gave nothing, src/fzp.c:171-186. -/
def eof (tail : Tail) : Bool := decide (tail ≠ .broken)

/-- The loop of `bcompress`, src/server/compress.c:29-39: the end and a failing read are the same for it. The
first argument bounds the number of turns. -/
def copy (w : World) (dst : Str) (tail : Tail) : Nat → Str → S → Bool × S
  | 0, _, s => (true, s)
  | k + 1, rest, s =>
    match read false w.chunk rest tail with
    | .bytes b =>
      match write w s dst b with
      | (false, s) => (false, s)
      | (true, s) => copy w dst tail k (rest.drop w.chunk) s
    | _ => (true, s)

/-- `bcompress`, src/server/compress.c:18-46. -/
def bcompress (w : World) (s : S) (src dst : Str) : Bool × S :=
  match openR w s src with
  | (none, s) => (false, s)
  | (some f, s) =>
    match openW w s dst true with
    | (false, s) => (false, s)
    | (true, s) =>
      match copy w dst f.tail (f.data.length + 1) f.data s with
      | (false, s) => (false, (close w s dst).2)
      | (true, s) => close w s dst

/-- `compress_file`, src/server/compress.c:47-74. -/
def compressFile (w : World) (s : S) (src dst : Str) : Bool × S :=
  match bcompress w s src (dst ++ w.pid) with
  | (false, s) => (false, unlink w s (dst ++ w.pid))
  | (true, s) =>
    match rename w s (dst ++ w.pid) dst with
    | (false, s) => (false, unlink w s (dst ++ w.pid))
    | (true, s) => (true, unlink w s src)

/-- How something ends; `undefined` is what the C language does not define. -/
inductive End where
  | ok
  | failed
  | undefined
  deriving DecidableEq, Repr

/-- The loop of `zlib_inflate`, src/server/zlibio.c:31-46. The count that is read is kept without a sign, so -1
is the largest number there is: so many bytes would be written. -/
def inflateLoop (w : World) (dst : Str) (tail : Tail) : Nat → Str → S → End × S
  | 0, _, s => (.failed, s)
  | k + 1, rest, s =>
    match read true w.chunk rest tail with
    | .minus => (.undefined, s)
    | .zero => if eof tail then (.ok, s) else (.failed, s)
    | .bytes b =>
      match write w s dst b with
      | (false, s) => (.failed, s)
      | (true, s) => inflateLoop w dst tail k (rest.drop w.chunk) s

/-- `zlib_inflate`, src/server/zlibio.c:8-59. -/
def inflate (w : World) (s : S) (src dst : Str) : End × S :=
  match openR w s src with
  | (none, s) => (.failed, s)
  | (some f, s) =>
    match openW w s dst false with
    | (false, s) => (.failed, s)
    | (true, s) =>
      match inflateLoop w dst f.tail (f.data.length + 1) f.data s with
      | (.ok, s) => if (close w s dst).1 then (.ok, (close w s dst).2) else (.failed, (close w s dst).2)
      | (.failed, s) => (.failed, (close w s dst).2)
      | (.undefined, s) => (.undefined, s)

/-- `gztruncate`, src/fzp.c:242-269. -/
def gztruncate (w : World) (s : S) (path : Str) (len : Nat) : End × S :=
  let dest := path ++ bytes "." ++ w.pid
  let dest2 := dest ++ bytes "-2"
  let tidy (s : S) := unlink w (unlink w s dest) dest2
  match inflate w s path dest with
  | (.undefined, s) => (.undefined, s)
  | (.failed, s) => (.failed, tidy s)
  | (.ok, s) =>
    match truncate w s dest len with
    | (false, s) => (.failed, tidy s)
    | (true, s) =>
      match compressFile w s dest dest2 with
      | (false, s) => (.failed, tidy s)
      | (true, s) =>
        match rename w (unlink w s dest) dest2 path with
        | (false, s) => (.failed, tidy s)
        | (true, s) => (.ok, tidy s)

/-- How `fzp_read_ensure` returns: what was asked for, the end, or a failure. -/
inductive Ensure where
  | whole (b : Str)
  | ended
  | failed
  deriving DecidableEq, Repr

/-- `fzp_read_ensure`, src/fzp.c:491-532: `none` is that it has not returned after so many turns. -/
def ensure (gz : Bool) (tail : Tail) : Nat → Nat → Str → Str → Option Ensure
  | 0, _, _, _ => none
  | k + 1, n, rest, got =>
    if got.length = n then some (.whole got)
    else
      match read gz (n - got.length) rest tail with
      | .bytes b => ensure gz tail k n (rest.drop (n - got.length)) (got ++ b)
      | .minus => some .failed
      | .zero =>
        if eof tail then (if got = [] then some .ended else some .failed)
        else ensure gz tail k n rest got

/-- The loop of `fzp_printf` that makes its buffer large enough for a text and the zero after it,
src/fzp.c:318-342: the size in the end. -/
def grow : Nat → Nat → Nat → Option Nat
  | 0, _, _ => none
  | k + 1, size, len => if size < len + 1 then grow k (size * 2) len else some size

end Verif.Fzp
