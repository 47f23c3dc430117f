import Verif.Model.Basic

/-!
# The file of statistics: `cntr_stats_to_file`, `src/cntr.c:597-656`

The text is given (`Verif/Model/Cntr.lean`). Names are in the directory of the backup. Simplifications: allocation does
not fail; the newline after the text, which is written on its own, is taken to be part of the text.
-/

namespace Verif.StatsFile
open Verif

/-- What happens when the buffer is to be written, `src/async.c` `async_io` and `asfd_do_write`,
`src/asfd.c:285-313`: some of it is taken, none of it if a signal comes; or there is an error. -/
inductive Take where
  | took (n : Nat)
  | error
  deriving DecidableEq

/-- The actions, `src/action.h`: those with statistics, and the others. -/
inductive Action where
  | backup
  | backupTimed
  | restore
  | verify
  | other
  deriving DecidableEq

/-- The names of the files, `src/cntr.c:612-620`. -/
def fileName : Action → Option Str
  | .backup => some (bytes "backup_stats")
  | .backupTimed => some (bytes "backup_stats")
  | .restore => some (bytes "restore_stats")
  | .verify => some (bytes "verify_stats")
  | .other => none

/-- The file that is written and its buffer: `file` is what is in the file, `off` how far it has been written, `buf`
`asfd->writebuf`; `seen` is what was in the file after each write. -/
structure Out where
  file : Str
  off : Nat
  buf : Str
  seen : List Str

/-- `write` at an offset. -/
def put (file : Str) (off : Nat) (s : Str) : Str := file.take off ++ s ++ file.drop (off + s.length)

/-- `n` bytes of the buffer are written, `src/asfd.c:316-317`. -/
def Out.take (o : Out) (n : Nat) : Out :=
  let s := o.buf.take n
  ⟨put o.file o.off s, o.off + s.length, o.buf.drop n, o.seen ++ [put o.file o.off s]⟩

/-- One attempt to write the buffer; when nothing more happens all of it is taken. The flag says whether there was no
error. -/
def flush (o : Out) : List Take → Out × List Take × Bool
  | [] => (o.take o.buf.length, [], true)
  | .took n :: ts => (o.take n, ts, true)
  | .error :: ts => (o, ts, false)

/-- `asfd_write`, `src/asfd.c:482-494`, with the case of lines in `asfd_append_all_to_write_buffer`, 398-401: tried
again until the buffer has room; what remains in the buffer then is left there. The size is that of
`src/asfd.c:581`. -/
def write (chunk : Str) (o : Out) : List Take → Out × List Take × Bool
  | [] =>
    let o := if o.buf.length + chunk.length ≥ 32032 - 1 then o.take o.buf.length else o
    flush { o with buf := o.buf ++ chunk } []
  | t :: ts =>
    if o.buf.length + chunk.length ≥ 32032 - 1 then
      match t with
      | .took n => write chunk (o.take n) ts
      | .error => (o, ts, false)
    else flush { o with buf := o.buf ++ chunk } (t :: ts)

/-- `write_all`, `src/server/monitor/json_output.c:26-52`: pieces of 16000 bytes, until an error. The first argument
is how many at most. -/
def writeAll : Nat → Str → Out → List Take → Out × Bool
  | 0, _, o, _ => (o, true)
  | fuel + 1, s, o, ts =>
    if s = [] then (o, true)
    else
      match write (s.take 16000) o ts with
      | (o, _, false) => (o, false)
      | (o, ts, true) => writeAll fuel (s.drop 16000) o ts

/-- The directory: names and contents. -/
abbrev Dir := Str → Option Str

/-- Put a file there, or remove it. -/
def Dir.set (d : Dir) (n : Str) (v : Option Str) : Dir := fun x => if x = n then v else d x

/-- What happens: the file can be opened, what is written, the file can be renamed. -/
structure Luck where
  opens : Bool
  takes : List Take
  renames : Bool

/-- `cntr_stats_to_file`, `src/cntr.c:597-656`: the directory after each operation, the last, and whether it
succeeds. The file is opened with `O_WRONLY|O_CREAT`: what is in it stays. Nothing is written after `json_cntr`. When
that fails the temporary file stays. -/
def save (act : Action) (text : Str) (l : Luck) (d : Dir) : List Dir × Dir × Bool :=
  match fileName act with
  | none => ([], d, true)
  | some path =>
    let tmp := path ++ bytes ".tmp"
    if l.opens then
      let old := (d tmp).getD []
      let d1 := d.set tmp (some old)
      let o := writeAll (text.length + 1) text ⟨old, 0, [], []⟩ l.takes
      let ds := d1 :: o.1.seen.map (fun f => d.set tmp (some f))
      let d2 := d.set tmp (some o.1.file)
      if o.2 && l.renames then
        let d3 := (d.set tmp none).set path (some o.1.file)
        (ds ++ [d3], d3, true)
      else (ds, d2, false)
    else ([], d, false)

end Verif.StatsFile
