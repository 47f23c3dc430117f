import Verif.Model.Resume
import Verif.Model.Cntr

/-!
# The counters of a backup that is resumed: `src/server/resume.c`

While phase 2 runs, each count is also written down in one of two files of the working directory:
`counters_d` for entries whose data have been received, `counters_n` for all others, including the
deletions. A backup that is resumed works through these files to get its counters back. As in
`Verif/Model/Resume.lean` files are lists of what can be read from them, and a row that was written in part
is not one of them (`src/server/resume.c:383-404`).
-/

namespace Verif.ResumeCntr
open Verif.Phase2 Verif.Manifest Verif.Resume

/-- `enum cntr_manio`, `src/sbuf.h:64-70`. -/
inductive What where
  | new | changed | same | deleted
  deriving DecidableEq, Repr

/-- One row of the files: what is counted, and the kind and the path of the entry
(`sbuf_to_manifest_cntr`, `src/sbuf.c`, called in `manio_write_cntr`, `src/server/manio.c:244-249`). -/
structure Row where
  what : What
  key : Cmd × Option Str
  deriving DecidableEq, Repr

/-- `add_to_cntr`, `src/server/resume.c:330-355`. A row with another letter is not counted; such rows are
not written. -/
def addTo (c : Cntr.Cntr) (r : Row) : Cntr.Cntr :=
  match r.what with
  | .new => Cntr.add c r.key.1.toByte
  | .changed => Cntr.addChanged c r.key.1.toByte 1
  | .same => Cntr.addSame c r.key.1.toByte 1
  | .deleted => Cntr.addDeleted c r.key.1.toByte

/-- `forward_past_entry_counter`, `src/server/resume.c:357-438`, and the truncating: the counters, and what
is left of the file. -/
def forwardCounter (target : Cmd × Option Str) (c : Cntr.Cntr) : List Row → Cntr.Cntr × List Row
  | [] => (c, [])
  | x :: xs =>
    let r := Iobuf.iobufPathcmp target x.key
    if r = 0 then (addTo c x, [x])
    else if r = -1 then (c, [])
    else
      let q := forwardCounter target (addTo c x) xs
      (q.1, x :: q.2)

/-- `cntr_add_bytes` with the length in the `endfile` of an entry, if it has one:
`src/server/resume.c:196-203,313-320`, `src/server/backup_phase2.c:292-293,769-770`. `len` stands for the
reading of the number with `strtoull`. -/
def addLength {R : Type} (len : R → Option UInt64) (c : Cntr.Cntr) (x : R) : Cntr.Cntr :=
  match len x with
  | none => c
  | some v => Cntr.incrCount c Cmd.bytes.toByte v

/-- The counting in `get_last_good_entry`, `src/server/resume.c:271-321`: all entries that are read are
counted, whether or not they are kept. -/
def lastGoodCount {R : Type} (len : R → Option UInt64) (c : Cntr.Cntr) (l : List R) : Cntr.Cntr :=
  l.foldl (addLength len) c

/-- The counting in `forward_before_entry`, `src/server/resume.c:171-204`. -/
def beforeCount {R : Type} (target : Cmd × Option Str) (i : Info R) (len : R → Option UInt64)
    (c : Cntr.Cntr) : List R → Cntr.Cntr
  | [] => c
  | x :: xs =>
    if Iobuf.iobufPathcmp target (i.key x) ≤ 0 then c
    else beforeCount target i len (addLength len c x) xs

/-- `read_phase1`, `src/server/resume.c:13-37`, for the entries of the scan; `size` is `st_size`. -/
def readPhase1 {E : Type} (key : E → Cmd × Option Str) (size : E → UInt64) (scan : List E) : Cntr.Cntr :=
  scan.foldl (fun c e =>
    let c := Cntr.addPhase1 c (key e).1.toByte
    if (key e).1.isEstimatable then Cntr.incrCount c Cmd.bytesEstimated.toByte (size e) else c) Cntr.init

/-- What `do_resume_work`, `src/server/resume.c:457-567`, does with the counters: the counters with which
the backup goes on, and what is left of `counters_d` and `counters_n`. -/
def resumeCounters {R : Type} (i : Info R) (len : R → Option UInt64) (c : Cntr.Cntr) (changed unchanged : List R)
    (cd cn : List Row) : Cntr.Cntr × List Row × List Row :=
  let g := lastGood i changed
  let c := lastGoodCount len c changed
  match g.1 with
  | some r =>
    let c := beforeCount (i.key r) i len c unchanged
    let d := forwardCounter (i.key r) c cd
    let n := forwardCounter (i.key r) d.1 cn
    (n.1, d.2, n.2)
  | none => (c, [], [])

/-! ### What phase 2 counts -/

/-- The row that is written with a record (`src/server/backup_phase2.c:234,248,289,571,752,760`). -/
def rowOf {E : Type} (w : Walk E) : Out E → Row
  | .new p => ⟨.new, w.key p⟩
  | .changed p _ => ⟨.changed, w.key p⟩
  | .unchanged p _ => ⟨.same, w.key p⟩
  | .deleted c => ⟨.deleted, w.key c⟩

/-- The length in the `endfile` of a record: `recvd` is what the client sends with the data, `kept` what the
previous manifest has for an entry. Entries without data have none. -/
def lengthOf {E : Type} (w : Walk E) (recvd : E → UInt64) (kept : E → Option UInt64) : Out E → Option UInt64
  | .new p => if toChanged w (.new p) then some (recvd p) else none
  | .changed p c => if toChanged w (.changed p c) then some (recvd p) else none
  | .unchanged _ c => kept c
  | .deleted _ => none

/-- What phase 2 does to the counters for a record: `new_non_file`, `changed_non_file`,
`process_unchanged_file` and `deleted_file`, `src/server/backup_phase2.c:236,250,291-293,573`, and
`deal_with_receive_end_file`, lines 748-770, when the data have been received. -/
def count {E : Type} (w : Walk E) (recvd : E → UInt64) (kept : E → Option UInt64) (c : Cntr.Cntr) (o : Out E) :
    Cntr.Cntr :=
  addLength (lengthOf w recvd kept)
    (match o with
     | .new p => Cntr.add c (w.key p).1.toByte
     | .changed p _ => Cntr.addChanged c (w.key p).1.toByte 1
     | .unchanged p _ => Cntr.addSame c (w.key p).1.toByte 1
     | .deleted q => Cntr.addDeleted c (w.key q).1.toByte) o

/-- What phase 1 does to the counters, `src/server/backup_phase1.c:68-74`. -/
def phase1Count {E : Type} (key : E → Cmd × Option Str) (size : E → UInt64) (scan : List E) : Cntr.Cntr :=
  scan.foldl (fun c e =>
    let c := Cntr.addPhase1 c (key e).1.toByte
    if (key e).1.isEstimatable then Cntr.incrCount c Cmd.bytesEstimated.toByte (size e) else c) Cntr.init

end Verif.ResumeCntr
