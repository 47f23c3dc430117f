import Verif.Model.ResumeCntr
import Verif.Model.Sbuf
import Verif.Model.Dpth

/-!
# Resuming, with the files as they are: `src/server/resume.c`, `src/server/manio.c`

`Verif/Model/Resume.lean` and `Verif/Model/ResumeCntr.lean` take the files for lists of entries. Here they are
bytes, a position is the number of bytes before it, and the end of a file can be an entry that was written
in part. The scan and the previous manifest are compressed; they stand here for what is read from them, as
positions in them are positions in what is read (`gztell`, `gzseek`). Failing reads, a full disc and failing
allocation are not modelled.
-/

namespace Verif.ResumeFiles
open Verif Verif.Sbuf Verif.Iobuf

/-- The kind and the path of an entry that has been read, as `iobuf_pathcmp` sees them. -/
def keyOf (sb : Sbuf) : Cmd × Option Str :=
  ((pathCmd sb).getD .error, sb.path.map (fun r => cstr r.buf))

/-- What `attribs_decode` makes of the attributes of an entry (`Verif/Model/Attribs.lean`):
`S_ISDIR(statp.st_mode)` and `statp.st_size`. -/
structure Stat where
  isDir : Option Str → Bool
  size : Option Str → UInt64

/-- What is looked at in an entry. -/
def infoOf (st : Stat) : Resume.Info Sbuf where
  key := keyOf
  endfile sb := sb.endfile.isSome
  isDir sb := st.isDir sb.attr

/-- The length in the `endfile` of an entry, `src/server/resume.c:198-202,315-319`. -/
def lengthIn (sb : Sbuf) : Option UInt64 := sb.endfile.map (fun s => Cntr.strtoull (cstr s))

/-- What is in the entry when `sbuf_fill` returns, also when it fails or meets the end of the file
(`src/sbuf.c:264-323`). -/
def leftIn (sb : Sbuf) (f : Str) : Sbuf :=
  match h : fill f with
  | .eof => sb
  | .err => sb
  | .ok r rest =>
    have _ := fill_lt h
    match parse sb r with
    | (sb', .needMore) => leftIn sb' rest
    | (sb', _) => sb'
termination_by f.length

/-- What is carried through the files: the counters, and the next storage path. -/
structure Side where
  cntr : Cntr.Cntr
  dpth : Dpth.Dpth

/-- `set_higher_datapth`, `src/server/resume.c:39-53`. `none`: -1. -/
def setHigher (d : Dpth.Dpth) (sb : Sbuf) : Option Dpth.Dpth :=
  match sb.datapth with
  | none => some d
  | some s => Dpth.setFromString d s

/-- The loop of `get_last_good_entry`, `src/server/resume.c:236-321`, on a file of `total` bytes of which
`rest` is unread; `acc` is the result and the position so far. `none`: -1. -/
def lastGoodFrom (st : Stat) (total : Nat) (got : Bool) (acc : Option (Cmd × Option Str) × Nat) (s : Side)
    (rest : Str) : Option ((Option (Cmd × Option Str) × Nat) × Side) :=
  match h : fillFile empty rest with
  | (.entry sb, rest') =>
    have _ := fillFile_lt h
    match setHigher s.dpth sb with
    | none => none
    | some d =>
      let got := Resume.vssStart (infoOf st) sb got
      let acc :=
        if got then acc
        else if (!(keyOf sb).1.isFiledata && !(keyOf sb).1.isVssdata) || sb.endfile.isSome then
          (some (keyOf sb), total - rest'.length)
        else acc
      lastGoodFrom st total got acc ⟨ResumeCntr.addLength lengthIn s.cntr sb, d⟩ rest'
  | (.finished, _) => (setHigher s.dpth (leftIn empty rest)).map (fun d => (acc, { s with dpth := d }))
  | (.error, _) => (setHigher s.dpth (leftIn empty rest)).map (fun d => (acc, { s with dpth := d }))
termination_by rest.length

/-- `get_last_good_entry`, `src/server/resume.c:215-328`. -/
def lastGood (st : Stat) (s : Side) (f : Str) : Option ((Option (Cmd × Option Str) × Nat) × Side) :=
  lastGoodFrom st f.length false (none, 0) s f

/-- The loop of `forward_past_entry`, `src/server/resume.c:74-129`: the position. `none`: -1. -/
def forwardPastFrom (target : Cmd × Option Str) (total : Nat) (rest : Str) : Option Nat :=
  match h : fillFile empty rest with
  | (.entry sb, rest') =>
    have _ := fillFile_lt h
    let r := iobufPathcmp target (keyOf sb)
    if r = 0 then some (total - rest'.length)
    else if r = -1 then some (total - rest.length)
    else forwardPastFrom target total rest'
  | (.finished, _) => some (total - rest.length)
  | (.error, _) => none
termination_by rest.length

/-- `forward_past_entry`, `src/server/resume.c:58-135`. -/
def forwardPast (target : Cmd × Option Str) (f : Str) : Option Nat := forwardPastFrom target f.length f

/-- The loop of `forward_before_entry`, `src/server/resume.c:157-204`: the position so far is `pos`.
`none`: -1. -/
def forwardBeforeFrom (st : Stat) (target : Cmd × Option Str) (total pos : Nat) (s : Side) (rest : Str) :
    Option (Nat × Side) :=
  match h : fillFile empty rest with
  | (.entry sb, rest') =>
    have _ := fillFile_lt h
    match setHigher s.dpth sb with
    | none => none
    | some d =>
      if iobufPathcmp target (keyOf sb) ≤ 0 then some (pos, { s with dpth := d })
      else forwardBeforeFrom st target total
        (if sb.endfile.isSome || !(keyOf sb).1.isFiledata then total - rest'.length else pos)
        ⟨ResumeCntr.addLength lengthIn s.cntr sb, d⟩ rest'
  | (.finished, _) => (setHigher s.dpth (leftIn empty rest)).map (fun d => (pos, { s with dpth := d }))
  | (.error, _) => (setHigher s.dpth (leftIn empty rest)).map (fun d => (pos, { s with dpth := d }))
termination_by rest.length

/-- `forward_before_entry`, `src/server/resume.c:140-210`. -/
def forwardBefore (st : Stat) (target : Cmd × Option Str) (s : Side) (f : Str) : Option (Nat × Side) :=
  forwardBeforeFrom st target f.length 0 s f

/-- `add_to_cntr`, `src/server/resume.c:330-355`, for the letter that has been read
(`src/sbuf.h:64-70`); that it fails for another letter is not looked at. -/
def addLetter (c : Cntr.Cntr) (what cmd : Byte) : Cntr.Cntr :=
  if what = 110 then Cntr.add c cmd
  else if what = 99 then Cntr.addChanged c cmd 1
  else if what = 117 then Cntr.addSame c cmd 1
  else if what = 100 then Cntr.addDeleted c cmd
  else c

/-- One row of a file of counters is read, `src/server/resume.c:379-405`: the letter, the record and the
unread rest. `none`: the end of the file, or an error, which is taken for the end. -/
def readRow (f : Str) : Option (Byte × Rec × Str) :=
  match f with
  | [] => none
  | what :: f1 =>
    match fill f1 with
    | .ok r rest => some (what, r, rest)
    | .eof => none
    | .err => none

theorem readRow_lt {f : Str} {b : Byte} {r : Rec} {rest : Str} (h : readRow f = some (b, r, rest)) :
    rest.length < f.length := by
  cases f with
  | nil => simp [readRow] at h
  | cons x f1 =>
    simp only [readRow] at h
    cases hf : fill f1 with
    | ok r' rest' =>
      rw [hf] at h
      simp only [Option.some.injEq, Prod.mk.injEq] at h
      have := fill_lt hf
      rw [← h.2.2]
      simp only [List.length_cons]
      omega
    | eof => rw [hf] at h; cases h
    | err => rw [hf] at h; cases h

/-- The kind and the path in a row. -/
def rowKey (r : Rec) : Cmd × Option Str := ((Cmd.ofByte r.cmd).getD .error, some (cstr r.buf))

/-- The loop of `forward_past_entry_counter`, `src/server/resume.c:368-432`: the counters and the
position. -/
def forwardCounterFrom (target : Cmd × Option Str) (total : Nat) (c : Cntr.Cntr) (rest : Str) :
    Cntr.Cntr × Nat :=
  match h : readRow rest with
  | none => (c, total - rest.length)
  | some (what, r, rest') =>
    have _ := readRow_lt h
    let x := iobufPathcmp target (rowKey r)
    if x = 0 then (addLetter c what r.cmd, total - rest'.length)
    else if x = -1 then (c, total - rest.length)
    else forwardCounterFrom target total (addLetter c what r.cmd) rest'
termination_by rest.length

/-- `forward_past_entry_counter`, `src/server/resume.c:357-438`. -/
def forwardCounter (target : Cmd × Option Str) (c : Cntr.Cntr) (f : Str) : Cntr.Cntr × Nat :=
  forwardCounterFrom target f.length c f

/-- `manio_close_and_truncate`, `src/server/manio.c:422-437`, with `truncate(2)`, `src/fzp.c:276-299`: a
file that is shorter is filled up with zeros. -/
def truncate (f : Str) (pos : Nat) : Str := f.take pos ++ List.replicate (pos - f.length) 0

/-- The files that resuming looks at: the lists of changed and unchanged entries, `counters_d` and
`counters_n` (none of which has to exist; they are then made, empty, `src/server/resume.c:589-599`), the scan,
and the manifest of the previous backup, if there is one. -/
structure Files where
  changed : Str
  unchanged : Str
  cd : Str
  cn : Str
  scan : Str
  prev : Option Str

/-- What phase 2 goes on with. -/
structure Resumed where
  changed : Str
  unchanged : Str
  cd : Str
  cn : Str
  posScan : Nat
  /-- not set when the previous manifest is to be read from the beginning -/
  posPrev : Option Nat
  side : Side

/-- `do_resume_work`, `src/server/resume.c:457-567`. `none`: -1. -/
def resumeWork (st : Stat) (s : Side) (f : Files) : Option Resumed :=
  match lastGood st s f.changed with
  | none => none
  | some ((none, pos), s) =>
    some { changed := truncate f.changed pos, unchanged := truncate f.unchanged 0, cd := truncate f.cd 0,
           cn := truncate f.cn 0, posScan := 0, posPrev := none, side := s }
  | some ((some target, pos), s) =>
    match forwardPast target f.scan with
    | none => none
    | some posScan =>
      match (match f.prev with
        | none => some none
        | some p => (forwardPast target p).map some) with
      | none => none
      | some posPrev =>
        match forwardBefore st target s f.unchanged with
        | none => none
        | some (posUn, s) =>
          let d := forwardCounter target s.cntr f.cd
          let n := forwardCounter target d.1 f.cn
          some { changed := truncate f.changed pos, unchanged := truncate f.unchanged posUn,
                 cd := truncate f.cd d.2, cn := truncate f.cn n.2, posScan, posPrev,
                 side := { s with cntr := n.1 } }

/-- `do_resume`, `src/server/resume.c:569-615`. `none`: -1, which ends the backup. -/
def doResume (st : Stat) (maxSub : Int) (d : Dpth.Dpth) (f : Files) : Option Resumed :=
  let es := readEntries f.scan
  if es.2 = false then none
  else
    match resumeWork st ⟨ResumeCntr.readPhase1 keyOf (fun sb => st.size sb.attr) es.1, d⟩ f with
    | none => none
    | some r =>
      let x := Dpth.dpthIncr maxSub r.side.dpth
      if x.2 then some { r with side := { r.side with dpth := x.1 } } else none

/-- What is read of the scan from then on: `manios_open_phase2` and `manio_seek`,
`src/server/manios.c:13-51`, `src/server/manio.c:408-420`. -/
def Resumed.scanLeft (r : Resumed) (f : Files) : Str := f.scan.drop r.posScan

/-- What is read of the previous manifest from then on. -/
def Resumed.prevLeft (r : Resumed) (f : Files) : Option Str := f.prev.map (fun p => p.drop (r.posPrev.getD 0))

/-- `sbuf_to_manifest_cntr`, `src/sbuf.c:112-118`, called in `manio_write_cntr`,
`src/server/manio.c:244-249`. -/
def writeRow (f : Str) (what : Byte) (r : Rec) : Str × Bool := sendMsgFzp (f ++ [what]) r

end Verif.ResumeFiles
