import Verif.Model.Cmd
import Verif.Model.BackupNumber

/-!
# Counters: `src/cntr.c`

The counters that the client and the server keep while a backup, a restore or a verification runs,
the table printed at the end, the rows written to the statistics file, and the status line that a
child process of the server sends to its parent.
-/

namespace Verif.Cntr
open Verif.BackupNumber

/-- `struct cntr_ent`, `src/cntr.h:46-58`, without the texts. -/
@[ext] structure Ent where
  count : UInt64
  changed : UInt64
  same : UInt64
  deleted : UInt64
  phase1 : UInt64
  deriving DecidableEq, Repr

/-- `calloc` in `add_cntr_ent`, `src/cntr.c:48`. -/
def Ent.zero : Ent := ⟨0, 0, 0, 0, 0⟩

/-- The flags of an entry, `src/cntr.h:4-5`: `CNTR_TABULATE`, `CNTR_SINGLE_FIELD`, or none. -/
inductive Flag where
  | tabulate | single | none
  deriving DecidableEq, Repr

/-- `cntr_init`, `src/cntr.c:99-151`: the entries in the order of `cntr->list` (they are added in
reverse). -/
def table : List (Cmd × Flag) :=
  [ (.file, .tabulate), (.encFile, .tabulate), (.metadata, .tabulate), (.encMetadata, .tabulate),
    (.directory, .tabulate), (.hardLink, .tabulate), (.softLink, .tabulate), (.special, .tabulate),
    (.vss, .tabulate), (.encVss, .tabulate), (.vssT, .tabulate), (.encVssT, .tabulate),
    (.efsFile, .tabulate), (.error, .single), (.total, .none), (.grandTotal, .tabulate),
    (.warning, .single), (.message, .single), (.bytesEstimated, .single), (.bytes, .single),
    (.bytesRecv, .single), (.bytesSent, .single), (.timestamp, .single), (.timestampEnd, .single) ]

/-- `cntr->ent[(uint8_t)ch]` is not null, after `cntr_init`. -/
def has (ch : Byte) : Bool := table.any (fun r => r.1.toByte == ch)

/-- `cntr->ent`, indexed by the character. What it holds for a character without an entry is never
looked at. -/
abbrev Cntr := Byte → Ent

/-- After `cntr_init`, apart from the start time that `cntr_init` puts into the entry for
`CMD_TIMESTAMP`. -/
def init : Cntr := fun _ => Ent.zero

/-- `if(cntr->ent[(uint8_t)ch]) cntr->ent[(uint8_t)ch]->... = ...`, the shape of all of
`src/cntr.c:252-310`. -/
def upd (c : Cntr) (ch : Byte) (f : Ent → Ent) : Cntr :=
  fun x => if x = ch ∧ has ch then f (c x) else c x

/-- `incr_count_val`, `src/cntr.c:282-286`. -/
def incrCount (c : Cntr) (ch : Byte) (v : UInt64) : Cntr := upd c ch (fun e => { e with count := e.count + v })
/-- `incr_same_val`, `src/cntr.c:288-292`. -/
def incrSame (c : Cntr) (ch : Byte) (v : UInt64) : Cntr := upd c ch (fun e => { e with same := e.same + v })
/-- `incr_changed_val`, `src/cntr.c:294-298`. -/
def incrChanged (c : Cntr) (ch : Byte) (v : UInt64) : Cntr := upd c ch (fun e => { e with changed := e.changed + v })
/-- `incr_deleted_val`, `src/cntr.c:300-304`. -/
def incrDeleted (c : Cntr) (ch : Byte) (v : UInt64) : Cntr := upd c ch (fun e => { e with deleted := e.deleted + v })
/-- `incr_phase1_val`, `src/cntr.c:306-310`. -/
def incrPhase1 (c : Cntr) (ch : Byte) (v : UInt64) : Cntr := upd c ch (fun e => { e with phase1 := e.phase1 + v })
/-- `set_count_val`, `src/cntr.c:252-256`. -/
def setCount (c : Cntr) (ch : Byte) (v : UInt64) : Cntr := upd c ch (fun e => { e with count := v })

/-- `cntr_add`, `src/cntr.c:342-368`, without the printing. A changed file also raises the count of
the grand total (`++grand_total_ent->count` is outside the branches). -/
def add (c : Cntr) (ch : Byte) : Cntr :=
  if ch = Cmd.fileChanged.toByte then
    incrCount (incrChanged (incrChanged (incrChanged c Cmd.file.toByte 1) Cmd.total.toByte 1)
      Cmd.grandTotal.toByte 1) Cmd.grandTotal.toByte 1
  else
    let c := incrCount c ch 1
    if ch = Cmd.warning.toByte ∨ ch = Cmd.message.toByte then c
    else incrCount (incrCount c Cmd.total.toByte 1) Cmd.grandTotal.toByte 1

/-- `cntr_add_same` (with `v = 1`) and `cntr_add_same_val`, `src/cntr.c:402-407`. -/
def addSame (c : Cntr) (ch : Byte) (v : UInt64) : Cntr :=
  incrSame (incrSame (incrSame c ch v) Cmd.total.toByte v) Cmd.grandTotal.toByte v

/-- `cntr_add_changed` (with `v = 1`) and `cntr_add_changed_val`, `src/cntr.c:416-421`. -/
def addChanged (c : Cntr) (ch : Byte) (v : UInt64) : Cntr :=
  incrChanged (incrChanged (incrChanged c ch v) Cmd.total.toByte v) Cmd.grandTotal.toByte v

/-- `cntr_add_deleted`, `src/cntr.c:423-428`. -/
def addDeleted (c : Cntr) (ch : Byte) : Cntr :=
  incrDeleted (incrDeleted (incrDeleted c ch 1) Cmd.total.toByte 1) Cmd.grandTotal.toByte 1

/-- `cntr_add_phase1`, `src/cntr.c:370-383`, without the printing. -/
def addPhase1 (c : Cntr) (ch : Byte) : Cntr :=
  incrPhase1 (incrPhase1 c ch 1) Cmd.grandTotal.toByte 1

/-- One call of the interface of the counters, `src/cntr.h:101-116`. -/
inductive Op where
  /-- `cntr_add` and `cntr_add_new`. -/
  | add (ch : Byte)
  /-- `cntr_add_same`, `cntr_add_same_val`. -/
  | same (ch : Byte) (v : UInt64)
  /-- `cntr_add_changed`, `cntr_add_changed_val`. -/
  | changed (ch : Byte) (v : UInt64)
  /-- `cntr_add_deleted`. -/
  | deleted (ch : Byte)
  /-- `cntr_add_phase1`. -/
  | phase1 (ch : Byte)
  /-- `cntr_add_val`, `src/cntr.c:385-388`; `cntr_add_bytes`, `src/cntr.c:430-433`, is this for
  `CMD_BYTES`. -/
  | val (ch : Byte) (v : UInt64)
  /-- `cntr_set_bytes`, `src/cntr.c:445-451`. -/
  | setBytes (sent rcvd : UInt64)
  deriving DecidableEq, Repr

/-- The effect of one call. -/
def step (c : Cntr) : Op → Cntr
  | .add ch => add c ch
  | .same ch v => addSame c ch v
  | .changed ch v => addChanged c ch v
  | .deleted ch => addDeleted c ch
  | .phase1 ch => addPhase1 c ch
  | .val ch v => incrCount c ch v
  | .setBytes s r => setCount (setCount c Cmd.bytesSent.toByte s) Cmd.bytesRecv.toByte r

/-- A history of calls after `cntr_init`. -/
def run (ops : List Op) : Cntr := ops.foldl step init

/-- A row of the table printed at the end of a backup: new, changed, duplicate, deleted, total,
scanned. -/
structure Row where
  cmd : Cmd
  new : UInt64
  changed : UInt64
  duplicate : UInt64
  deleted : UInt64
  total : UInt64
  scanned : UInt64
  deriving DecidableEq, Repr

/-- `quint_print` with `ACTION_BACKUP`, `src/cntr.c:442-488`. A row that only has deletions is left
out. -/
def printRow (c : Cntr) (r : Cmd × Flag) : Option Row :=
  let e := c r.1.toByte
  if r.2 ≠ .tabulate then none
  else if e.phase1 = 0 ∧ e.count = 0 ∧ e.changed = 0 ∧ e.same = 0 then none
  else some ⟨r.1, e.count, e.changed, e.same, e.deleted, e.count + e.changed + e.same, e.phase1⟩

/-- The loop of `cntr_print`, `src/cntr.c:580-581`. -/
def printed (c : Cntr) : List Row := table.filterMap (printRow c)

/-- `do_counters`, `src/server/monitor/json_output.c:167-217`, for one tabulated entry: what goes into
the statistics file `backup_stats`. Rows that are all zero are left out. -/
def jsonRow (c : Cntr) (r : Cmd × Flag) : Option (Cmd × Ent) :=
  let e := c r.1.toByte
  match r.2 with
  | .single => if e.count = 0 then none else some (r.1, ⟨e.count, 0, 0, 0, 0⟩)
  | .tabulate =>
    if e.count = 0 ∧ e.changed = 0 ∧ e.same = 0 ∧ e.deleted = 0 ∧ e.phase1 = 0 then none else some (r.1, e)
  | .none => none

/-- The array `counters`. -/
def jsonRows (c : Cntr) : List (Cmd × Ent) := table.filterMap (jsonRow c)

/-! ## The status line -/

/-- `%PRIu64`. -/
def showU (n : UInt64) : Str := decimal n.toNat

/-- `'\t'` -/
abbrev tab : Byte := 9

/-- One counter in the status line, `src/cntr.c:697-712`. `tmp` has 259 bytes, so `snprintf` keeps at
most 258 characters. -/
def entStr (c : Cntr) (r : Cmd × Flag) : Str :=
  let e := c r.1.toByte
  (if r.2 = .single then [r.1.toByte] ++ showU e.count ++ [tab]
   else [r.1.toByte] ++ showU e.count ++ [slash] ++ showU e.changed ++ [slash] ++ showU e.same ++ [slash]
     ++ showU e.deleted ++ [slash] ++ showU e.phase1 ++ [tab]).take 258

/-- The path at the end of the status line, `src/cntr.c:715-716`, cut to 258 characters. -/
def pathStr (path : Str) : Str := ([Cmd.datapth.toByte] ++ path ++ [tab, newline]).take 258

/-- `calc_max_str_len`, `src/cntr.c:65-92`. -/
def maxStrLen (cname : Str) : Nat :=
  cname.length + 32
  + (table.map (fun r => if r.2 = .single then 22 + 2 else 22 * 5 + 6)).sum
  + (256 + 3) + 1

/-- The first `snprintf` of `cntr_to_str`, `src/cntr.c:691-693`. Simplification: the process number,
the number of the backup and the status are not negative. -/
def header (cname : Str) (pid bno status : Nat) : Str :=
  bytes "cntr\t" ++ cname ++ [dot] ++ decimal pid ++ [dot] ++ decimal bno ++ bytes "\t3\t" ++ decimal status
    ++ [tab]

/-- `cntr_to_str`, `src/cntr.c:689-724`. The time that goes into the entry for `CMD_TIMESTAMP_END` is
taken to be there already. The bound of the first `snprintf` is `str_max_len-1` bytes with the NUL. -/
def toStr (c : Cntr) (cname : Str) (pid bno status : Nat) (path : Str) : Str :=
  (header cname pid bno status).take (maxStrLen cname - 2)
    ++ (table.map (entStr c)).flatten ++ pathStr path

/-- `strtok` called again and again with the separators `\t` and `\n`: the words between them, without
empty ones. `cur` is the word so far. -/
def tokens (cur : Str) : Str → List Str
  | [] => if cur = [] then [] else [cur]
  | x :: xs =>
    if x = tab ∨ x = newline then
      if cur = [] then tokens [] xs else cur :: tokens [] xs
    else tokens (cur ++ [x]) xs

/-- `isspace` in the C locale. -/
def isSpace (c : Byte) : Bool := c = 32 || (9 ≤ c && c ≤ 13)

/-- `strtoull(s, NULL, 10)`. -/
def strtoull (s : Str) : UInt64 :=
  match s.dropWhile isSpace with
  | 45 :: r => - UInt64.ofNat (strtoul r)
  | 43 :: r => UInt64.ofNat (strtoul r)
  | r => UInt64.ofNat (strtoul r)

/-- `atoi`. Simplification: numbers beyond an `int`, for which the standard does not say what `atoi`
returns, are not cut. -/
def atoi (s : Str) : Int :=
  match s.dropWhile isSpace with
  | 45 :: r => - (decValue 0 r : Int)
  | 43 :: r => decValue 0 r
  | r => decValue 0 r

/-- `strchr`: what is before and after the first `x`. -/
def splitFirst (x : Byte) : Str → Option (Str × Str)
  | [] => none
  | c :: cs => if c = x then some ([], cs) else (splitFirst x cs).map (fun p => (c :: p.1, p.2))

/-- `strrchr`: what is before and after the last `x`. -/
def splitLast (x : Byte) (s : Str) : Option (Str × Str) :=
  (splitFirst x s.reverse).map (fun p => (p.2.reverse, p.1.reverse))

/-- `extract_ul`, `src/cntr.c:727-769`. -/
def extractUl (v : Str) (e : Ent) : Ent :=
  match splitFirst slash v with
  | none => { e with count := strtoull v }
  | some (a, r) =>
    let e := { e with count := strtoull a }
    match splitFirst slash r with
    | none => e
    | some (b, r) =>
      let e := { e with changed := strtoull b }
      match splitFirst slash r with
      | none => e
      | some (s, r) =>
        let e := { e with same := strtoull s }
        match splitFirst slash r with
        | none => e
        | some (d, r) => { e with deleted := strtoull d, phase1 := strtoull r }

/-- What the reader of a status line has: a `struct cntr` and a path. `ents` is false in the main
process of the server, whose `struct cntr` has no entries (`src/server/main.c:748`). -/
structure Reader where
  ents : Bool
  ent : Cntr
  pid : Int
  bno : Int
  status : Int
  path : Option Str

/-- One word in the loop of `extract_cntrs`, `src/cntr.c:804-825`. -/
def extractOne (r : Reader) : Str → Reader
  | [] => r
  | k :: v =>
    if k = Cmd.datapth.toByte then { r with path := some v }
    else if r.ents then { r with ent := upd r.ent k (extractUl v) }
    else r

/-- `extract_client_pid_bno`, `src/cntr.c:827-853`: the name, the process number (`-1` if there is
none) and the number of the backup. -/
def clientPidBno (w : Str) : Str × Int × Int :=
  match splitLast dot w with
  | none => (w, -1, 0)
  | some (w', b) =>
    match splitLast dot w' with
    | none => (w', -1, atoi b)
    | some (n, p) => (n, atoi p, atoi b)

/-- `str_to_cntr`, `src/cntr.c:855-911`. `none` is a return of `-1`. -/
def strToCntr (s : Str) (r : Reader) : Option Reader :=
  match tokens [] s with
  | [] => some r
  | [_] => none
  | _ :: who :: rest =>
    let p := clientPidBno who
    let r := { r with pid := p.2.1, bno := p.2.2 }
    match rest with
    | [] => none
    | ver :: rest =>
      if atoi ver ≠ 3 then some r
      else match rest with
        | [] => none
        | st :: rest => some (rest.foldl extractOne { r with status := atoi st })

/-- `extract_client_cntr_status`, `src/server/main.c:743-756`: what the main process takes to be the
status of a child. `old` is what it had before. -/
def childStatus (s : Str) (old : Int) : Int :=
  if (bytes "cntr").isPrefixOf s then
    match strToCntr s ⟨false, init, 0, 0, 0, none⟩ with
    | some r => r.status
    | none => 0
  else old

/-- `server_get_working`, `src/server/main.c:720-741`: how many children are scanning or backing up. -/
def working (statuses : List Int) : Nat := (statuses.filter (fun s => s = 1 ∨ s = 2)).length

/-- `check_fail_on_warning`, `src/cntr.c:1100-1107`: `true` is a return of `-1`. -/
def failOnWarning (set : Bool) (c : Cntr) : Bool := set && decide ((c Cmd.warning.toByte).count ≠ 0)

end Verif.Cntr
