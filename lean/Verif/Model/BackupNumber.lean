import Verif.Model.Retention

/-!
# Backup numbers and the list of backups

`src/server/timestamp.c`, `src/server/bu_get.c`, `src/bu.c` and `get_new_bno` in
`src/server/backup.c`.
-/

namespace Verif.BackupNumber
open Verif.Retention

/-- The decimal digits of a number, as `%u` prints them. -/
def decimal (n : Nat) : Str :=
  if n < 10 then [UInt8.ofNat (48 + n)] else decimal (n / 10) ++ [UInt8.ofNat (48 + n % 10)]

/-- `%07u`. -/
def decimal7 (n : Nat) : Str := List.replicate (7 - (decimal n).length) 48 ++ decimal n

/-- `timestamp_write_to_buf` with a number, `src/server/timestamp.c:41-52`; `t` is the result of
`strftime`. The name of the directory of a backup and the content of its `timestamp` file are both
made by this, with different formats (`src/server/sdirs.c:75-118`). -/
def stamp (bno : Nat) (t : Str) : Str := decimal7 bno ++ [space] ++ t

/-- `isdigit`. -/
def isDigit (c : Byte) : Bool := decide (48 ≤ c.toNat) && decide (c.toNat ≤ 57)

/-- `isdigit(d_name[0])`, `src/server/bu_get.c:183`. -/
def startsDigit : Str → Bool
  | [] => false
  | c :: _ => isDigit c

/-- The value of a string of digits. -/
def decValue : Nat → Str → Nat
  | acc, [] => acc
  | acc, c :: cs => if isDigit c then decValue (acc * 10 + (c.toNat - 48)) cs else acc

/-- `strtoul(s, NULL, 10)`, for `src/bu.c:22`, for strings that start with a digit: as many digits as
there are, at most `ULONG_MAX`. -/
def strtoul (s : Str) : Nat := min (decValue 0 s) (2 ^ 64 - 1)

/-- `strcmp(a, b) <= 0`; also `alphasort` in the C locale. Simplification: in other locales
`alphasort` is `strcoll`. -/
def strLe : Str → Str → Bool
  | [], _ => true
  | _ :: _, [] => false
  | x :: xs, y :: ys => if x = y then strLe xs ys else decide (x.toNat < y.toNat)

/-- An entry of the directory of a client that holds a readable `timestamp` file: the name, the text
in that file, and whether there is a file `hardlinked`. -/
structure DirEnt where
  name : Str
  ts : Str
  hard : Bool
  deriving DecidableEq, Repr

/-- What `working` and `finishing` point to. The entries they point to are left out of the list. An
empty text if there is no such link. -/
structure Links where
  working : Str
  finishing : Str
  deriving DecidableEq, Repr

/-- Whether an entry is put into the list of backups, `src/server/bu_get.c:183-201,56-65`: the name
starts with a digit, it is neither in progress nor being finished, and the text in `timestamp` starts
with the same 8 characters. Simplification: what is in `timestamp` is taken to be one line of at most 37
characters (`sizeof(buf)` is 38, and the first line is read), as burp writes it. -/
def listed (k : Links) (e : DirEnt) : Bool :=
  startsDigit e.name &&
  !(e.name == k.working) && !(e.name == k.finishing) && (e.ts.take 8 == e.name.take 8)

/-- `do_bu_get_list` without `include_working`, `src/server/bu_get.c:142-218`: `scandir` with
`alphasort`, read backwards, each entry put in front. -/
def buGetList (k : Links) (dir : List DirEnt) : List (DirEnt × Bu) :=
  ((dir.mergeSort (fun a b => strLe a.name b.name)).filter (listed k)).map
    (fun e => (e, ⟨strtoul e.ts, e.hard⟩))

/-- `get_new_bno`, `src/server/backup.c:146-165`, when the list could be read. (If it cannot, -1 becomes a
large unsigned number, and the test for a negative number in line 354 never fails.) -/
def getNewBno (k : Links) (dir : List DirEnt) : Nat := lastBno ((buGetList k dir).map Prod.snd) + 1

end Verif.BackupNumber
