import Verif.Model.Iobuf

/-!
# Storage paths: `src/server/dpth.c`, and their uses in `src/server/backup_phase2.c` and
`src/server/resume.c`

The components are `uint16_t`; `comp[3]` is not used.
-/

namespace Verif.Dpth
open Verif.Iobuf

/-- `struct dpth`, `src/server/dpth.h:19-41`: `comp[0..2]`. The subdirectory limit is a parameter. -/
structure Dpth where
  a : Nat
  b : Nat
  c : Nat
  deriving DecidableEq, Repr

/-- `incr`, `src/server/dpth.c:54-59`: the new component, and whether there was no carry. -/
def incr (comp max : Nat) : Nat × Bool := if comp < max then (comp + 1, true) else (0, false)

/-- `dpth_incr`, `src/server/dpth.c:65-76`. `maxSub` is `max_storage_subdirs`, an `int` that becomes a
`uint16_t` in the call. The flag is false when -1 is returned. -/
def dpthIncr (maxSub : Int) (d : Dpth) : Dpth × Bool :=
  let m := (maxSub % 65536).toNat
  let c := incr d.c 0xFFFF
  if c.2 then ({ d with c := c.1 }, true)
  else
    let b := incr d.b m
    if b.2 then ({ d with b := b.1, c := c.1 }, true)
    else
      let a := incr d.a m
      (⟨a.1, b.1, c.1⟩, a.2)

/-- `dpth_mk`, `src/server/dpth.c:78-87`. `gz` is `compression && cmd!=CMD_EFS_FILE`. -/
def dpthMk (d : Dpth) (gz : Bool) : Str :=
  hex04 d.a ++ [slash] ++ hex04 d.b ++ [slash] ++ hex04 d.c ++ (if gz then bytes ".gz" else [])

/-- `set_new_datapth` followed by `dpth_incr`, `src/server/backup_phase2.c:80-113,117-138`, for a file
that is not stored as a tree: the path, and the allocator afterwards. Whether `dpth_incr` failed is
not looked at (line 133, and line 387). -/
def allocate (maxSub : Int) (d : Dpth) (gz : Bool) : Str × Dpth :=
  (dpthMk d gz, (dpthIncr maxSub d).1)

/-- The paths handed out during one backup. -/
def allocateAll (maxSub : Int) (d : Dpth) : List Bool → List Str
  | [] => []
  | gz :: gzs =>
    let r := allocate maxSub d gz
    r.1 :: allocateAll maxSub r.2 gzs

/-- `strtol(name, NULL, 16)`, for `src/server/dpth.c:117`. Simplification: names with leading white
space, a sign or `0x` are read as 0, and the value is not limited to a `long`; burp makes no such
names. -/
def strtolHex (s : Str) : Nat := (scanDigits s.length s none).getD 0

/-- `get_highest_entry`, `src/server/dpth.c:103-121`. `names` are the entries of the directory besides
`.` and `..`, none if it cannot be opened. The `int` becomes a `uint16_t` when stored. -/
def highest (names : List Str) : Nat :=
  names.foldl (fun m s => if m < strtolHex s then strtolHex s % 65536 else m) 0

/-- `dpth_init`, `src/server/dpth.c:141-167`. `ls` gives the entries of a directory below
`currentdata`. `none`: -1 is returned, which ends the backup. -/
def init (maxSub : Int) (ls : Str → List Str) : Option Dpth :=
  let a := highest (ls [])
  let b := highest (ls (hex04 a))
  let c := highest (ls (hex04 a ++ [slash] ++ hex04 b))
  let r := dpthIncr maxSub ⟨a, b, c⟩
  if r.2 then some r.1 else none

/-- What is left of a string after `%04X` has converted `n`, for `scanPath`. Simplification: as
`scanX`, and exact only without white space, sign or `0x`, which no data path of burp has. -/
def afterX (s : Str) : Str := s.drop ((s.take 4).takeWhile (fun c => (hexVal c).isSome)).length

/-- `sscanf(datapath, "%04X/%04X/%04X", &a, &b, &c)`, `src/server/dpth.c:179`: `none` unless it
returns 3. -/
def scanPath (s : Str) : Option (Nat × Nat × Nat) :=
  match scanX s with
  | none => none
  | some a =>
    match afterX s with
    | x :: s1 =>
      if x ≠ slash then none else
      match scanX s1 with
      | none => none
      | some b =>
        match afterX s1 with
        | y :: s2 => if y ≠ slash then none else (scanX s2).map (fun c => (a, b, c))
        | [] => none
    | [] => none

/-- `dpth_set_from_string`, `src/server/dpth.c:169-195`. `none`: -1. -/
def setFromString (d : Dpth) (s : Str) : Option Dpth :=
  if s.head? = some 116 then some d
  else
    match scanPath (cstr s) with
    | none => none
    | some (a, b, c) =>
      if d.a = a ∧ d.b = b ∧ d.c > c then some d
      else if d.a = a ∧ d.b > b then some d
      else if d.a > a then some d
      else some ⟨a % 65536, b % 65536, c % 65536⟩

/-- `set_higher_datapth` for each entry of a list, `src/server/resume.c:39-53`; `none` for an entry
without data path. -/
def setAll (d : Dpth) : List (Option Str) → Option Dpth
  | [] => some d
  | none :: es => setAll d es
  | some s :: es => match setFromString d s with
    | none => none
    | some d' => setAll d' es

/-- `do_resume`, `src/server/resume.c:568-616`, as far as storage paths go: all entries of the list
of changed files and the entries of the list of unchanged files that are kept are looked at, and then
the allocator is moved on by one. -/
def resume (maxSub : Int) (d : Dpth) (entries : List (Option Str)) : Option Dpth :=
  match setAll d entries with
  | none => none
  | some d' => let r := dpthIncr maxSub d'; if r.2 then some r.1 else none

end Verif.Dpth
