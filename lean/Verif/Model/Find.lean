import Verif.Model.Strlist
import Verif.Model.Auth

/-!
# What the client includes in a backup: `src/client/find.c` and `src/linkhash.c`

Regular expressions and the `exclude_logic` expressions are parameters. Allocation does not fail.
-/

namespace Verif.Find
open Verif.PathCmp

/-- `!strcasecmp(a, b)`. -/
def sameCase (a b : Str) : Bool := decide (a.map Auth.toLower = b.map Auth.toLower)

/-- `set_max_ext`, `src/conffile.c:1001-1012`: the flag of the first element, the length of the longest
extension plus one. -/
def maxExt (exts : List Str) : Nat := exts.foldl (fun m e => if e.length > m then e.length else m) 0 + 1

/-- The loop of `in_include_ext`, `in_exclude_ext` and `in_exclude_comp`, `src/client/find.c:91-157`:
`left` is `flag-i`, `rev` is what is before and at `cp`, backwards, and `suf` is what is
after `cp`. Whether an extension was found. -/
def extLoop (exts : List Str) : (left : Nat) → (rev suf : Str) → Bool
  | 0, _, _ => false
  | _ + 1, [], _ => false
  | left + 1, c :: rev, suf =>
    if c ≠ dot then extLoop exts left rev (c :: suf)
    else exts.any (fun e => sameCase e suf)

/-- `in_include_ext`, `src/client/find.c:91-112`. -/
def inIncludeExt (incext : List Str) (fname : Str) : Bool :=
  if incext.isEmpty then true else extLoop incext (maxExt incext) fname.reverse []

/-- `in_exclude_ext`, `src/client/find.c:114-134`. -/
def inExcludeExt (excext : List Str) (fname : Str) : Bool :=
  if excext.isEmpty then false else extLoop excext (maxExt excext) fname.reverse []

/-- `in_exclude_comp`, `src/client/find.c:137-157`: the level of compression. -/
def inExcludeComp (excom : List Str) (fname : Str) (compression : Nat) : Nat :=
  if compression = 0 ∨ excom.isEmpty then compression
  else if extLoop excom (maxExt excom) fname.reverse [] then 0 else compression

/-- What the configuration says about files. A regular expression is the set of what it matches. -/
structure Conf where
  incext : List Str
  excext : List Str
  increg : List (Str → Bool)
  excreg : List (Str → Bool)
  incexcdir : List Strlist.Elem
  minSize : Nat
  maxSize : Nat

/-- `in_include_regex`, `src/client/find.c:160-168`. -/
def inIncludeRegex (increg : List (Str → Bool)) (fname : Str) : Bool :=
  increg.isEmpty || increg.any (fun r => r fname)

/-- `in_exclude_regex`, `src/client/find.c:170-177`. -/
def inExcludeRegex (excreg : List (Str → Bool)) (fname : Str) : Bool := excreg.any (fun r => r fname)

/-- The loop over the directories, `src/client/find.c:197-205`. -/
def bestDir (fname : Str) : List Strlist.Elem → (longest : Nat) → (best : Option Strlist.Elem) →
    Option Strlist.Elem
  | [], _, best => best
  | l :: ls, longest, best =>
    if isSubdir l.path fname ≥ longest then bestDir fname ls (isSubdir l.path fname) (some l)
    else bestDir fname ls longest best

/-- `file_is_included_no_incext`, `src/client/find.c:182-210`. -/
def isIncludedNoIncext (c : Conf) (fname : Str) : Bool :=
  if inExcludeExt c.excext fname || inExcludeRegex c.excreg fname || !inIncludeRegex c.increg fname then false
  else match bestDir fname c.incexcdir 0 none with
    | none => false
    | some l => decide (l.flag ≠ 0)

/-- `file_is_included`, `src/client/find.c:212-228`. -/
def isIncluded (c : Conf) (fname : Str) (topLevel : Bool) : Bool :=
  if !topLevel && !inIncludeExt c.incext fname then false else isIncludedNoIncext c fname

/-- The kind of a file, `S_ISREG` and so on. -/
inductive Kind where
  | reg | chr | blk | fifo | sock | dir | lnk
  deriving DecidableEq, Repr

/-- What `lstat` says of a file. -/
structure Stat where
  kind : Kind
  nlink : Nat
  dev : Nat
  ino : Nat
  size : Nat
  deriving DecidableEq, Repr

/-- `file_size_match`, `src/client/find.c:274-286`. -/
def sizeMatch (c : Conf) (size : Nat) : Bool :=
  !(decide (c.minSize ≠ 0) && decide (size < c.minSize)) && !(decide (c.maxSize ≠ 0) && decide (size > c.maxSize))

/-- `struct f_link`, `src/linkhash.h`. -/
structure FLink where
  name : Str
  ino : Nat
  dev : Nat
  deriving DecidableEq, Repr

/-- `linkhash`: the chains of all buckets. -/
abbrev LinkHash := Nat → List FLink

/-- `get_hash`, `src/linkhash.c:82-94`. Only the last 16 bits count. -/
def getHash (dev ino : Nat) : Nat :=
  (dev ^^^ ino ^^^ (ino >>> 16) ^^^ (ino >>> 32) ^^^ (ino >>> 48)) % 65536

/-- `linkhash_search`, `src/linkhash.c:96-105`. -/
def linkSearch (h : LinkHash) (dev ino : Nat) : Option FLink :=
  (h (getHash dev ino)).find? (fun lp => decide (lp.ino = ino) && decide (lp.dev = dev))

/-- `linkhash_add`, `src/linkhash.c:107-118`: at the head of the chain. -/
def linkAdd (h : LinkHash) (fname : Str) (dev ino : Nat) : LinkHash :=
  fun b => if b = getHash dev ino then ⟨fname, ino, dev⟩ :: h b else h b

/-- What becomes of a file: it is not sent, sent for what it is, or sent as a hard link. -/
inductive Sent where
  | not
  | plain
  | hardlink (target : Str)
  deriving DecidableEq, Repr

/-- The kinds of files that can be hard links, `src/client/find.c:305-310`. -/
def linkableKind : Kind → Bool
  | .reg | .chr | .blk | .fifo | .sock => true
  | .dir | .lnk => false

/-- `my_send_file_w`, `src/client/find.c:289-330`. `logic` is `is_logic_excluded`. -/
def sendFile (c : Conf) (logic : Str → Stat → Bool) (h : LinkHash) (fname : Str) (st : Stat) (topLevel : Bool) :
    LinkHash × Sent :=
  if !isIncluded c fname topLevel || logic fname st then (h, .not)
  else if decide (st.kind = .reg) && !sizeMatch c st.size then (h, .not)
  else if decide (st.nlink > 1) && linkableKind st.kind then
    match linkSearch h st.dev st.ino with
    | some lp => if lp.name = fname then (h, .not) else (h, .hardlink lp.name)
    | none => (linkAdd h fname st.dev st.ino, .plain)
  else (h, .plain)

/-- A scan: what becomes of every file that is found. -/
def sendAll (c : Conf) (logic : Str → Stat → Bool) (h : LinkHash) : List (Str × Stat × Bool) → List Sent
  | [] => []
  | (f, st, top) :: es => match sendFile c logic h f st top with
    | (h', s) => s :: sendAll c logic h' es

end Verif.Find
