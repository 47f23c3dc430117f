import Verif.Model.Phase2
import Verif.Model.Transfer

/-!
# Verifying stored files: `src/server/restore_sbuf.c`
-/

namespace Verif.Verify
open Verif Verif.Transfer

/-- What reading a stored file gives: it cannot be opened, it can be read only in part, or all of it. -/
inductive Reading where
  | cannotOpen
  | broken (part : Str)
  | all (content : Str)
  deriving DecidableEq, Repr

/-- An entry of a manifest with data, as far as verifying needs it. -/
structure Ent where
  cmd : Cmd
  path : Str
  datapth : Str
  attr : Str
  compression : Int
  endfile : Option Str
  deriving DecidableEq, Repr

/-- `strrchr(s, ':')` and a step further: what follows the last colon. -/
def afterColon (s : Str) : Option Str :=
  if s.contains 58 then some (s.reverse.takeWhile (· ≠ 58)).reverse else none

/-- What `verify_file` finds. -/
inductive Verdict where
  | noSum | cannotOpen | readError | mismatch | verified
  deriving DecidableEq, Repr

/-- Whether the file is read as it is, src/server/restore_sbuf.c:192-199. `path` is the name of the file
that is read. -/
def readsPlain (sb : Ent) (patches : Bool) (path : Str) : Bool :=
  patches || sb.cmd == .encFile || sb.cmd == .encMetadata || sb.cmd == .efsFile || sb.cmd == .encVss
    || sb.cmd == .encVssT || (!patches && !Phase2.dpthIsCompressed sb.compression path)

/-- `verify_file`, src/server/restore_sbuf.c:165-257. `plain` and `gz` are what `fzp_open` and `fzp_gzopen`
make of the file. The digest functions do not fail. -/
def verifyFile (md5 : Str → Str) (sb : Ent) (patches : Bool) (path : Str) (plain gz : Reading) : Verdict :=
  match sb.endfile with
  | none => .noSum
  | some e => match afterColon e with
    | none => .noSum
    | some sum => match (if readsPlain sb patches path then plain else gz) with
      | .cannotOpen => .cannotOpen
      | .broken _ => .readError
      | .all content => if md5 content = sum then .verified else .mismatch

/-- What looking for the data of an entry through the backups comes to, src/server/restore_sbuf.c:259-327,
352-408: nothing is found, applying a delta fails, or there is a file to read, which may not be in the
backup where it should be. -/
inductive Lookup where
  | missing
  | badDelta
  | found (patches elsewhere : Bool) (path : Str) (plain gz : Reading)
  deriving DecidableEq, Repr

/-- What the server does for one entry: the messages it sends, what it counts, or a crash. -/
inductive Done where
  | ok (sent : List Msg) (counted : Nat)
  | crash
  deriving DecidableEq, Repr

/-- A warning. -/
def warning : Msg := ⟨.warning, bytes "warning"⟩

/-- The messages of `verify_file`. -/
def verdictMsgs (sb : Ent) : Verdict → List Msg
  | .verified => [⟨sb.cmd, sb.path⟩]
  | _ => [warning]

/-- `restore_sbuf_all` for an entry with data and `ACTION_VERIFY`, src/server/restore_sbuf.c:410-435, with
`restore_file`, 352-408, and the end of `process_data_dir_file`, 323-337: whatever `verify_file` found, the
entry is counted, and `strtoull` is given the end marker even if there is none. -/
def verifyEntry (md5 : Str → Str) (sb : Ent) (l : Lookup) : Done :=
  let hdr : List Msg := [⟨.datapth, sb.datapth⟩, ⟨.attribs, sb.attr⟩]
  match l with
  | .missing => .ok (hdr ++ [warning]) 0
  | .badDelta => .ok (hdr ++ [warning]) 0
  | .found patches elsewhere path plain gz =>
    match sb.endfile with
    | none => .crash
    | some _ => .ok (hdr ++ verdictMsgs sb (verifyFile md5 sb patches path plain gz) ++
        (if elsewhere then [warning] else [])) 1

end Verif.Verify
