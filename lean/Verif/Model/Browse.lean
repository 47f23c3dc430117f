import Verif.Model.Iobuf

/-!
# Listing a backup: `src/server/list.c`

Of an entry of the manifest, the model has the kind, the path, and whether the attributes say that it is a
directory. Allocation, reading and sending do not fail.
-/

namespace Verif.Browse
open Verif

/-- An entry: `mb->path.cmd`, `mb->path.buf`, `S_ISDIR(mb->statp.st_mode)`. -/
structure Ent where
  cmd : Cmd
  path : Str
  isDir : Bool
  deriving DecidableEq, Repr

/-- `maybe_fake_directory`, src/server/list.c:97-110. -/
def maybeFakeDirectory (mb : Ent) : Ent := { mb with isDir := true }

/-- The first part of `check_browsedir`, src/server/list.c:117-131: what is left of the path behind the
directory, if it is in there. -/
def restOf (bd p : Str) : Option Str :=
  if bd.length > 0 then
    if p.take bd.length ≠ bd then none
    else if bd.getLast? ≠ some slash then
      match p.drop bd.length with
      | [] => some []
      | c :: cs => if c ≠ slash then none else some cs
    else some (p.drop bd.length)
  else some p

/-- The possible trailing slash, src/server/list.c:149-151: cut at the last slash, unless it is the first
character. -/
def stripSlash (copy : Str) : Str :=
  match copy.reverse.dropWhile (· ≠ slash) with
  | [] => copy
  | _ :: r => if r.isEmpty then copy else r.reverse

/-- `check_browsedir`, src/server/list.c:112-170. -/
def checkBrowsedir (bd : Str) (mb : Ent) (last : Option Str) : Option Ent :=
  match restOf bd mb.path with
  | none => none
  | some rest =>
    let cp := if rest.isEmpty then [dot] else rest
    let copy := if slash ∈ cp then
        (if bd.length = 0 then cp.takeWhile (· ≠ slash) ++ [slash] else cp.takeWhile (· ≠ slash))
      else cp
    let mb := if slash ∈ cp then maybeFakeDirectory mb
      else if mb.path = [slash] ∧ bd = [slash] then maybeFakeDirectory mb
      else if mb.cmd = .directory then maybeFakeDirectory mb
      else mb
    let name := stripSlash copy
    if last = some name then none else some { mb with path := name }

/-- The loop of `list_manifest`, src/server/list.c:191-231: what is sent, and the last match. -/
def listLoop (browsedir : Option Str) (regex : Str → Bool) (last : Option Str) :
    List Ent → List Ent × Option Str
  | [] => ([], last)
  | e :: es =>
    if e.cmd.isMetadata then listLoop browsedir regex last es
    else match browsedir with
      | none =>
        let r := listLoop browsedir regex last es
        if regex e.path then (e :: r.1, r.2) else r
      | some bd =>
        match checkBrowsedir bd e last with
        | none => listLoop browsedir regex last es
        | some e' =>
          let r := listLoop browsedir regex (some e'.path) es
          if regex e'.path then (e' :: r.1, r.2) else r

/-- `list_manifest`, src/server/list.c:172-240: what is sent, and whether "directory not found" is. -/
def listManifest (browsedir : Option Str) (regex : Str → Bool) (es : List Ent) : List Ent × Bool :=
  let r := listLoop browsedir regex none es
  (r.1, (match browsedir with | some bd => !bd.isEmpty | none => false) && r.2.isNone)

end Verif.Browse
