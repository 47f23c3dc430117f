import Verif.Model.Iobuf

/-!
# Access control lists and extended attributes

`src/client/extrameta.c`, `src/client/acl.c`, `src/client/xattr.c`. What a file has is a parameter; access
control lists are their texts (`acl_to_text` and `acl_from_text` are taken to be inverse to each other).
Memory does not run out.
-/

namespace Verif.ExtraMeta
open Verif Verif.Iobuf

/-- `0xFFFFFFFF/2`. -/
abbrev maxlen : Nat := 0x7FFFFFFF

/-- An extended attribute; the value is `none` when it cannot be read. -/
structure XAttr where
  name : Str
  value : Option Str
  deriving DecidableEq, Repr

/-- What a file has: the access and default control lists if there is something in them
(`acl_contains_something`, `src/client/acl.c:67-87`), and the extended attributes; `none` when they cannot be
listed. -/
structure FileMeta where
  access : Option Str
  default : Option Str
  xattrs : Option (List XAttr)
  deriving DecidableEq, Repr

/-- How the client was built: `HAVE_ACL`, `HAVE_XATTR`. -/
structure Build where
  acl : Bool
  xattr : Bool
  deriving DecidableEq, Repr

/-- `has_acl`, `src/client/acl.c:89-104`. -/
def hasAcl (m : FileMeta) (isDir : Bool) : Bool := m.access.isSome || (isDir && m.default.isSome)

/-- `has_xattr`, `src/client/xattr.c:377-381`. -/
def hasXattr (m : FileMeta) : Bool :=
  match m.xattrs with
  | some (_ :: _) => true
  | _ => false

/-- `has_extrameta`, `src/client/extrameta.c:12-37`. -/
def hasExtra (b : Build) (enableAcl enableXattr : Bool) (m : FileMeta) (isDir : Bool) : Bool :=
  (b.acl && enableAcl && hasAcl m isDir) || (b.xattr && enableXattr && hasXattr m)

/-- `printf("%08X", n)`. -/
def hex08 (n : Nat) : Str := List.replicate (8 - (hexDigits n).length) 48 ++ hexDigits n

/-- `"%c%08X"` and the text: `get_acl_string`, `src/client/acl.c:131-135`, and `append_to_extrameta`,
`src/client/xattr.c:65-81`. -/
def record (c : Byte) (data : Str) : Str := c :: (hex08 data.length ++ data)

/-- `get_acl_string`, `src/client/acl.c:106-141`. -/
def getAclString (cur : Option Str) (type : Byte) (text : Str) : Option Str :=
  if text.length > maxlen then cur else some (cur.getD [] ++ record type text)

/-- `META_ACCESS_ACL`, `src/client/extrameta.h:7`. -/
abbrev metaAccess : Byte := 65
/-- `META_DEFAULT_ACL`, `src/client/extrameta.h:8`. -/
abbrev metaDefault : Byte := 68
/-- `META_XATTR`, `src/client/extrameta.h:10`. -/
abbrev metaXattr : Byte := 88
/-- `META_XATTR_BSD`, `src/client/extrameta.h:11`. -/
abbrev metaBsd : Byte := 66

/-- `get_acl`, `src/client/acl.c:143-170`. -/
def getAcl (m : FileMeta) (isDir : Bool) (cur : Option Str) : Option Str :=
  let cur := match m.access with
    | some t => getAclString cur metaAccess t
    | none => cur
  if isDir then
    match m.default with
    | some t => getAclString cur metaDefault t
    | none => cur
  else cur

/-- `acl_skiplist` and `in_skiplist` on Linux, `src/client/xattr.c:40-45,57-63`. -/
def inSkiplist (name : Str) : Bool :=
  name = bytes "system.posix_acl_access" || name = bytes "system.posix_acl_default"

/-- `get_toappend`, `src/client/xattr.c:383-476`: the text is given up (`carryon`) when it gets too long. -/
def getToappend (haveAcl : Bool) : List XAttr → Option Str → Option Str
  | [], acc => acc
  | x :: xs, acc =>
    if x.name.length > maxlen then none
    else if haveAcl && inSkiplist x.name then getToappend haveAcl xs acc
    else match x.value with
      | none => getToappend haveAcl xs acc
      | some v =>
        if v.length > maxlen then none
        else
          let acc := acc.getD [] ++ (hex08 x.name.length ++ x.name ++ hex08 v.length ++ v)
          if acc.length > maxlen then none else getToappend haveAcl xs (some acc)

/-- `get_xattr`, `src/client/xattr.c:478-527`. -/
def getXattr (m : FileMeta) (cur : Option Str) : Option Str :=
  match m.xattrs with
  | none => cur
  | some xs =>
    match getToappend cur.isSome xs none with
    | none => cur
    | some a => some (cur.getD [] ++ record metaXattr a)

/-- `get_extrameta`, `src/client/extrameta.c:39-73`. When there is nothing, the record is given up
(`src/client/backup_phase2.c:290-321`). -/
def getExtra (b : Build) (m : FileMeta) (isDir : Bool) : Option Str :=
  let cur := if b.acl then getAcl m isDir none else none
  if b.xattr then getXattr m cur else cur

/-- What is done to a file. -/
inductive Act where
  | acl (default : Bool) (text : Str)
  | xattr (name value : Str)
  | bsd (nspace name value : Str)
  deriving DecidableEq, Repr

/-- `sscanf(s, "%08X", &u)`: like `Verif.Iobuf.scanX`, with up to 8 characters. -/
def scanX8 (s : Str) : Option Nat :=
  let sg : Bool × Nat × Str := match s.dropWhile isSpace with
    | [] => (false, 8, [])
    | c :: r => if c = 45 then (true, 7, r) else if c = 43 then (false, 7, r) else (false, 8, c :: r)
  let px := scanPrefix sg.2.1 sg.2.2
  (scanDigits px.1 px.2 none).map (fun v => if sg.1 then (2 ^ 32 - v) % 2 ^ 32 else v)

/-- `get_next_xattr_str`, `src/client/xattr.c:86-121`: the text, and what is left. -/
def nextStr (data : Str) : Option (Str × Str) :=
  if data.length < 8 then none
  else match scanX8 (cstr data) with
    | none => none
    | some s =>
      let rest := data.drop 8
      if s > rest.length then none else some (rest.take s, rest.drop s)

/-- `do_set_xattr`, `src/client/xattr.c:529-565`: what is set, and whether all went well. `ok` says what the
system lets happen. The number is at least the length of the data. -/
def setXattr (ok : Act → Bool) : Nat → Str → List Act × Bool
  | 0, _ => ([], true)
  | n + 1, data =>
    if data.isEmpty then ([], true)
    else match nextStr data with
      | none => ([], false)
      | some (name, r) =>
        match nextStr r with
        | none => ([], false)
        | some (value, r) =>
          let a := Act.xattr (cstr name) value
          if ok a then
            let q := setXattr ok n r
            (a :: q.1, q.2)
          else ([], false)

/-- `set_acl`, `src/client/acl.c:205-221`, with `do_set_acl`, `src/client/acl.c:172-203`. -/
def setAcl (ok : Act → Bool) (default : Bool) (m : Str) : List Act × Bool :=
  let a := Act.acl default (cstr m)
  if ok a then ([a], true) else ([], false)

/-- The `switch` of `set_extrameta`, `src/client/extrameta.c:126-175`, on Linux. -/
def setOne (b : Build) (ok : Act → Bool) (c : Byte) (m : Str) : List Act × Bool :=
  if b.acl && c == metaAccess then setAcl ok false m
  else if b.acl && c == metaDefault then setAcl ok true m
  else if b.xattr && c == metaXattr then setXattr ok m.length m
  else ([], false)

/-- `set_extrameta`, `src/client/extrameta.c:75-180`: what is set, and the number of errors, or `none` for
-1. The number is at least the length of the data. -/
def setExtraN (b : Build) (ok : Act → Bool) : Nat → Str → List Act × Option Nat
  | 0, _ => ([], some 0)
  | n + 1, data =>
    if data.isEmpty then ([], some 0)
    else if data.length < 9 then ([], none)
    else match cstr data with
      | [] => ([], none)
      | c :: s =>
        match scanX8 s with
        | none => ([], none)
        | some len =>
          let rest := data.drop 9
          if len > rest.length then ([], none)
          else
            let r := setOne b ok c (rest.take len)
            let q := setExtraN b ok n (rest.drop len)
            (r.1 ++ q.1, q.2.map (· + if r.2 then 0 else 1))

/-- `set_extrameta`, `src/client/extrameta.c:75-180`. -/
def setExtra (b : Build) (ok : Act → Bool) (data : Str) : List Act × Option Nat :=
  setExtraN b ok data.length data

/-- What a file has, on the side of the restore. -/
structure Has where
  access : Option Str
  default : Option Str
  xattrs : Str → Option Str

/-- What the system does. (That an access control list is also seen as an extended attribute is left
out.) -/
def Act.apply (h : Has) : Act → Has
  | .acl false t => { h with access := some t }
  | .acl true t => { h with default := some t }
  | .xattr n v => { h with xattrs := fun k => if k = n then some v else h.xattrs k }
  | .bsd ns n v => { h with xattrs := fun k => if k = ns ++ dot :: n then some v else h.xattrs k }

/-- A file as the system makes it: in a directory with a default control list, it gets that as its access
control list, and a directory gets it as its default as well (acl(5)). -/
def created (parentDefault : Option Str) (isDir : Bool) : Has :=
  ⟨parentDefault, if isDir then parentDefault else none, fun _ => none⟩

/-- `restore_metadata`, `src/client/restore_switch.c:154-211`, as far as it concerns what is modelled
here. -/
def restoreMeta (b : Build) (ok : Act → Bool) (data : Str) (h : Has) : Has :=
  (setExtra b ok data).1.foldl Act.apply h

/-- The extended attributes of one namespace of FreeBSD. -/
structure Nspace where
  name : Str
  attrs : List (Str × Str)
  deriving DecidableEq, Repr

/-- What `extattr_list_link` returns: a byte for the length, and the name, for each attribute. -/
def listLen (l : List (Str × Str)) : Nat := (l.map fun a => a.1.length + 1).sum

/-- The loop over the attributes of a namespace in `get_xattr` for FreeBSD,
`src/client/xattr.c:191-275`. The buffer for a value has the length of the list of names
(`src/client/xattr.c:213-228`); `extattr_get_link` fills it and no more. Names are at most 127 bytes long:
the length of a longer one is taken for a negative number. Nothing is too long, and the list of attributes
that came as access control lists is left out. -/
def toappendBsd (ns : Str) (llen : Nat) : List (Str × Str) → Str
  | [] => []
  | (name, value) :: l =>
    let z := ns ++ dot :: name
    let v := value.take llen
    hex08 z.length ++ z ++ hex08 v.length ++ v ++ toappendBsd ns llen l

/-- `get_xattr` for FreeBSD, `src/client/xattr.c:141-292`. -/
def getBsd : List Nspace → Str
  | [] => []
  | n :: l =>
    (if n.attrs.isEmpty then [] else record metaBsd (toappendBsd n.name (listLen n.attrs) n.attrs)) ++ getBsd l

/-- `do_set_xattr_bsd`, `src/client/xattr.c:294-356`. -/
def setXattrBsd (ok : Act → Bool) : Nat → Str → List Act × Bool
  | 0, _ => ([], true)
  | n + 1, data =>
    if data.isEmpty then ([], true)
    else match nextStr data with
      | none => ([], false)
      | some (name, r) =>
        match nextStr r with
        | none => ([], false)
        | some (value, r) =>
          let z := cstr name
          if dot ∈ z then
            let a := Act.bsd (z.takeWhile (· ≠ dot)) ((z.dropWhile (· ≠ dot)).drop 1) value
            if ok a then
              let q := setXattrBsd ok n r
              (a :: q.1, q.2)
            else ([], false)
          else ([], false)

end Verif.ExtraMeta
