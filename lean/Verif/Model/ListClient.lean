import Verif.Model.Attribs
import Verif.Model.Browse
import Verif.Model.Request
import Verif.Model.SendConf

/-!
# Listing backups and their contents: `src/client/list.c`, `src/server/list.c`

The messages of the server, and what the client prints of them. Messages get through as in
`Verif.Asfd`. Allocation does not fail. The text of the local time is a parameter.
-/

namespace Verif.ListClient
open Verif Verif.Iobuf Verif.Attribs

/-! ### The server -/

/-- An entry of the manifest, as `list_manifest` has read it. -/
structure Ent where
  cmd : Cmd
  path : Str
  attr : Attr
  link : Str := []
  deriving DecidableEq, Repr

/-- `S_ISDIR(mode)`. -/
def isDir (mode : Int) : Bool := mode / 4096 % 16 = 4

/-- The entry as `check_browsedir` looks at it. -/
def Ent.seen (e : Ent) : Browse.Ent := ⟨e.cmd, e.path, isDir e.attr.mode⟩

/-- `maybe_fake_directory`, src/server/list.c:97-110: the mode. -/
def fakeMode (mode : Int) : Int := if isDir mode then mode else mode - mode / 4096 % 16 * 4096 + 4 * 4096

/-- What `copy` points to at the end of `check_browsedir`, src/server/list.c:133-151, when it was a copy
of `cp`: all bytes of the allocation. -/
def copied (bd cp : Str) : Str :=
  if slash ∈ cp then
    let i := (cp.takeWhile (· ≠ slash)).length
    if bd.length = 0 then
      let m := (cp ++ [0]).set (i + 1) 0
      if i > 0 then m.set i 0 else m
    else (cp ++ [0]).set i 0
  else cp ++ [0]

/-- `cp` at src/server/list.c:132-133. -/
def behind (bd p : Str) : Str :=
  match Browse.restOf bd p with
  | none => []
  | some rest => if rest.isEmpty then [dot] else rest

/-- The bytes of the path that are sent for an entry found in a directory: `check_browsedir` replaces
`path.buf`, src/server/list.c:161, but not `path.len`. `heap` is what lies in memory behind the copy. -/
def sentPath (heap bd p : Str) : Str := (copied bd (behind bd p) ++ heap).take p.length

/-- The sending of that path reads behind the copy. -/
def readsBehind (bd p : Str) : Bool := (copied bd (behind bd p)).length < p.length

/-- The messages for an entry, src/server/list.c:224-230. -/
def messages (cmd : Cmd) (attr : Attr) (path link : Str) : List Rec :=
  [⟨Cmd.attribs.toByte, (encode attr).getD []⟩, ⟨cmd.toByte, path⟩] ++
    if cmd.isLink then [⟨cmd.toByte, link⟩] else []

/-- `list_manifest`, src/server/list.c:172-240: the loop. -/
def contentsLoop (browsedir : Option Str) (regex : Str → Bool) (heap : Str) (last : Option Str) :
    List Ent → List Rec × Option Str
  | [] => ([], last)
  | e :: es =>
    if e.cmd.isMetadata then contentsLoop browsedir regex heap last es
    else match browsedir with
      | none =>
        let r := contentsLoop browsedir regex heap last es
        if regex e.path then (messages e.cmd e.attr e.path e.link ++ r.1, r.2) else r
      | some bd =>
        match Browse.checkBrowsedir bd e.seen last with
        | none => contentsLoop browsedir regex heap last es
        | some e' =>
          let r := contentsLoop browsedir regex heap (some e'.path) es
          let attr := if e'.isDir && !e.seen.isDir then { e.attr with mode := fakeMode e.attr.mode } else e.attr
          if regex e'.path then (messages e.cmd attr (sentPath heap bd e.path) e.link ++ r.1, r.2) else r

/-- `list_manifest`, src/server/list.c:172-240. -/
def contents (browsedir : Option Str) (regex : Str → Bool) (heap : Str) (es : List Ent) : List Rec :=
  let r := contentsLoop browsedir regex heap none es
  r.1 ++ if (match browsedir with | some bd => !bd.isEmpty | none => false) && r.2.isNone then
    [⟨Cmd.error.toByte, bytes "directory not found"⟩] else []

/-- `send_backup_name_to_client`, src/server/list.c:254-265; `desc` is what `get_extradesc`, 242-252, says of
it. Simplification: not cut at 63 bytes. -/
def nameMsg (desc : Request.Bu → Str) (b : Request.Bu) : Rec := ⟨Cmd.timestamp.toByte, b.bak.timestamp ++ desc b⟩

/-- What `do_list_server_work`, src/server/list.c:322-371, sends, when it was decided what to list (that is
`Verif.Request.listServer`); with `list_all_backups`, 267-278, `list_contents_one`, 280-301, and
`list_contents_many`, 303-317. `inside` are the messages about what is in a backup. -/
def answer (desc : Request.Bu → Str) (inside : Request.Bu → List Rec) : Request.Listing → List Rec
  | .names l => l.map (nameMsg desc)
  | .contents l => l.flatMap fun b => nameMsg desc b :: inside b
  | .noBackups => [⟨Cmd.message.toByte, bytes "no backups"⟩]
  | .notFound => [⟨Cmd.message.toByte, bytes "backup not found"⟩]

/-! ### The client -/

/-- How the client prints. -/
inductive Style where
  | short
  | long
  | parseable
  deriving DecidableEq, Repr

/-- A bit of the mode. -/
def bit (mode : Int) (k : Nat) : Bool := mode / 2 ^ k % 2 = 1

/-- The character for the type, src/client/list.c:18-19. -/
def kindChar (mode : Int) : Byte :=
  let t := mode / 4096 % 16
  if t = 4 then 100 else if t = 6 then 98 else if t = 2 then 99 else if t = 10 then 108
  else if t = 1 then 112 else if t = 12 then 115 else 45

/-- One of `r`, `w`, or a dash. -/
def flagChar (b : Bool) (c : Byte) : Byte := if b then c else 45

/-- The character for the right to execute and another bit: `lower` and `upper` if that is set. -/
def execChar (x other : Bool) (lower upper : Byte) : Byte :=
  if other then (if x then lower else upper) else (if x then 120 else 45)

/-- `encode_mode`, src/client/list.c:16-32. -/
def encodeMode (mode : Int) : Str :=
  [kindChar mode,
   flagChar (bit mode 8) 114, flagChar (bit mode 7) 119, execChar (bit mode 6) (bit mode 11) 115 83,
   flagChar (bit mode 5) 114, flagChar (bit mode 4) 119, execChar (bit mode 3) (bit mode 10) 115 83,
   flagChar (bit mode 2) 114, flagChar (bit mode 1) 119, execChar (bit mode 0) (bit mode 9) 116 84]

/-- `%nd`: padded with blanks on the left. -/
def pad (n : Nat) (s : Str) : Str := List.replicate (n - s.length) space ++ s

/-- `%d` of a `uint32_t`. -/
def showD (x : Int) : Str := Verif.Confs.showInt (castS32 (castU32 x))

/-- `ls_to_buf`, src/client/list.c:34-57; `clock` is the text of `encode_time`. -/
def lsToBuf (clock : Int → Str) (a : Attr) (path : Str) : Str :=
  encodeMode a.mode ++ space :: pad 2 (showD a.nlink) ++ space :: pad 5 (showD a.uid) ++
    space :: pad 5 (showD a.gid) ++ space :: pad 7 (Verif.Confs.showInt (castU64 a.size)) ++
    space :: clock a.mtime ++ space :: path

/-- The static variables of `ls_long_output`: the size, and whether there is a buffer at all. -/
structure Ls where
  len : Nat := 128
  there : Bool := false
  deriving DecidableEq, Repr

/-- The loop of `ls_long_output`, src/client/list.c:64-69. -/
def grow (need len : Nat) : Nat := if need > len ∧ len > 0 then grow need (len * 2) else len
termination_by need - len
decreasing_by omega

/-- The state of the buffer after that loop. -/
def Ls.grown (s : Ls) (pathLen : Nat) : Ls :=
  { len := grow (pathLen + 128) s.len, there := s.there || decide (pathLen + 128 > s.len) }

/-- `list_item`, src/client/list.c:93-100, with `ls_long_output`, 59-76, and `ls_short_output`, 78-91:
what is printed, and the buffer; nothing if there is no buffer to write to, or not enough of it. -/
def item (style : Style) (clock : Int → Str) (s : Ls) (a : Attr) (p : Rec) (link : Option Rec) :
    Option (Str × Ls) :=
  match style with
  | .short => some (cstr p.buf ++ [newline], s)
  | .parseable => some (Cmd.file.toByte :: hex04 p.buf.length ++ cstr p.buf ++ [newline], s)
  | .long =>
    let s' := s.grown p.buf.length
    let line := lsToBuf clock a (cstr p.buf)
    if s'.there && line.length + 1 ≤ s'.len then
      some (line ++ (match link with | none => [] | some l => bytes " -> " ++ cstr l.buf) ++ [newline], s')
    else none

/-- How it ends. -/
inductive End where
  | ok
  | failed
  | crash
  deriving DecidableEq, Repr

/-- What `sbuf_free_content` leaves of the attributes, src/sbuf.c:30-44. -/
def noAttr : Attr := ⟨0, 0, 0, 0, 0, 0, 0, 0, 0, 0, 0, 0, 0, 0, -1, 0, 0, 1⟩

/-- The kinds that are printed as they come, src/client/list.c:196-200. -/
def plainCmds : List Cmd := [.directory, .file, .encFile, .efsFile, .special]

/-- The loop of `do_list_client`, src/client/list.c:150-222, on the messages that arrive before the
connection ends. `extra` are the lines about the directory and the regular expression. -/
def clientLoop (style : Style) (clock : Int → Str) (extra : Str) : Ls → List Rec → Str × End
  | _, [] => ([], .ok)
  | s, m :: ms =>
    if m.cmd = Cmd.message.toByte then
      (if style = .parseable then [] else cstr m.buf ++ [newline],
       if cstr m.buf = bytes "no backups" then .ok else .failed)
    else if m.cmd = Cmd.timestamp.toByte then
      let r := clientLoop style clock extra s ms
      ((if style = .parseable then [] else bytes "Backup: " ++ cstr m.buf ++ [newline] ++ extra) ++ r.1, r.2)
    else if m.cmd ≠ Cmd.attribs.toByte then ([], .failed)
    else
      match decode noAttr m.buf with
      | none => ([], .crash)
      | some a =>
        match ms with
        | [] => ([], .failed)
        | p :: ms' =>
          if p.cmd ∈ plainCmds.map Cmd.toByte then
            match item style clock s a p none with
            | none => ([], .crash)
            | some (t, s') =>
              let r := clientLoop style clock extra s' ms'
              (t ++ r.1, r.2)
          else if p.cmd = Cmd.softLink.toByte ∨ p.cmd = Cmd.hardLink.toByte then
            match ms' with
            | [] => ([], .failed)
            | k :: ms'' =>
              if k.cmd ≠ p.cmd then ([], .failed)
              else
                match item style clock s a p (some k) with
                | none => ([], .crash)
                | some (t, s') =>
                  let r := clientLoop style clock extra s' ms''
                  (t ++ r.1, r.2)
          else clientLoop style clock extra s ms'

/-- The lines about the directory and the regular expression, src/client/list.c:171-176. -/
def extraLines (browsedir regexText : Option Str) : Str :=
  (match browsedir with | none => [] | some d => bytes "Listing directory: " ++ d ++ [newline]) ++
  (match regexText with | none => [] | some r => bytes "With regex: " ++ r ++ [newline])

/-- `do_list_client`, src/client/list.c:102-230, after the request was answered. -/
def client (style : Style) (clock : Int → Str) (browsedir regexText : Option Str) (ms : List Rec) : Str × End :=
  clientLoop style clock (extraLines browsedir regexText) {} ms

end Verif.ListClient
