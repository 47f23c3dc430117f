import Verif.Model.Transfer
import Verif.Model.Prepend

/-!
# Upgrading a client from the server

`src/server/autoupgrade.c`, `src/client/autoupgrade.c`, `do_autoupgrade` in `src/server/extra_comms.c`. The
files of the server are a parameter, and so is what the script does. Memory does not run out.
-/

namespace Verif.Autoupgrade
open Verif Verif.Transfer Verif.Prepend

/-- What `stat` finds: a regular file, with the pieces in which it is read, or something else. -/
inductive Node where
  | reg (chunks : List Str)
  | other
  deriving DecidableEq, Repr

/-- `"do not autoupgrade"`. -/
def sayNo : Msg := ⟨.gen, bytes "do not autoupgrade"⟩
/-- `"autoupgrade ok"`. -/
def sayOk : Msg := ⟨.gen, bytes "autoupgrade ok"⟩

/-- What the server does next: go on with the session, end it with an error, or `exit(0)`. -/
inductive Next where
  | goOn | fail | done
  deriving DecidableEq, Repr

/-- What comes of it on the server: the messages sent, the names of the files sent, and what is next. -/
structure Srv where
  msgs : List Msg
  files : List Str
  next : Next
  deriving DecidableEq, Repr

/-- The settings of the server: `autoupgrade_dir`, and its version as text and as a number. -/
structure SConf where
  dir : Option Str
  version : Str
  ver : Int
  deriving DecidableEq, Repr

/-- `send_a_file`, `src/handy.c:549-565`; the file can be read. -/
def sendAFile (z : Zlib) (c : Crypt) (md5 : Str → Str) (chunks : List Str) : List Msg :=
  (sendGz z c true false md5 none chunks .eof).1

/-- `autoupgrade_server`, `src/server/autoupgrade.c:11-113`. -/
def server (z : Zlib) (c : Crypt) (md5 : Str → Str) (s : SConf) (fs : Str → Option Node) (cliVer : Int)
    (os : Str) : Srv :=
  match s.dir with
  | none => ⟨[sayNo], [], .goOn⟩
  | some dir =>
    if cliVer ≥ s.ver then ⟨[sayNo], [], .goOn⟩
    else
      let base := prependS (some dir) os
      let path := prependS (some base) s.version
      let top := prependS (some base) (bytes "script")
      let specific := prependS (some path) (bytes "script")
      let package := prependS (some path) (bytes "package")
      let script := if (fs specific).isSome then specific else top
      match fs script with
      | none => ⟨[sayNo], [], .goOn⟩
      | some ns =>
        match fs package with
        | none => ⟨[sayNo], [], .goOn⟩
        | some np =>
          match ns, np with
          | .reg cs, .reg cp => ⟨sayOk :: (sendAFile z c md5 cs ++ sendAFile z c md5 cp), [script, package], .done⟩
          | _, _ => ⟨[sayNo], [], .fail⟩

/-- `'/'`, `'\\'` and `':'` become `'-'`: `do_autoupgrade`, `src/server/extra_comms.c:167-170`. -/
def sanitise (os : Str) : Str := os.map fun b => if b = slash ∨ b = 92 ∨ b = 58 then 45 else b

/-- `do_autoupgrade`, `src/server/extra_comms.c:153-179`, for a message that begins with `autoupgrade:`. -/
def doAutoupgrade (z : Zlib) (c : Crypt) (md5 : Str → Str) (s : SConf) (fs : Str → Option Node) (cliVer : Int)
    (msg : Str) : Srv :=
  let os := msg.drop 12
  if os.isEmpty then ⟨[], [], .goOn⟩ else server z c md5 s fs cliVer (sanitise os)

/-- What the client says: `src/client/autoupgrade.c:76-80`, in a buffer of 256 bytes. -/
def request (os : Str) : Str := (bytes "autoupgrade:" ++ os).take 255

/-- `strip_trailing_slashes`, `src/handy.c:851-864`, on a text in reverse. -/
def stripR : Str → Str
  | [] => []
  | [b] => [b]
  | b :: b' :: r => if b = slash then stripR (b' :: r) else b :: b' :: r

/-- The directories above a path, as far as `mkpath`, `src/fsops.c:58-130`, makes them: everything before a
slash, on what has been read and what is left. -/
def above (pre : Str) : Str → List Str
  | [] => []
  | b :: r => (if b = slash then [pre] else []) ++ above (pre ++ [b]) r

/-- Whether files can be made in the directory after `mkpath`, `src/client/autoupgrade.c:68-74`: it was there
or was made. Nothing else prevents it. -/
def ready (isDir : Str → Bool) (dir : Str) : Bool :=
  let d := (stripR dir.reverse).reverse
  isDir d || (above [] dir).contains d

/-- `asfd_simple_loop`, `src/asfd.c:508-556`, with `autoupgrade_func`, `src/client/autoupgrade.c:25-37`. -/
def await : List Msg → Option (Bool × List Msg)
  | [] => none
  | m :: ms =>
    if m.cmd = .gen then
      if m.buf = bytes "do not autoupgrade" then some (false, ms)
      else if m.buf = bytes "autoupgrade ok" then some (true, ms)
      else none
    else if m.cmd = .warning ∨ m.cmd = .message ∨ m.cmd = .interrupt then await ms
    else none

/-- What the client does: go on, end with an error, or start the script with what is in the two files, and
`exit(0)`. -/
inductive Cli where
  | goOn | fail
  | ran (script package : Str)
  deriving DecidableEq, Repr

/-- The exit code, unless the client goes on. -/
def Cli.exitCode : Cli → Option Nat
  | .goOn => none
  | .fail => some 1
  | .ran _ _ => some 0

/-- `autoupgrade_client`, `src/client/autoupgrade.c:39-139`, called in `src/client/extra_comms.c:72-76`, given
the messages that arrive. -/
def client (z : Zlib) (c : Crypt) (dev : Dev) (dir os : Option Str) (isDir : Str → Bool) (ms : List Msg) : Cli :=
  match dir, os with
  | some dir, some _ =>
    match await ms with
    | none => .fail
    | some (false, _) => .goOn
    | some (true, ms) =>
      if ready isDir dir then
        let s := receiveAFile z c dev ms
        let p := receiveAFile z c dev s.rest
        if s.ok && p.ok then .ran s.file p.file else .fail
      else .fail
  | _, _ => .goOn

end Verif.Autoupgrade
