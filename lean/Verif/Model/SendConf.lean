import Verif.Model.Confs
import Verif.Model.Prepend

/-!
# Sending settings to the other side: `src/incexc_send.c`, `src/incexc_recv.c`, and what the client does with
settings of the server, `src/conffile.c` and `src/client/extra_comms.c`

Allocation does not fail, and messages arrive as they were sent (C11).
-/

namespace Verif.Confs
open Verif.Strlist Verif.ConfLine Verif.BackupNumber

/-- `send_incexc_string`, `src/incexc_send.c:10-27`. -/
def sendLine (field v : Str) : Str := Prepend.prependN (some field) v (bytes " = ")

/-- `snprintf` with `%d`. -/
def showInt (n : Int) : Str := if n < 0 then 45 :: decimal n.natAbs else decimal n.natAbs

/-- One setting: the `switch` in `do_sends`, `src/incexc_send.c:62-88`, with `send_incexc_str`, 29-32,
`send_incexc_uint`, 34-39, `send_incexc_uint64`, 41-46, and `send_incexc_strlist`, 48-54. -/
def sendOne (o : Opt) : Val → List Str
  | .str none => []
  | .str (some s) => [sendLine o.info.field s]
  | .lst l => l.map (fun e => sendLine o.info.field e.path)
  | .int n => [sendLine o.info.field (showInt n)]
  | .size n => [sendLine o.info.field (decimal n)]
  | _ => []

/-- `do_sends`, `src/incexc_send.c:56-93`. -/
def doSends (flag : Flags → Bool) (c : Confs) : List Str :=
  Opt.all.flatMap (fun o => if flag o.info.flags then sendOne o (c o) else [])

/-- `add_to_incexc`, `src/incexc_recv.c:13-20`. -/
def addToIncexc (incexc : Option Str) (src : Str) : Str :=
  Prepend.prependN (some (incexc.getD [])) src (if incexc.isSome then [newline] else [])

/-- `incexc_recv_func`, `src/incexc_recv.c:22-36`, again and again (`asfd_simple_loop`): `none` if the end does not
come. -/
def recvLoop (endreq : Str) (incexc : Option Str) : List Str → Option (Option Str)
  | [] => none
  | m :: ms => if m = endreq then some incexc else recvLoop endreq (some (addToIncexc incexc m)) ms

/-- `incexc_recv`, `src/incexc_recv.c:39-54`, from the messages that come. -/
def incexcRecv (endreq : Str) (msgs : List Str) : Option Str :=
  (recvLoop endreq none msgs).map (fun r => addToIncexc r [newline])

/-- `conf_parse_incexcs_srestore`, `src/conffile.c:1376-1432`. The directory of the new prefix can be made. -/
def parseIncexcsSrestore (env : Env) (c : Confs) (buf : Str) : Out :=
  match getStr c .RESTOREPREFIX with
  | none => .error
  | some old =>
    (loadBuf env (set (freeIncexcs c) .RESTOREPREFIX (.str none)) buf).bind fun c =>
    (finalise env c).bind fun c =>
    match getStr c .RESTOREPREFIX with
    | none => .ok (set c .RESTOREPREFIX (.str (some old)))
    | some srv =>
      if PathCmp.hasDotComponent srv then .error
      else .ok (set c .RESTOREPREFIX (.str (some
        (if old = [slash] then Prepend.prependS (some []) srv else Prepend.prependS (some old) srv))))

/-- What a client does, as far as it matters here: `enum action`, `src/action.h`. -/
inductive Act where
  | backup | backupTimed | timerCheck | restore | monitor | other
  deriving DecidableEq, Repr

/-- The server wants the client to restore: `src/client/extra_comms.c:79-106`. `msgs` is what the server sends if the
client accepts. The result is the action, the settings and the text that has been received, or an error. -/
def clientSrestore (env : Env) (wanted : Bool) (msgs : List Str) (act : Act) (c : Confs) :
    Option (Act × Confs × Option Str) :=
  if !wanted then some (act, c, none)
  else if act = .monitor then some (act, c, none)
  else if getInt c .SERVER_CAN_RESTORE ≠ 0 then
    match incexcRecv (bytes "srestore end") msgs with
    | none => none
    | some buf => match parseIncexcsSrestore env c buf with
      | .ok c => some (.restore, c, some buf)
      | _ => none
  else some (act, c, none)

/-- The server wants to set what is included and excluded: `src/client/extra_comms.c:128-150`. -/
def clientSincexc (env : Env) (wanted : Bool) (msgs : List Str) (act : Act) (incexc : Option Str) (c : Confs) :
    Option Confs :=
  if (act = .backup ∨ act = .backupTimed ∨ act = .timerCheck) ∧ incexc = none ∧ wanted then
    if getInt c .SERVER_CAN_OVERRIDE_INCLUDES ≠ 0 then
      match incexcRecv (bytes "sincexc end") msgs with
      | none => none
      | some buf => match parseIncexcsBuf env c buf with
        | .ok c => some c
        | _ => none
    else some c
  else some c

end Verif.Confs
