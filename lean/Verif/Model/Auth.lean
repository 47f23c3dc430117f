import Verif.Model.Prepend
import Verif.Model.Version

/-!
# Authorising a client: `src/server/auth.c`, and the check of client names in `src/conffile.c`

Allocation and network writes do not fail.
-/

namespace Verif.Auth

/-- What a check of a name comes to. -/
inductive Check where
  /-- a byte before the string is read -/
  | undefined
  | invalid
  | valid
  deriving DecidableEq, Repr

/-- `cname_valid`, `src/conffile.c:1575-1585`. -/
def cnameValid (cname : Str) : Check :=
  match cname with
  | [] => .undefined
  | c :: cs =>
    if c = dot || (c :: cs).contains slash || (c :: cs).contains 92 || (c :: cs).getLast? = some 126 then .invalid
    else .valid

/-- `strip_fqdn`, `src/handy.c:888-895`. -/
def stripFqdn (s : Str) : Str := s.takeWhile (fun c => c ≠ dot)

/-- `tolower` for ASCII; `strlwr`, `src/handy.c`. -/
def toLower (c : Byte) : Byte := if 65 ≤ c.toNat ∧ c.toNat ≤ 90 then c + 32 else c

/-- What is looked at in the configuration of a client. -/
structure ClientConf where
  passwordCheck : Bool
  /-- `passwd`, the hashed one -/
  passwd : Option Str
  /-- `password`, the plain one -/
  password : Option Str
  /-- whether `keep` has any value (it is emptied by `keep = 0`) -/
  keep : Bool
  deriving DecidableEq, Repr

/-- The server: global settings, the files in `clientconfdir` that can be loaded, and the `crypt` function
of the system: `none` if burp has been built without it, and a result of `none` for a failure. -/
structure Server where
  cnameFqdn : Bool
  cnameLowercase : Bool
  confdir : Str
  /-- by path -/
  load : Str → Option ClientConf
  crypt : Option (Str → Str → Option Str)

/-- `compare_password`, `src/server/auth.c:20-61`, whether the result is 0. If sleeping fails the result is
-1 instead of the difference. -/
def comparePassword (secret supplied : Str) : Bool := decide (secret = supplied)

/-- `check_passwd`, `src/server/auth.c:66-86`. -/
def checkPasswd (crypt : Option (Str → Str → Option Str)) (passwd plain : Str) : Int :=
  match crypt with
  | none => -1
  | some f =>
    if passwd.length < 13 then 0
    else match f plain passwd with
      | none => -1
      | some e => if comparePassword passwd e then 1 else 0

/-- There is a plain password and it does not match, `src/server/auth.c:122`. -/
def plainWrong (c : ClientConf) (password : Str) : Bool :=
  match c.password with
  | none => false
  | some p => !comparePassword p password

/-- There is a hashed password and it does not match, `src/server/auth.c:128`. -/
def hashWrong (s : Server) (c : ClientConf) (password : Str) : Bool :=
  match c.passwd with
  | none => false
  | some p => decide (checkPasswd s.crypt p password = 0)

/-- `check_client_and_password`, `src/server/auth.c:88-143`, without the loading. True for a return value of
0. -/
def checkPassword (s : Server) (c : ClientConf) (password : Str) : Bool :=
  if c.passwordCheck then
    if c.password.isNone && c.passwd.isNone then false
    else if plainWrong c password then false
    else if hashWrong s c password then false
    else c.keep
  else c.keep

/-- The result for a connection. -/
inductive Result where
  | undefined
  | refused
  | authorised (cname : Str)
  deriving DecidableEq, Repr

/-- `conf_load_clientconfdir`, `src/conffile.c:1587-1607`, and the check. -/
def checkClientAndPassword (s : Server) (cname password : Str) : Result :=
  match cnameValid cname with
  | .undefined => .undefined
  | .invalid => .refused
  | .valid =>
    match s.load (Prepend.prependS (some s.confdir) cname) with
    | none => .refused
    | some c => if checkPassword s c password then .authorised cname else .refused

/-- The name under which the client is known, `src/server/auth.c:217-225`. -/
def normalise (s : Server) (name : Str) : Str :=
  let n := if s.cnameFqdn then name else stripFqdn name
  if s.cnameLowercase then n.map toLower else n

/-- What follows the first colon. -/
def afterColon : Str → Option Str
  | [] => none
  | c :: cs => if c = 58 then some cs else afterColon cs

/-- The client gives a version that cannot be read, `src/server/auth.c:190-204`. -/
def versionBad (hello : Str) : Bool :=
  match afterColon hello with
  | none => false
  | some v => decide (Version.versionToLong (some v) < 0)

/-- `authorise_server`, `src/server/auth.c:163-258`, with the three messages that the client sends. Of
these, the kind is looked at only for the first; `isGen` says whether it is `CMD_GEN`. -/
def authorise (s : Server) (isGen : Bool) (hello name password : Str) : Result :=
  if !isGen || !(bytes "hello").isPrefixOf hello then .refused
  else if versionBad hello then .refused
  else checkClientAndPassword s (normalise s name) password

end Verif.Auth
