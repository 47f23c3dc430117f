import Verif.Model.ConfFiles
import Verif.Model.Auth

/-!
# The checks of the configuration that a program starts with: `src/conffile.c`

What is logged is left out. Memory does not run out.
-/

namespace Verif.ConfCheck

open Verif.Confs

/-- What there is at the path of a certificate. -/
inductive Cert where
  /-- it cannot be opened -/
  | missing
  /-- it is not a certificate, or has no common name -/
  | bad
  | named (cn : Str)

/-- What is outside. -/
structure Host where
  cert : Str → Cert
  /-- the full name of this host; `none` if `gethostname` fails, or there is no name -/
  fqdn : Option Str

/-- `get_e_recovery_method`, `src/conf.c:106-110`. -/
def getRecovery (c : Confs) : Recovery := match c .WORKING_DIR_RECOVERY_METHOD with | .recovery r => r | _ => .unset

/-- `set_string`, `src/conf.c:124-129`. -/
def setStr (c : Confs) (o : Opt) (s : Str) : Confs := set c o (.str (some s))

/-- `strip_fqdn` and `strlwr`, `src/handy.c:881-895`, in `mangle_cname`, `src/conffile.c:551-557`. -/
def mangle (c : Confs) (cname : Str) : Str :=
  let n := if getInt c .CNAME_FQDN = 0 then cname.takeWhile (fun b => b ≠ 46) else cname
  if getInt c .CNAME_LOWERCASE = 0 then n else n.map Auth.toLower

/-- `get_cname_from_ssl_cert`, `src/conffile.c:559-602`. -/
def cnameFromCert (h : Host) (c : Confs) : Option Confs :=
  match getStr c .SSL_CERT with
  | none => some c
  | some path => match h.cert path with
    | .missing => some c
    | .bad => none
    | .named cn => some (setStr c .CNAME (mangle c cn))

/-- `get_fqdn`, `src/conffile.c:609-661`. -/
def cnameFromHost (h : Host) (c : Confs) : Option Confs :=
  h.fqdn.map (fun n => setStr c .CNAME (mangle c n))

/-- `confs_get_lockfile`, `src/conffile.c:663-668`. -/
def lockfile (c : Confs) : Option Str := match getStr c .LOCKFILE with
  | some l => some l
  | none => getStr c .PIDFILE

/-- `general_conf_checks`, `src/conffile.c:670-679`: whether there is no problem. -/
def general (c : Confs) : Bool :=
  (lockfile c).isSome && (getStr c .SSL_CERT).isSome && (getStr c .SSL_CERT_CA).isSome

/-- The certificate authority of a server, `src/conffile.c:465-514`. -/
def serverCa (c : Confs) : Bool :=
  if (getStr c .CA_CONF).isSome then
    (getStr c .CA_NAME).isSome && (getStr c .CA_SERVER_NAME).isSome &&
    (match getStr c .CA_NAME, getStr c .CA_SERVER_NAME with
     | some a, some b => decide (a ≠ b)
     | _, _ => true) &&
    (getStr c .CA_BURP_CA).isSome && (getStr c .SSL_DHFILE).isSome && (getStr c .SSL_CERT_CA).isSome &&
    (getStr c .SSL_CERT).isSome && (getStr c .SSL_KEY).isSome
  else true

/-- `DEFAULT_TIMESTAMP_FORMAT`, `src/times.h:4-11`, where `strftime` knows `%z`. -/
def timestampFormat : Str := bytes "%Y-%m-%d %H:%M:%S %z"

/-- `server_conf_checks`, `src/conffile.c:439-525`: whether there is no problem, and the settings. -/
def server (c : Confs) : Bool × Confs :=
  let ok := (getStr c .DIRECTORY).isSome && (getStr c .DEDUP_GROUP).isSome && (getStr c .CLIENTCONFDIR).isSome &&
    getRecovery c ≠ .unset && (getStr c .SSL_DHFILE).isSome && (getStr c .ENCRYPTION_PASSWORD).isNone &&
    getLst c .KEEP ≠ [] && 2 ≤ getInt c .MAX_HARDLINKS && 1000 < getInt c .MAX_STORAGE_SUBDIRS
  let c := if (getStr c .TIMESTAMP_FORMAT).isNone then setStr c .TIMESTAMP_FORMAT timestampFormat else c
  let absolute := match getStr c .MANUAL_DELETE with
    | none => true
    | some p => PathCmp.isAbsolute p
  (ok && serverCa c && absolute, c)

/-- `strstr(s, "..")`. -/
def dotdot : Str → Bool
  | [] => false
  | x :: xs => (bytes "..").isPrefixOf (x :: xs) || dotdot xs

/-- The name of a client, `src/conffile.c:687-700`. -/
def clientName (h : Host) (c : Confs) : Option Confs :=
  if (getStr c .CNAME).isSome then some c
  else (cnameFromCert h c).bind fun c => if (getStr c .CNAME).isSome then some c else cnameFromHost h c

/-- The name that is expected in the certificate of the server, `src/conffile.c:709-725`. -/
def peerCn (c : Confs) : Confs :=
  if (getStr c .SSL_PEER_CN).isSome then c
  else match getStr c .SERVER with
    | none => c
    | some s => setStr c .SSL_PEER_CN (s.takeWhile (fun b => b ≠ 58))

/-- `client_conf_checks`, `src/conffile.c:681-757`: whether there is no problem, and the settings. After
`clientName` the name is set, so that line 698 is not reached. -/
def client (h : Host) (c : Confs) : Bool × Confs :=
  match clientName h c with
  | none => (false, c)
  | some c =>
    let c := if (getStr c .PASSWORD).isNone then setStr c .PASSWORD (bytes "password") else c
    let c := peerCn c
    let os := match getStr c .AUTOUPGRADE_OS with
      | none => true
      | some s => !dotdot s
    let ca := if (getStr c .CA_BURP_CA).isSome then
        (getStr c .CA_CSR_DIR).isSome && (getStr c .SSL_CERT_CA).isSome && (getStr c .SSL_CERT).isSome &&
        (getStr c .SSL_KEY).isSome
      else true
    ((getStr c .SERVER).isSome && os && ca, c)

/-- `conf_finalise_global_only`, `src/conffile.c:1265-1294`. -/
def check (h : Host) (c : Confs) : Out :=
  let c := if (getStr c .SSL_KEY_PASSWORD).isNone then setStr c .SSL_KEY_PASSWORD [] else c
  match getMode c with
  | .server => let r := server c; if general c && r.1 then .ok r.2 else .error
  | .client => let r := client h c; if general c && r.1 then .ok r.2 else .error
  | .unset => .error

/-- `do_load_global_only`, `src/conffile.c:1609-1620`, for a file. -/
def start (d : ConfFiles.Disk) (env : Env) (h : Host) (n : Nat) (path : Str) : Out :=
  (ConfFiles.load d env n path).bind (check h)

end Verif.ConfCheck
