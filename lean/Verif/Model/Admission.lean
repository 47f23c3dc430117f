import Verif.Model.Auth
import Verif.Model.Ipacl
import Verif.Model.Version

/-!
# Letting a client in: `run_child` of `src/server/main.c`, `src/server/ca.c`, `ssl_check_cert` of `src/ssl.c`

What the connection goes through before `child()` serves it. Allocation, and writing short messages to the
client, do not fail; the global configuration can be loaded. TLS itself is taken as given: the handshake with
`SSL_VERIFY_PEER` ends the connection if the client presents a certificate that does not verify.
-/

namespace Verif.Admission
open Verif.Auth Verif.Ipacl Verif.Version

/-- A certificate, as the server sees it. -/
structure Cert where
  /-- signed by the CA that the server trusts, and within its dates -/
  verifies : Bool
  /-- the common name of the subject -/
  cn : Option Str
  issuer : Str
  serial : Nat
  deriving DecidableEq, Repr

/-- A list of revoked certificates. -/
structure Crl where
  issuer : Str
  revoked : List Nat
  deriving DecidableEq, Repr

/-- What is looked at in the configuration of a client, besides `Auth.ClientConf`. -/
structure ClientSettings where
  enabled : Bool
  networkAllow : List Str
  networkAllowStatus : List Str
  sslPeerCn : Option Str
  canMonitor : Bool

/-- The server: its settings, and the list of revoked certificates. -/
structure Server where
  auth : Auth.Server
  /-- `inet_pton` -/
  pton : Pton
  /-- `network_allow` and `network_allow_status` of the server itself -/
  networkAllow : List Str
  networkAllowStatus : List Str
  /-- by the name of the client -/
  client : Str → ClientSettings
  sslVerifyPeerEarly : Bool
  /-- `ca_name`, if `ca_conf` is set; `src/conffile.c:465-503` sees to it that they are set together -/
  caName : Option Str
  caCrlCheck : Bool
  /-- the list of revoked certificates, if it can be read -/
  crl : Option Crl

/-- What the client says after it has been authorised, message by message. -/
inductive Said where
  /-- `CMD_GEN` -/
  | gen (text : Str)
  /-- a warning, message or interrupt -/
  | aside
  /-- any other command -/
  | other
  deriving DecidableEq, Repr

/-- A connection: what the client does. -/
structure Conn where
  /-- to a status port -/
  status : Bool
  addr : Addr
  cert : Option Cert
  /-- the description of the cipher in use -/
  cipher : Str
  isGen : Bool
  hello : Str
  name : Str
  password : Str
  said : List Said
  /-- the certificate signing request, if it arrives: the common name in it -/
  csr : Option (Option Str)
  /-- sending the certificate and that of the CA succeeds -/
  delivered : Bool

/-- The directory of the CA: the files `<name>.crt` and `<name>.csr`, and what it has issued so far
(`index.txt`; the serial number of the next certificate is the number of these). -/
structure Ca where
  crt : Str → Option Cert
  csr : Str → Bool
  issued : List Cert

/-- A change at one name. -/
def put {α : Type} (f : Str → α) (k : Str) (v : α) : Str → α := fun m => if m = k then v else f m

/-- Remove the two files of a client: `src/server/ca.c:430-431`. -/
def Ca.unlink (ca : Ca) (client : Str) : Ca :=
  { ca with crt := put ca.crt client none, csr := put ca.csr client false }

/-- The beginning of `sign_client_cert`, `src/server/ca.c:349-384`: whether the request is accepted.
Simplification: the paths are not cut at 511 bytes. -/
def signBegin (caName : Str) (ca : Ca) (client : Str) : Bool :=
  if client = caName then false
  else if (ca.crt client).isSome then false
  else if ca.csr client then false
  else true

/-- `receive_a_file` in `sign_client_cert`, `src/server/ca.c:386-387`. `none` if the request does not
arrive. -/
def signReceive (ca : Ca) (client : Str) (csr : Option (Option Str)) : Option Ca :=
  match csr with
  | none => none
  | some _ => some { ca with csr := put ca.csr client true }

/-- `burp_ca --sign` in `sign_client_cert`, `src/server/ca.c:389-413`, and `configs/certs/CA/burp_ca.in:262-291`
with `configs/certs/CA/CA.cnf.in`: `openssl ca` signs the request that is in the file. It needs a common name
(`policy_anything`), and takes it over. `burp_ca` exits with 0 in any case. -/
def signSign (caName : Str) (ca : Ca) (client : Str) (csr : Option (Option Str)) : Ca :=
  match csr with
  | some (some cn) =>
    let c : Cert := { verifies := true, cn := some cn, issuer := caName, serial := ca.issued.length }
    { ca with crt := put ca.crt client (some c), issued := ca.issued ++ [c] }
  | _ => ca

/-- The end of `sign_client_cert`, `src/server/ca.c:415-433`: the certificate is sent back, which fails if there
is none. -/
def signEnd (ca : Ca) (client : Str) (delivered : Bool) : Bool × Ca :=
  if (ca.crt client).isSome && delivered then (true, ca)
  else (false, ca.unlink client)

/-- `sign_client_cert`, `src/server/ca.c:349-442`. True for a return value of 0. -/
def signClientCert (caName : Str) (ca : Ca) (client : Str) (csr : Option (Option Str)) (delivered : Bool) :
    Bool × Ca :=
  if signBegin caName ca client then
    match signReceive ca client csr with
    | none => (false, ca.unlink client)
    | some ca => signEnd (signSign caName ca client csr) client delivered
  else (false, ca)

/-- What comes of the part about certificates. -/
inductive Signing where
  | error
  /-- signed and returned -/
  | done
  | nothing
  deriving DecidableEq, Repr

/-- `csr_server_func`, `src/server/ca.c:444-485`. -/
def csrServerFunc (s : Server) (ca : Ca) (client : Str) (x : Conn) (text : Str) : Signing × Ca :=
  if text = bytes "csr" then
    match s.caName with
    | none => (.error, ca)
    | some caName =>
      match signClientCert caName ca client x.csr x.delivered with
      | (true, ca) => (.done, ca)
      | (false, ca) => (.error, ca)
  else if text = bytes "nocsr" then (.nothing, ca)
  else (.error, ca)

/-- `asfd_simple_loop`, `src/asfd.c:508-556`, with `csr_server_func`. -/
def csrLoop (s : Server) (ca : Ca) (client : Str) (x : Conn) : List Said → Signing × Ca
  | [] => (.error, ca)
  | .gen t :: _ => csrServerFunc s ca client x t
  | .aside :: l => csrLoop s ca client x l
  | .other :: _ => (.error, ca)

/-- `ca_server_maybe_sign_client_cert`, `src/server/ca.c:488-515`. `csr_done` is 0 at the start: each process
serves one connection. -/
def maybeSign (s : Server) (ca : Ca) (client : Str) (x : Conn) : Signing × Ca :=
  let cliVer := versionToLong (afterColon x.hello)
  if cliVer < 0 then (.error, ca)
  else if cliVer < versionToLong (some (bytes "1.3.2")) then (.nothing, ca)
  else csrLoop s ca client x x.said

/-- `ca_x509_verify_crl`, `src/server/ca.c:517-600`. True for 0. Without `ca_conf`, its file cannot be opened. -/
def verifyCrl (s : Server) (c : Cert) : Bool :=
  if !s.caCrlCheck then true
  else match s.caName with
    | none => false
    | some [] => true
    | some _ => match s.crl with
      | none => false
      | some l => if l.issuer ≠ c.issuer then false else !l.revoked.contains c.serial

/-- What is in `tmpbuf` of `ssl_check_cert` after `X509_NAME_get_text_by_NID`, `src/ssl.c:307-332`: the common
name, cut after 255 bytes, up to the first NUL; or still the description of the cipher if there is no common
name. -/
def commonName (x : Conn) (c : Cert) : Str :=
  match c.cn with
  | none => x.cipher
  | some n => (n.take 255).takeWhile (fun b => b ≠ 0)

/-- `strcasecmp(a, b) == 0`. -/
def sameNoCase (a b : Str) : Bool := a.map toLower = b.map toLower

/-- `ssl_check_cert`, `src/ssl.c:303-363`, with the name that is used when there is no `ssl_peer_cn`,
`src/server/auth.c:100-109`. True for 0. -/
def checkCert (s : Server) (client : Str) (x : Conn) : Bool :=
  let peerCn := ((s.client client).sslPeerCn).getD client
  match x.cert with
  | none => false
  | some c =>
    if !c.verifies then false
    else if !sameNoCase (commonName x c) peerCn then false
    else verifyCrl s c

/-- The handshake: `src/server/main.c:302-311`. -/
def handshake (s : Server) (x : Conn) : Bool :=
  match x.cert with
  | none => !s.sslVerifyPeerEarly
  | some c => c.verifies

/-- What comes of a connection. -/
inductive Outcome where
  /-- memory outside of a string is read -/
  | undefined
  /-- closed without being served -/
  | closed
  /-- a certificate has been signed and returned, and the connection closed -/
  | signed (client : Str)
  /-- `child()` runs -/
  | served (client : Str) (status : Bool)
  deriving DecidableEq, Repr

/-- `run_child`, `src/server/main.c:260-417`. -/
def runChild (s : Server) (ca : Ca) (x : Conn) : Outcome × Ca :=
  if !handshake s x then (.closed, ca)
  else match authorise s.auth x.isGen x.hello x.name x.password with
    | .undefined => (.undefined, ca)
    | .refused => (.closed, ca)
    | .authorised client =>
      let k := s.client client
      if !allowed s.pton (if x.status then k.networkAllowStatus else k.networkAllow) x.addr then (.closed, ca)
      else if !k.enabled then (.closed, ca)
      else match maybeSign s ca client x with
        | (.error, ca) => (.closed, ca)
        | (.done, ca) => (.signed client, ca)
        | (.nothing, ca) =>
          if !checkCert s client x then (.closed, ca)
          else if x.status && !k.canMonitor then (.closed, ca)
          else (.served client x.status, ca)

/-- `process_incoming_client`, `src/server/main.c:528-642`, with the list of addresses of the listening socket
(`init_listen_socket`, 184-192). Forking succeeds and there are children to spare (see C72). -/
def incoming (s : Server) (ca : Ca) (x : Conn) : Outcome × Ca :=
  if !allowed s.pton (if x.status then s.networkAllowStatus else s.networkAllow) x.addr then (.closed, ca)
  else runChild s ca x

/-- One connection after the other. -/
def incomings (s : Server) (ca : Ca) : List Conn → List Outcome × Ca
  | [] => ([], ca)
  | x :: xs =>
    let r := incoming s ca x
    let rs := incomings s r.2 xs
    (r.1 :: rs.1, rs.2)

end Verif.Admission
