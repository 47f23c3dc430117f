import Verif.Model.Admission

/-!
# Who is to be let in
-/

namespace Verif.Admission
open Verif.Auth Verif.Ipacl Verif.Version

/-- The same name, but for the case of ASCII letters. -/
def SameName (a b : Str) : Prop := a.map toLower = b.map toLower

instance (a b : Str) : Decidable (SameName a b) := by unfold SameName; infer_instance

/-- The name that the certificate of a client has to have. -/
def expectedCn (s : Server) (client : Str) : Str := ((s.client client).sslPeerCn).getD client

/-- The address is one that the server, and the configuration of the client, let in at this port. What
`allowed` means is C37. -/
def AddressOk (s : Server) (client : Str) (x : Conn) : Prop :=
  (x.status = false → allowed s.pton s.networkAllow x.addr = true ∧
    allowed s.pton (s.client client).networkAllow x.addr = true) ∧
  (x.status = true → allowed s.pton s.networkAllowStatus x.addr = true ∧
    allowed s.pton (s.client client).networkAllowStatus x.addr = true)

/-- If revoked certificates are looked for, the list can be read, comes from the issuer of the certificate, and
the certificate is not on it. -/
def NotRevoked (s : Server) (c : Cert) : Prop :=
  s.caCrlCheck = true → s.caName.isSome ∧ ∃ l, s.crl = some l ∧ l.issuer = c.issuer ∧ c.serial ∉ l.revoked

/-- The first thing that the client says that is not a warning, message or interrupt. -/
def answer (x : Conn) : Option Said := x.said.find? (fun m => m ≠ .aside)

/-- The version of the client is from 1.3.2 on. -/
def Recent (x : Conn) : Prop := versionToLong (some (bytes "1.3.2")) ≤ versionToLong (afterColon x.hello)

/-- The client asks for a certificate. -/
def Asks (x : Conn) : Prop := Recent x ∧ answer x = some (.gen (bytes "csr"))

/-- The client does not want a certificate. -/
def Declines (x : Conn) : Prop := ¬ Recent x ∨ answer x = some (.gen (bytes "nocsr"))

/-- What certificates and settings look like in practice: a common name is a text of at most 255 bytes, and the
description of a cipher has a line end in it, which the name that is expected has not. -/
def Ordinary (s : Server) (n : Str) (x : Conn) : Prop :=
  (∀ c cn, x.cert = some c → c.cn = some cn → NoNul cn ∧ cn.length ≤ 255) ∧
  newline ∈ x.cipher ∧ newline ∉ expectedCn s n ∧ s.caName ≠ some []

end Verif.Admission
