import Verif.Model.Listening

/-!
# Where the server is to listen
-/

namespace Verif.Listening
open Verif Verif.Ipacl

/-- What the settings ask for: for each address what it is for, in order. -/
def asked (c : Conf) : List (Kind × Str) :=
  c.listen.map (fun a => (Kind.main, a)) ++ c.listenStatus.map (fun a => (Kind.status, a))

/-- Who may connect, by the settings. -/
def Conf.allowOf (c : Conf) : Kind → List Str
  | .main => c.allow
  | .status => c.allowStatus

/-- An address is a host and a port. -/
def IsHostPort (a host port : Str) : Prop := a = host ++ 58 :: port ∧ (58 : Byte) ∉ port

/-- Every address can be listened on, whatever is listened on already, and the networks can be read. -/
def AllFine (c : Conf) (w : World) : Prop :=
  ∀ k a, (k, a) ∈ asked c → (∃ host port, IsHostPort a host port ∧ ∀ socks, w.opens socks host port = true)
    ∧ (appendAll w.pton [] (c.allowOf k)).isSome = true

/-- systemd tells exactly which port a socket of it has. -/
def TellsPorts (w : World) (portOf : Nat → Nat) : Prop := ∀ fd p, w.isInet fd p ≠ 0 ↔ p = portOf fd

/-- No port is both for clients and for monitors. -/
def PortsApart (c : Conf) : Prop :=
  ∀ a ∈ c.listen, ∀ b ∈ c.listenStatus, ∀ h p h' p', IsHostPort a h p → IsHostPort b h' p' →
    BackupNumber.strtoul p ≠ BackupNumber.strtoul p'

end Verif.Listening
