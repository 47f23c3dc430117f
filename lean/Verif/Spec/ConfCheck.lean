import Verif.Model.ConfCheck

/-!
# What a complete configuration is
-/

namespace Verif.ConfCheck

open Verif.Confs

/-- A setting has a text. -/
def IsSet (c : Confs) (o : Opt) : Prop := ∃ s, getStr c o = some s

/-- For all programs: one lock, and a certificate with the one of its authority. -/
structure Common (c : Confs) : Prop where
  lock : IsSet c .LOCKFILE ∨ IsSet c .PIDFILE
  cert : IsSet c .SSL_CERT
  ca : IsSet c .SSL_CERT_CA

/-- For a server. -/
structure ServerComplete (c : Confs) : Prop extends Common c where
  directory : IsSet c .DIRECTORY
  dedupGroup : IsSet c .DEDUP_GROUP
  clientconfdir : IsSet c .CLIENTCONFDIR
  recovery : c .WORKING_DIR_RECOVERY_METHOD = .recovery .delete ∨ c .WORKING_DIR_RECOVERY_METHOD = .recovery .resume
  dhfile : IsSet c .SSL_DHFILE
  /-- the password that clients encrypt with must not be known to the server -/
  secret : getStr c .ENCRYPTION_PASSWORD = none
  keep : getLst c .KEEP ≠ []
  hardlinks : 2 ≤ getInt c .MAX_HARDLINKS
  subdirs : 1001 ≤ getInt c .MAX_STORAGE_SUBDIRS
  /-- with its own certificate authority, all that it needs; the authority and the server have different names -/
  authority : IsSet c .CA_CONF → IsSet c .CA_NAME ∧ IsSet c .CA_SERVER_NAME ∧
    getStr c .CA_NAME ≠ getStr c .CA_SERVER_NAME ∧ IsSet c .CA_BURP_CA ∧ IsSet c .SSL_KEY
  manualDelete : ∀ p, getStr c .MANUAL_DELETE = some p → PathCmp.isAbsolute p = true

/-- A text has two dots after each other. -/
def TwoDots (s : Str) : Prop := ∃ a b, s = a ++ bytes ".." ++ b

/-- A name is made shorter if that is wanted: what is before the first dot. -/
def Short (c : Confs) (full s : Str) : Prop :=
  (getInt c .CNAME_FQDN ≠ 0 ∧ s = full) ∨
  (getInt c .CNAME_FQDN = 0 ∧ 46 ∉ s ∧ (s = full ∨ ∃ rest, full = s ++ 46 :: rest))

/-- A name as it is wanted. -/
def Wanted (c : Confs) (full n : Str) : Prop :=
  ∃ s, Short c full s ∧ ((getInt c .CNAME_LOWERCASE = 0 ∧ n = s) ∨
    (getInt c .CNAME_LOWERCASE ≠ 0 ∧ n = s.map Auth.toLower))

/-- The name of a client: the one that is set, or else that of its certificate, or else, if there is none yet, that
of the host. -/
inductive NameOf (h : Host) (c : Confs) : Str → Prop
  | given {n : Str} : getStr c .CNAME = some n → NameOf h c n
  | cert {p cn n : Str} : getStr c .CNAME = none → getStr c .SSL_CERT = some p → h.cert p = .named cn →
      Wanted c cn n → NameOf h c n
  | host {p full n : Str} : getStr c .CNAME = none → getStr c .SSL_CERT = some p → h.cert p = .missing →
      h.fqdn = some full → Wanted c full n → NameOf h c n

/-- For a client. -/
structure ClientComplete (h : Host) (c : Confs) : Prop extends Common c where
  name : ∃ n, NameOf h c n
  server : IsSet c .SERVER
  os : ∀ s, getStr c .AUTOUPGRADE_OS = some s → ¬ TwoDots s
  authority : IsSet c .CA_BURP_CA → IsSet c .CA_CSR_DIR ∧ IsSet c .SSL_KEY

/-- Settings that are filled in. -/
def filled : List Opt := [.SSL_KEY_PASSWORD, .TIMESTAMP_FORMAT, .CNAME, .PASSWORD, .SSL_PEER_CN]

end Verif.ConfCheck
