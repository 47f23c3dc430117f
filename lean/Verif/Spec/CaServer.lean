import Verif.Model.CaServer

/-!
# What a certificate authority that is set up looks like
-/

namespace Verif.CaServer
open Verif

/-- The path a change is made to. -/
def Op.path : Op → Str
  | .put p _ => p
  | .del p => p
  | .delAll d => d

/-- All of these changes are made to paths of this kind. -/
def Within (P : Str → Prop) (ops : List Op) : Prop := ∀ o ∈ ops, P o.path

/-- `burp_ca` as it is written (`configs/certs/CA/burp_ca.in`): it creates files, takes none away, works on
the file or in the directory it is given; and when it succeeds, what it was to make is there. -/
structure WorldOk (k : Conf) (d : Str) (w : World) : Prop where
  creates : ∀ s fs, ∀ o ∈ (w s fs).1, ∃ p n, o = .put p n
  dh_only : ∀ fs, Within (· = k.dhfile) (w .dhfile fs).1
  in_dir : ∀ s fs, s ≠ .dhfile → Within (fun p => below d p = true) (w s fs).1
  /-- nothing else is put where the directory is -/
  dir_kept : ∀ s fs n, Op.put d n ∈ (w s fs).1 → n = .dir
  dh : ∀ fs, (w .dhfile fs).2 = true → runAll fs (w .dhfile fs).1 k.dhfile ≠ none
  made : ∀ fs, (w .init fs).2 = true → runAll fs (w .init fs).1 d = some .dir
  crlMade : ∀ fs, (w .crl fs).2 = true →
    runAll fs (w .crl fs).1 (d ++ [slash] ++ bytes "CA_" ++ k.caName ++ bytes ".crl") ≠ none

/-- The paths of the settings are different ones, outside of the directory. -/
structure Apart (k : Conf) (d : Str) : Prop where
  outside : ∀ p ∈ [k.sslCertCa, k.sslCert, k.sslKey, k.dhfile], below d p = false
  distinct : [k.sslCertCa, k.sslCert, k.sslKey, k.dhfile].Nodup
  fits : (d ++ bytes "/CA_" ++ k.caName ++ bytes ".crt").length < 1024
    ∧ (d ++ bytes "/" ++ k.serverName ++ bytes ".crt").length < 1024

/-- A link to a file in the directory that is there. -/
def LinksTo (fs : FS) (p : Str) (target : Str) : Prop :=
  fs p = some (.link target) ∧ fs target ≠ none

/-- All that a server needs is there. -/
structure Ready (k : Conf) (d : Str) (fs : FS) : Prop where
  dir : fs d = some .dir
  dh : fs k.dhfile ≠ none
  ca : LinksTo fs k.sslCertCa (d ++ bytes "/CA_" ++ k.caName ++ bytes ".crt")
  cert : LinksTo fs k.sslCert (d ++ bytes "/" ++ k.serverName ++ bytes ".crt")
  key : LinksTo fs k.sslKey (d ++ bytes "/" ++ k.serverName ++ bytes ".key")

end Verif.CaServer
