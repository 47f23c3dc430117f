import Verif.Model.CaClient

/-!
# The server sets up its certificate authority: `ca_server_setup`, `src/server/ca.c:16-330`

The file system is a function from paths; a path is looked up as it is, links on the way are not followed.
What the program `burp_ca` does is a parameter. A run is the list of the changes it makes, so that it can be
cut anywhere; taking away a whole directory is one change. Memory does not run out.
-/

namespace Verif.CaServer
open Verif Verif.ConfLine

inductive Node where
  | dir
  | file (content : Str)
  | link (target : Str)
  deriving DecidableEq, Repr

abbrev FS := Str → Option Node

/-- Whether a path is this directory or something in it. -/
def below (d p : Str) : Bool := decide (p = d) || (d ++ [slash]).isPrefixOf p

inductive Op where
  | put (p : Str) (n : Node)
  /-- `unlink` -/
  | del (p : Str)
  /-- a directory with all that is in it -/
  | delAll (d : Str)
  deriving DecidableEq, Repr

/-- What a change comes to. A directory cannot be unlinked. -/
def Op.run (fs : FS) : Op → FS
  | .put p n => fun q => if q = p then some n else fs q
  | .del p => fun q => if q = p ∧ fs p ≠ some .dir then none else fs q
  | .delAll d => fun q => if below d q then none else fs q

def runAll (fs : FS) (ops : List Op) : FS := ops.foldl Op.run fs

/-- The changes that are made, and whether 0 is returned. -/
abbrev Res := List Op × Bool

/-- One thing after another: the second is done if the first has not failed. -/
def next (fs : FS) (r : Res) (k : FS → Res) : Res :=
  if r.2 then (r.1 ++ (k (runAll fs r.1)).1, (k (runAll fs r.1)).2) else r

/-- The settings; with `ca_conf` the others have to be there, `src/conffile.c:465-515`. -/
structure Conf where
  /-- what is in the file `ca_conf`, if it can be opened; outside that `ca_conf` is not set -/
  caConf : Option (Option Str)
  caName : Str
  serverName : Str
  sslCert : Str
  sslCertCa : Str
  sslKey : Str
  dhfile : Str
  /-- `ca_crl` -/
  crl : Option Str
  deriving DecidableEq, Repr

/-- The ways `burp_ca` is run. -/
inductive Script where
  | dhfile
  | init
  | request
  | sign
  | crl
  deriving DecidableEq, Repr

/-- What `burp_ca` does. -/
abbrev World := Script → FS → Res

/-- `get_ca_dir`, `src/server/ca.c:18-43`, on the lines of the file. Lines on which `conf_get_pair` looks
outside of the buffer are passed over here. -/
def caDirOf : List Str → Option Str
  | [] => none
  | l :: ls =>
    match getPair l with
    | .pair f v _ => if f.map Auth.toLower = (bytes "CA_DIR").map Auth.toLower then some v else caDirOf ls
    | _ => caDirOf ls

/-- `get_crl_path` and `get_generated_crl_path`, `src/server/ca.c:46-74`. -/
def crlPath (k : Conf) (d : Str) : Str :=
  match k.crl with
  | some p => p
  | none => d ++ [slash] ++ bytes "CA_" ++ k.caName ++ bytes ".crl"

/-- What the links point to, `src/server/ca.c:183-205`; the buffer has 1024 bytes. -/
def caCrt (k : Conf) (d : Str) : Str := (d ++ bytes "/CA_" ++ k.caName ++ bytes ".crt").take 1023
def serverCrt (k : Conf) (d : Str) : Str := (d ++ bytes "/" ++ k.serverName ++ bytes ".crt").take 1023
def serverKey (k : Conf) (d : Str) : Str := (d ++ bytes "/" ++ k.serverName ++ bytes ".key").take 1023

/-- `symlink_file`, `src/server/ca.c:83-98`: the target has to be there, and nothing at the path. -/
def symlink (target path : Str) (fs : FS) : Res :=
  if (fs target).isNone then ([], false)
  else if (fs path).isSome then ([], false)
  else ([.put path (.link target)], true)

/-- One of the three links, `src/server/ca.c:183-205`. -/
def relink (target path : Str) (fs : FS) : Res :=
  if target = path then ([], true) else next fs ([.del path], true) (symlink target path)

/-- `ca_init`, `src/server/ca.c:99-207`. -/
def init (k : Conf) (w : World) (d : Str) (fs : FS) : Res :=
  if fs d = some .dir then ([], true)
  else
    next fs (w .init fs) fun fs =>
    next fs (w .request fs) fun fs =>
    next fs (w .sign fs) fun fs =>
    next fs (relink (caCrt k d) k.sslCertCa fs) fun fs =>
    next fs (relink (serverCrt k d) k.sslCert fs) fun fs =>
    relink (serverKey k d) k.sslKey fs

/-- `maybe_make_dhfile`, `src/server/ca.c:211-241`. -/
def dhfile (k : Conf) (w : World) (fs : FS) : Res :=
  if (fs k.dhfile).isSome then ([], true) else w .dhfile fs

/-- `maybe_make_crl`, `src/server/ca.c:243-292`. -/
def crl (k : Conf) (w : World) (d : Str) (fs : FS) : Res :=
  if k.caName = [] then ([], true)
  else if (fs (crlPath k d)).isSome then ([], true)
  else w .crl fs

/-- `recursive_delete`, `src/fsops.c:285-298`: what is not a directory is unlinked. -/
def wipe (d : Str) (fs : FS) : List Op :=
  if fs d = some .dir then [.delAll d] else [.del d]

/-- `ca_init` with what follows when it fails, `src/server/ca.c:312-316`. -/
def initOrWipe (k : Conf) (w : World) (d : Str) (fs : FS) : Res :=
  if (init k w d fs).2 then init k w d fs
  else ((init k w d fs).1 ++ wipe d (runAll fs (init k w d fs).1), false)

/-- `ca_server_setup` once the directory is known, `src/server/ca.c:309-319`. -/
def setupIn (k : Conf) (w : World) (d : Str) (fs : FS) : Res :=
  next fs (dhfile k w fs) fun fs =>
  next fs (initOrWipe k w d fs) fun fs =>
  crl k w d fs

/-- The directory, if it can be found. -/
def caDir (k : Conf) : Option Str :=
  match k.caConf with
  | some (some content) => caDirOf (CaClient.gets [] content)
  | _ => none

/-- `ca_server_setup`, `src/server/ca.c:294-326`. -/
def setup (k : Conf) (w : World) (fs : FS) : Res :=
  if k.caConf.isNone then ([], true)
  else
    match caDir k with
    | none => ([], false)
    | some d => setupIn k w d fs

/-- The server is started again and again; each time it may be cut after so many changes. -/
def starts (k : Conf) (fs : FS) : List (World × Option Nat) → FS
  | [] => fs
  | (w, none) :: ws => starts k (runAll fs (setup k w fs).1) ws
  | (w, some n) :: ws => starts k (runAll fs ((setup k w fs).1.take n)) ws

end Verif.CaServer
