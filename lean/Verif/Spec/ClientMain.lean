import Verif.Model.ClientMain
import Verif.Model.SendConf

/-!
# What the user of a client is told
-/

namespace Verif.ClientMain
open Verif

/-- A script that did its job. -/
def Ended.good : Ended → Bool
  | .exited n => n % 256 == 0
  | _ => false

/-- Things that went wrong, of those that are seen. -/
def Event.bad : Event → Bool
  | .pre _ e => !e.good
  | .post _ e => !e.good
  | .worked _ _ _ ok => !ok
  | _ => false

/-- The work. -/
def Event.isWork : Event → Bool
  | .worked .. => true
  | _ => false

def Event.isPre : Event → Bool
  | .pre .. => true
  | _ => false

def Event.isPost : Event → Bool
  | .post .. => true
  | _ => false

def Event.isScript (e : Event) : Bool := e.isPre || e.isPost

/-- In which order things happen. -/
def Event.rank : Event → Nat
  | .connecting _ => 0
  | .asked .. => 1
  | .pre .. => 2
  | .worked .. => 3
  | .post .. => 4

/-- The answers by which the server lets the client begin. -/
def letsBegin (s : Str) : Prop :=
  bytes "ok" <+: s ∨ bytes "resume" <+: s ∨ s = bytes "timer conditions met"

/-- A kind of backup. -/
def Act.isBackup : Act → Bool
  | .backup | .timed => true
  | _ => false

/-- Things for which the server is needed. -/
def Act.connects : Act → Bool
  | .estimate | .status => false
  | _ => true

/-- Whether another server must be tried after this. -/
def Again (a : Act) (onError : Bool) (r : Ret) : Prop :=
  r = .connect ∨ r = .error ∧ a.isBackup = true ∧ onError = true

/-- The servers that a client has talked to. -/
def contacts (l : List Event) : List Str :=
  l.filterMap (fun x => match x with | .connecting s => some s | _ => none)

/-- Everything that is not seen went well. -/
structure Env.Quiet (e : Env) : Prop where
  setup : e.setup = true
  flush : e.flush = true
  glob : e.globOk = true
  incexc : e.incexc = true
  dirs : e.bopts.startDirs = true

/-- The server's answer that the client may begin, with the compression to be used: `src/server/backup.c:364-366`. -/
def goAhead (resume : Bool) (level : Int) : Str :=
  (if resume then bytes "resume" else bytes "ok") ++ 58 :: Confs.showInt level

end Verif.ClientMain
