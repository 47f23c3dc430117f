import Verif.Model.Auth

/-!
# Acting for another client: `conf_switch_to_orig_client` in `src/conffile.c`

Allocation does not fail. Of a configuration only the permissions and the lists are looked at.
-/

namespace Verif.Switch

/-- The `client_can_...` settings. -/
structure Perms where
  forceBackup : Bool
  delete : Bool
  diff : Bool
  list : Bool
  monitor : Bool
  restore : Bool
  verify : Bool
  deriving DecidableEq, Repr

/-- A configuration. -/
structure Conf where
  cname : Str
  perms : Perms
  superClients : List Str
  restoreClients : List Str
  deriving DecidableEq, Repr

/-- `restore_client_allowed`, `src/conffile.c:1627-1639`. -/
def restoreClientAllowed (c s : Conf) : Nat :=
  if s.superClients.any (fun r => decide (r = c.cname)) then 2
  else if s.restoreClients.any (fun r => decide (r = c.cname)) then 1
  else 0

/-- The permissions after a switch, `src/conffile.c:1679-1713`. -/
def newPerms (isSuper : Bool) (c s : Perms) : Perms :=
  if isSuper then
    { forceBackup := false, delete := c.delete, diff := c.diff, list := c.list, monitor := c.monitor,
      restore := c.restore, verify := c.verify }
  else
    { forceBackup := false,
      delete := if c.delete then s.delete else false,
      diff := if c.diff then s.diff else false,
      list := if c.list then s.list else false,
      monitor := if c.monitor then s.monitor else false,
      restore := if c.restore then s.restore else false,
      verify := if c.verify then s.verify else false }

/-- `conf_switch_to_orig_client`, `src/conffile.c:1641-1739`: the configuration after it, `none` for an
error. `load` is the loading of the configuration of a client by name, which includes the check of the
name (`src/conffile.c:1587-1607`). -/
def switchTo (load : Str → Option Conf) (c : Conf) (orig : Str) : Option Conf :=
  if c.cname = orig then some c
  else match load orig with
    | none => none
    | some s =>
      match restoreClientAllowed c s with
      | 1 => some { s with perms := newPerms false c.perms s.perms }
      | 2 => some { s with perms := newPerms true c.perms s.perms }
      | _ => none

/-- The messages `orig_client=` that a client sends one after the other,
`src/server/extra_comms.c:338-355`. The connection ends when one is refused. -/
def switches (load : Str → Option Conf) (c : Conf) : List Str → Option Conf
  | [] => some c
  | o :: os => match switchTo load c o with
    | none => none
    | some c' => switches load c' os

end Verif.Switch
