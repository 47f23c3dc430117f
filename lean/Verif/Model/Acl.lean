import Verif.Model.Basic

/-!
# Model: whether a file has an access control list that is to be saved

`src/client/acl.c:22-104`, on Linux.
-/

namespace Verif.Acl

/-- Whom an entry is for, `src/client/acl.c:47-53`. -/
inductive Tag where
  | userObj
  | user (id : Nat)
  | groupObj
  | group (id : Nat)
  | mask
  | other
  deriving DecidableEq, Repr

/-- An entry: whom it is for, and the permissions, as the bits of an octal digit. What `acl_get_entry` gives,
`src/client/acl.c:38`. -/
structure Entry where
  tag : Tag
  perm : Nat
  deriving DecidableEq, Repr

/-- A list that `acl_get_file` gave, `src/client/acl.c:70`: its entries, and how many of them `acl_get_entry` gives before it
fails, if it does. -/
structure AclList where
  entries : List Entry
  failsAt : Option Nat := none
  deriving DecidableEq, Repr

/-- The entries that `acl_get_entry` gives, `src/client/acl.c:38-39`, `:55`, `:64`: an error ends the loop as the end
does. -/
def AclList.given (a : AclList) : List Entry :=
  match a.failsAt with
  | none => a.entries
  | some n => a.entries.take n

/-- The loop of `acl_is_trivial`, `src/client/acl.c:38-58`. Simplified: `acl_get_tag_type` does not fail for an entry. -/
def isTrivial : List Entry → Bool
  | [] => true
  | e :: es =>
    if e.tag ≠ .userObj ∧ e.tag ≠ .groupObj ∧ e.tag ≠ .other then false else isTrivial es

/-- `default_acl_contains_something`, `src/client/acl.c:61-65`. -/
def defaultContains (es : List Entry) : Bool := !es.isEmpty

/-- `has_acl`, `src/client/acl.c:89-104`; `none` if `acl_get_file` fails. -/
def hasAcl (access dflt : Option AclList) (isDir : Bool) : Bool :=
  (match access with
    | none => false
    | some a => !isTrivial a.given)
  || (isDir && match dflt with
    | none => false
    | some a => defaultContains a.given)

end Verif.Acl
