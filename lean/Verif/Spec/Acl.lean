import Verif.Model.Acl

/-!
# Specification: who may do what with a file (C130)

As in acl(5), "Access check algorithm".
-/

namespace Verif.Acl

/-- The permissions in the first entry of a kind. -/
def permOf (es : List Entry) (t : Tag) : Option Nat := (es.find? (fun e => e.tag == t)).map (·.perm)

/-- Whether permissions have all that is wanted. -/
def grants (perm want : Nat) : Bool := perm &&& want == want

/-- The permissions of an entry that the mask is for. -/
def masked (es : List Entry) (perm : Nat) : Nat :=
  match permOf es .mask with
  | none => perm
  | some m => perm &&& m

/-- The permissions of the entries for groups that somebody is in. -/
def groupPerms (es : List Entry) (group : Nat) (gids : List Nat) : List Nat :=
  (if group ∈ gids then (permOf es .groupObj).toList else []) ++
    es.filterMap (fun e => match e.tag with
      | .group g => if g ∈ gids then some e.perm else none
      | _ => none)

/-- Whether an access control list lets somebody do something. -/
def allows (es : List Entry) (owner group uid : Nat) (gids : List Nat) (want : Nat) : Bool :=
  if uid = owner then grants ((permOf es .userObj).getD 0) want
  else match permOf es (.user uid) with
    | some p => grants (masked es p) want
    | none =>
      if groupPerms es group gids ≠ [] then (groupPerms es group gids).any (fun p => grants (masked es p) want)
      else grants ((permOf es .other).getD 0) want

/-- Whether the mode of a file lets somebody do something. -/
def modeAllows (u g o owner group uid : Nat) (gids : List Nat) (want : Nat) : Bool :=
  if uid = owner then grants u want
  else if group ∈ gids then grants g want
  else grants o want

end Verif.Acl
