import Verif.Model.ExtraMeta

/-!
# What is to be kept of a file
-/

namespace Verif.ExtraMeta

/-- What has to be done to a new file to make it like the one that was backed up: its access control list,
for a directory its default control list, and its extended attributes, but not those that are only another
form of the lists. -/
def wanted (m : FileMeta) (isDir : Bool) : List Act :=
  (m.access.toList.map (Act.acl false)) ++ (if isDir then m.default.toList.map (Act.acl true) else []) ++
    ((m.xattrs.getD []).filter fun x => !(hasAcl m isDir && inSkiplist x.name)).flatMap
      fun x => x.value.toList.map (Act.xattr x.name)

/-- The length of an extended attribute in the record. -/
def XAttr.size (x : XAttr) : Nat := 16 + x.name.length + (x.value.getD []).length

/-- Everything about the file can be read, and fits into 2 GB. -/
structure Fits (m : FileMeta) : Prop where
  access : ∀ t, m.access = some t → t.length ≤ maxlen ∧ NoNul t
  default : ∀ t, m.default = some t → t.length ≤ maxlen ∧ NoNul t
  listed : ∃ xs, m.xattrs = some xs ∧ (∀ x ∈ xs, NoNul x.name ∧ x.value.isSome) ∧
    (xs.map XAttr.size).sum ≤ maxlen

/-- The value of an extended attribute of the file. -/
def valueOf (m : FileMeta) (n : Str) : Option Str :=
  match (m.xattrs.getD []).find? (fun x => x.name = n) with
  | some x => x.value
  | none => none

/-- A file without anything. -/
def bare : Has := ⟨none, none, fun _ => none⟩

end Verif.ExtraMeta
