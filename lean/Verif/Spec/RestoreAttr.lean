import Verif.Model.RestoreAttr

/-!
# Specification: owners, modes and times of what is restored
-/

namespace Verif.RestoreAttr
open Verif

/-- A file has the owner, the group, the times and - unless it is a symbolic link - the mode that it is to
have. -/
def Has (n : Node) (st : Stat) : Prop :=
  n.uid = st.uid ∧ n.gid = st.gid ∧ n.atime = (st.atime, 0) ∧ n.mtime = (st.mtime, 0) ∧
    (st.kind ≠ .link → n.mode = st.mode)

/-- It is of the kind that it is to be. A hard link is what the other name is; and of what is special only
the place is sure. -/
def KindOk (a : What) (n : Node) : Prop :=
  match a with
  | .file => n.kind = .file
  | .dir => n.kind = .dir
  | .symlink => n.kind = .link
  | _ => True

/-- What was to be restored is there. -/
def Restored (s : S) (e : Entry) : Prop :=
  ∃ i, s.dent e.path = some i ∧ Has (s.node i) e.stat ∧ KindOk e.what (s.node i)

/-- A file system: names have inodes in use, what there is is in a directory, and only other files than
directories have more than one name; `family` tells which names can belong to one file. -/
structure Good (family : Path → Path) (s : S) : Prop where
  lt : ∀ p i, s.dent p = some i → i < s.fresh
  par : ∀ p, s.dent p ≠ none → p ≠ [] → isDir s p.dropLast = true
  top : isDir s [] = true
  one : ∀ p q i, s.dent p = some i → s.dent q = some i → p = q ∨ ((s.node i).kind ≠ .dir ∧ family p = family q)

/-- What a server sends: a directory comes after everything in it (C31), and there is nothing in other
things; the names of one file are a family and have the same attributes, and so have a file and its
metadata. -/
structure Stream (family : Path → Path) (attr : Path → Stat) (es : List Entry) : Prop where
  order : es.Pairwise fun a b => a.what ≠ .metadata → a.path <+: b.path → a.path = b.path
  links : ∀ e ∈ es, ∀ t, e.what = .hardlink t → family e.path = family t
  attrs : ∀ e ∈ es, e.stat = attr (family e.path)
  same : es.Pairwise fun a b => a.what ≠ .metadata → a.path = b.path → b.what = .metadata ∨ b.what = a.what

end Verif.RestoreAttr
