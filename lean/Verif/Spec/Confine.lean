import Verif.Model.Confine
import Verif.Spec.Scan

/-!
# Specification: a restore stays in its directory
-/

namespace Verif.Confine

/-- A file system: there is a root, things are in directories, and names are not empty and have no slash and
no zero byte. -/
structure GoodFS (fs : FS) : Prop where
  root : fs [] = some .dir
  tree : ∀ p c, fs (p ++ [c]) ≠ none → fs p = some .dir
  names : ∀ p, fs p ≠ none → ∀ c ∈ p, GoodName c

/-- A real directory, with real directories all the way up to the root: what `realpath` gives. -/
structure RealDir (fs : FS) (d : List Name) : Prop where
  dirs : ∀ q, q <+: d → fs q = some .dir
  plain : ∀ c ∈ d, isStay c = false ∧ isUp c = false

/-- Below a directory. -/
def Below (d p : List Name) : Prop := d <+: p ∧ p ≠ d

/-- Kinds of entries with metadata. -/
def isMeta (c : Cmd) : Bool := c = .metadata || c = .vss || c = .encMetadata || c = .encVss
/-- Kinds of entries with the data of a file. -/
def isData (c : Cmd) : Bool := c = .file || c = .vssT || c = .encFile || c = .encVssT || c = .efsFile
/-- Kinds of entries that are links. -/
def isLink (c : Cmd) : Bool := c = .softLink || c = .hardLink

/-- The path ends with `..`. -/
def EndsUp (e : Entry) : Prop := (sub e.path).getLast? = some [dot, dot]

/-- What has to be excluded: sockets, and metadata of directories with a path with empty parts, `.` or
`..`. -/
structure Harmless (e : Entry) : Prop where
  socket : e.cmd = .special → e.mode ≠ .sock
  metadata : isMeta e.cmd → e.mode = .dir → ∀ c ∈ sub e.path, isStay c = false ∧ isUp c = false

instance (e : Entry) : Decidable (EndsUp e) := by unfold EndsUp; infer_instance

instance (e : Entry) : Decidable (Harmless e) :=
  decidable_of_iff ((e.cmd = .special → e.mode ≠ .sock) ∧
    (isMeta e.cmd → e.mode = .dir → ∀ c ∈ sub e.path, isStay c = false ∧ isUp c = false))
    ⟨fun h => ⟨h.1, h.2⟩, fun h => ⟨h.1, h.2⟩⟩

/-- A mode or an access control list may be set through a link. -/
def ThroughLink (e : Entry) : Prop :=
  (isLink e.cmd ∧ e.mode ≠ .lnk) ∨ e.cmd = .special ∨ (isMeta e.cmd ∧ e.acl)

/-- An entry with data that says it is a directory. -/
def DataDir (e : Entry) : Prop := isData e.cmd ∧ e.mode = .dir

instance (e : Entry) : Decidable (ThroughLink e) := by unfold ThroughLink; infer_instance
instance (e : Entry) : Decidable (DataDir e) := by unfold DataDir; infer_instance

end Verif.Confine
