import Verif.Model.BackupList

/-!
# What a backup in the directory of a client is
-/

namespace Verif.BackupList
open Verif.BackupNumber

/-- The first line of a file that is not empty. -/
def FirstLine (content line : Str) : Prop :=
  content ≠ [] ∧ newline ∉ line ∧ ∃ rest, content = line ++ rest ∧ (rest = [] ∨ rest.head? = some newline)

/-- A directory whose name starts with a digit, and whose timestamp starts with the same eight characters:
seven digits and a space. -/
def IsBak (e : Ent) : Prop :=
  startsDigit e.name = true ∧ e.isDir = true ∧
  ∃ content line, e.timestamp = some content ∧ FirstLine content line ∧ line.take 8 = e.name.take 8

/-- It is being made, or finished. -/
def InProgress (c : Client) (e : Ent) : Prop := c.working = some e.name ∨ c.finishing = some e.name

/-- It is the one that `current` points to. -/
def IsCurrent (c : Client) (e : Ent) : Prop := c.current = some e.name

/-- What the links point to has names that are shorter than the buffers that they are read into. -/
def ShortLinks (c : Client) : Prop :=
  ∀ l ∈ [c.working, c.finishing, c.current], ∀ t, l = some t → t.length ≤ 37

/-- What is told of a backup is what is in its directory. -/
def Describes (c : Client) (e : Ent) (b : Bak) : Prop :=
  b.basename = e.name ∧
  (∀ content line, e.timestamp = some content → FirstLine content line → b.timestamp = line.take 37) ∧
  b.bno = strtoul b.timestamp ∧
  (b.hardlinked = true ↔ bytes "hardlinked" ∈ e.files) ∧
  (b.current = true ↔ IsCurrent c e) ∧
  (b.working = true ↔ c.working = some e.name ∧ ¬ IsCurrent c e) ∧
  (b.finishing = true ↔ c.finishing = some e.name ∧ c.working ≠ some e.name ∧ ¬ IsCurrent c e) ∧
  ((c.path ++ [slash] ++ e.name ++ [slash] ++ bytes "manifest.gz").length < 256 →
    (b.manifest = true ↔ bytes "manifest" ∈ e.files ∨ bytes "manifest.gz" ∈ e.files))

/-- The entries that have a timestamp, as they are for the numbering of backups. -/
def dirEnt (e : Ent) : Option DirEnt :=
  if e.isDir then
    (e.timestamp.bind timestampRead).map (fun ts => ⟨e.name, ts, decide (bytes "hardlinked" ∈ e.files)⟩)
  else none

end Verif.BackupList
