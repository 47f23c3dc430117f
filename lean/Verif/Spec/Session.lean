import Verif.Model.Session
import Verif.Spec.Phase2
import Verif.Spec.History

/-!
# Histories of whole backups, and what the client's files were
-/

namespace Verif.Session
open Verif.Phase2 Verif.Manifest Verif.History

/-- The client at the time of a backup: what its scan found, what it answers when asked for an entry
(`none` if it cannot read it), and what its files contain (by kind and path). -/
structure Visit (C P : Type) where
  scan : List Ent
  ans : Ent → Option (Ent × C)
  file : Key → P

/-- A stored backup, its manifest, and the client at the time. `visit` is not part of the storage; it is what a
restore is compared with. -/
structure Made (C D P : Type) where
  b : Backup C D Key
  entries : List Ent
  visit : Visit C P

/-- How the client turns what is stored for an entry into the content of the file, when it restores it: it
decrypts it with what the entry says, unless the kind of the entry is `file`. -/
def GoodPlain {C P : Type} (plain : Ent → C → P) : Prop :=
  ∀ e e' c, e.cmd = e'.cmd → (e.cmd = .file ∨ e.encryption = e'.encryption ∧ e.salt = e'.salt) →
    plain e c = plain e' c

/-- The client does what it should: the scan is in order, and the answer to a request is for what was asked for and
has the content of the file. -/
def Truthful {C P : Type} (plain : Ent → C → P) (v : Visit C P) : Prop :=
  SortedBy entKey v.scan ∧ (∀ p ∈ v.scan, p.datapth = none) ∧
  ∀ p ∈ v.scan, p.cmd ∈ dataKinds → ∀ e c, v.ans p = some (e, c) →
    entKey e = entKey p ∧ plain e c = v.file (entKey p)

/-- Content does not change behind the back of the modification time: an entry that looks the same as in the
previous backup has the same content, and a file that was a hard link in the previous backup and has the same inode and
modification time has the content of the file it was linked to. Such files are not encrypted (see
`C16_relink_salt_violated`). -/
def Steady {C D P : Type} (windows : Bool) (v : Visit C P) (x : Made C D P) : Prop :=
  ∀ p ∈ v.scan, ∀ c ∈ x.entries, SameKey (entKey c) (entKey p) →
    (LooksSame windows c p → p.cmd ∈ dataKinds → v.file (entKey p) = x.visit.file (entKey p)) ∧
    (LinkBecameFile c p → p.cmd = .file ∧
      ∀ h ∈ x.entries, h.path = c.link → h.cmd = .file → v.file (entKey p) = x.visit.file (entKey h))

/-- New data paths are different from each other, and are not those of files of the previous backup; except that an
entry may have the path that the entry in its place had (files stored as a tree). See C19. -/
def GoodAlloc {C D P : Type} (alloc : Ent → Str) (v : Visit C P) (cur : Option (Made C D P)) : Prop :=
  (∀ p ∈ v.scan, ∀ q ∈ v.scan, alloc p = alloc q → p = q) ∧
  ∀ p ∈ v.scan, ∀ x, cur = some x →
    x.b.data (alloc p) = none ∨
    ∃ c ∈ x.entries, c.datapth = some (alloc p) ∧ SameKey (entKey c) (entKey p)

/-- The histories of one client's storage: any sequence of whole backups and of deletions of deletable
backups. -/
inductive Sessions {C D S P : Type} (L : Librsync C D S) (plain : Ent → C → P) : List (Made C D P) → Prop
  | empty : Sessions L plain []
  | backup {H : List (Made C D P)} {s : Settings} {reset : Bool} {bno : Nat} {hard : Bool}
      {alloc : Ent → Str} {v : Visit C P} {l : List (Backup C D Key)} {es : List Ent} :
      Sessions L plain H → Truthful plain v →
      (∀ x, H.getLast? = some x → Steady s.windows v x ∧ NoClash entKey (v.scan ++ x.entries)) →
      NoClash entKey v.scan →
      GoodAlloc alloc v H.getLast? → (∀ x ∈ H, x.b.bno < bno) → 0 < bno →
      session L s reset bno hard alloc v.ans v.scan (H.getLast?.map Made.entries) (H.map Made.b) =
        some (l, es) →
      Sessions L plain (List.zipWith (fun b m => ⟨b, m.1, m.2⟩) l
        (H.map (fun m => (m.entries, m.visit)) ++ [(es, v)]))
  | delete {H : List (Made C D P)} {bno : Nat} :
      Sessions L plain H →
      (∃ b ∈ H.map (fun x => x.b.bu), b.bno = bno ∧ Deletable (H.map (fun x => x.b.bu)) b) →
      Sessions L plain (H.filter (fun x => x.b.bno ≠ bno))

/-- What the manifest says about an entry, apart from where and how its data is stored. -/
def attributes (e : Ent) : Cmd × Option Str × Option Str × Nat × Nat × Int × Int × Int :=
  (e.cmd, e.path, e.link, e.dev, e.ino, e.mtime, e.ctime, e.size)

end Verif.Session
