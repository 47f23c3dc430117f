import Verif.Model.StoredForm
import Verif.Spec.History

/-!
# What is wanted of the form that files are stored in
-/

namespace Verif.StoredForm
open Verif Verif.Phase2 Verif.History

/-- What zlib and the ciphers promise: what is compressed or encrypted can be read again, with the same password,
kind of encryption and salt. Compressed data are not empty. -/
def Codec.Sound (K : Codec) : Prop :=
  (∀ n s, K.gunzip (K.gz n s) = some s) ∧ (∀ n s, K.gzread (K.gz n s) = s) ∧ (∀ n s, K.gz n s ≠ []) ∧
  ∀ p k t s, K.dec p k t (K.enc p k t s) = some s

/-- What the file held at each backup, the last one first, since it was last a hard link. -/
def Hist.contents : Hist → List Str
  | .first s => [s.content]
  | .next h s => s.content :: h.contents
  | .wasLink _ _ _ _ s => [s.content]

/-- All backups, with those of files that were linked to. -/
def Hist.scans : Hist → List Scan
  | .first s => [s]
  | .next h s => s :: h.scans
  | .wasLink h _ _ _ s => s :: h.scans

/-- The client has the same password when it scans its files and when it sends them, and compresses the file if
and only if it would have then. There is no other password than the one that restores are made with. -/
def SameSettings (pw : Option Str) (s : Scan) : Prop :=
  s.conf1.password = s.conf2.password ∧ (s.conf1.password = none ∨ s.conf1.password = pw) ∧
  (Find.inExcludeComp s.conf1.excom s.path s.conf1.compression = 0 ↔
    Find.inExcludeComp s.conf2.excom s.path s.conf2.compression = 0)

/-- So it is in all backups. -/
def Steady (pw : Option Str) (h : Hist) : Prop := ∀ s ∈ h.scans, SameSettings pw s

/-- A file with the time of modification that was recorded has the content that it had then, and so has a hard
link to it, with the same inode, that is a file now. -/
def Honest {D S : Type} (K : Codec) (L : Librsync Str D S) : Hist → Prop
  | .first _ => True
  | .next h s => Honest K L h ∧
    ∀ l, line K L h = some l → l.cur.mtime = s.stat1.mtime → h.contents.head? = some s.content
  | .wasLink h _ target st s => Honest K L h ∧
    ∀ l, line K L h = some l → l.cur.path = some target → st.dev = s.stat1.dev → st.ino = s.stat1.ino →
      st.mtime = s.stat1.mtime → h.contents.head? = some s.content

/-- Files that hard links point to are not encrypted, and are compressed if it is configured, whatever their
names are. -/
def PlainLinks {D S : Type} (K : Codec) (L : Librsync Str D S) : Hist → Prop
  | .first _ => True
  | .next h _ => PlainLinks K L h
  | .wasLink h c _ _ _ => PlainLinks K L h ∧
    ∀ l, line K L h = some l → l.cur.cmd.isEncrypted = false ∧ (compressed l.cur = true ↔ c.compression ≠ 0)

end Verif.StoredForm
