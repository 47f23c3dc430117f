import Verif.Model.EndToEnd
import Verif.Spec.Phase1
import Verif.Spec.Session
import Verif.Spec.Scan
import Verif.Model.Incexc
import Verif.Props.Find

/-!
# A client on the day of a backup, and what the backup has to have in the end
-/

namespace Verif.EndToEnd
open Verif.Attribs Verif.Phase1 Verif.Phase2 Verif.Strlist Verif.Session Verif.Incexc Verif.Manifest

/-- The client on a day: its settings, its file system as the system shows it (`w`) and as a tree of names (`t`), the
lines of its configuration, and what decides about warnings. -/
structure Day where
  c : Cfg
  w : World
  includes : List (List Str)
  excludes : List (List Str)
  starts : List Elem
  t : Scan.Tree
  depth : Nat
  fuel : Nat
  text : Problem → Str → Str
  fow : Bool

/-- The lines are read as they should be and do not overlap in the way that `C62` does not allow; the file system stands
still, has the names that the tree has, and all of it is on file systems that are wanted; and what the system says can
be put into messages. -/
structure Day.Good (d : Day) : Prop where
  lines : ∀ l ∈ d.includes ++ d.excludes, ∀ n ∈ l, GoodName n
  configured : configure (d.includes.map renderPath) (d.excludes.map renderPath) = some (d.c.find.incexcdir, d.starts)
  tree : GoodTree d.t d.depth
  nested : NoNested d.includes d.excludes (NotFiltered d.c.find)
  fuel : d.depth < d.fuel
  present : Present d.c d.w d.starts
  accepted : Accepted d.c d.w d.starts
  agrees : Agrees d.c d.w d.starts d.t
  noMore : NoMore d.c d.w d.starts d.t
  sayable : Sayable d.c d.w d.starts

/-- What the client does in the first phase. -/
def Day.told (d : Day) : Res := client d.c d.w d.fuel d.starts St.init

/-- What the second phase reads, from the list that the server has made of what the client told in the first. -/
def Day.list (d : Day) : Option (List Ent) :=
  (server d.fow false Sbuf.empty [] (conversation d.text d.told)).map scanned

/-- The file with these names is to be in the backup. -/
def Day.Wants (d : Day) (q : List Str) : Prop :=
  d.t q ≠ .missing ∧ Wanted d.includes d.excludes (NotFiltered d.c.find) q

/-- The scanned entry says what the file is: its kind and where it leads to, and the numbers that the system gives. -/
def Describes (d : Day) (scan : List Ent) (path : Str) (a : Attr) (p : Ent) : Prop :=
  p.path = some path ∧ (p.dev : Int) = a.dev ∧ (p.ino : Int) = a.ino ∧ p.mtime = a.mtime ∧ p.ctime = a.ctime ∧
  p.size = a.size ∧
  ((∃ a', Shown d.c d.w path a p.cmd p.link a') ∨
   (p.cmd = .hardLink ∧ a.nlink > 1 ∧ ∃ to_ h, p.link = some to_ ∧ to_ ≠ path ∧ h ∈ scan ∧ h.path = some to_ ∧
      group h.cmd = 1 ∧ h.cmd ≠ .hardLink ∧ h.dev = p.dev ∧ h.ino = p.ino))

/-- What is kept of a scanned entry: what it said, or what the client said when it sent the data. -/
def Kept {C P : Type} (v : Visit C P) (p e : Ent) : Prop :=
  entKey e = entKey p ∧ (attributes e = attributes p ∨
    p.cmd ∈ dataKinds ∧ ∃ r c, v.ans p = some (r, c) ∧ attributes e = attributes r)

/-- The client answers requests for data with what was asked for, and the answer has the content of the file. -/
def Honest {C P : Type} (plain : Ent → C → P) (v : Visit C P) : Prop :=
  ∀ p ∈ v.scan, p.cmd ∈ dataKinds → ∀ e c, v.ans p = some (e, c) →
    entKey e = entKey p ∧ plain e c = v.file (entKey p)

end Verif.EndToEnd
