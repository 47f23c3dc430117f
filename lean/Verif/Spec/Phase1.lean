import Verif.Model.Phase1
import Verif.Spec.Manifest
import Verif.Spec.Attribs

/-!
# What the first phase of a backup has to tell the server
-/

namespace Verif.Phase1
open Verif.Strlist Verif.Attribs Verif.Find

/-- A directory that was reached from the device `parent`, or is one to start from (`top`), is to be gone into: it
is not marked, and if another file system begins there, then that is one of the right type, and going into other file
systems there is allowed. -/
def Entered (c : Cfg) (w : World) (d : Str) (parent : Int) (top : Bool) (a : Attr) : Prop :=
  (∀ n ∈ c.nobackup, w.lstat (Prepend.prependS (some d) n) = none) ∧
  (top = true ∨ parent ≠ a.dev →
    (∃ t, w.fstype d = some t ∧ t ∉ c.excfs ∧ (c.incfs = [] ∨ t ∈ c.incfs)) ∧
    (top = true ∨ c.crossAll = true ∨ d ∈ c.fschgdir))

/-- Where a name in a directory leads to: to the file itself if it is included, else to the included directories
below it. -/
def Leads (c : Cfg) (e q : Str) : Prop :=
  (isIncludedNoIncext c.find e = true ∧ q = e) ∨
  (isIncludedNoIncext c.find e = false ∧
    ∃ x ∈ c.find.incexcdir, x.flag ≠ 0 ∧ PathCmp.isSubdir e x.path ≠ 0 ∧ q = x.path)

/-- What is to be looked at: the starting directories, and what the names in directories that are gone into lead to.
The number is the device that it was reached from. -/
inductive Reached (c : Cfg) (w : World) (starts : List Elem) : Str → Int → Bool → Prop where
  | start {s : Elem} : s ∈ starts → s.flag ≠ 0 → Reached c w starts s.path (-1) true
  | child {d : Str} {parent : Int} {top : Bool} {a : Attr} {l : List Str} {n q : Str} :
      Reached c w starts d parent top → w.lstat d = some a → kindOf a.mode = some .dir →
      Entered c w d parent top a → w.entries d = .names l → n ∈ l → Leads c (Scan.dirPrefix d ++ n) q →
      Reached c w starts q a.dev false

/-- Everything that is looked at is there. -/
def Present (c : Cfg) (w : World) (starts : List Elem) : Prop :=
  ∀ p parent top, Reached c w starts p parent top → w.lstat p ≠ none

/-- The attributes that count: a symbolic link that is named as a block device is one. -/
def Seen (c : Cfg) (p : Str) (a : Attr) : Attr :=
  if kindOf a.mode = some .lnk ∧ p ∈ c.blockdevs then { a with mode := a.mode - 0o120000 + 0o060000 } else a

/-- The attributes of a file as they are sent: what the system says, and how it is compressed and encrypted. -/
def Described (c : Cfg) (a : Attr) (compression : Nat) : Attr :=
  { a with
    winattr := 0
    compression := compression
    encryption := if c.encrypted then 2 else 0
    salt := 0
    useWinapi := 0 }

/-- The content of this device or fifo is to be backed up. -/
def ToBeRead (c : Cfg) (p : Str) (k : Option Kind) : Prop :=
  (k = some .blk ∧ (c.allBlockdevs = true ∨ p ∈ c.blockdevs)) ∨
  (k = some .fifo ∧ (c.allFifos = true ∨ p ∈ c.fifos))

/-- What is said of a file that has the attributes `a`, if it is not another name of one that was there before: the
kind of entry, the target of a symbolic link, and the attributes. -/
inductive Shown (c : Cfg) (w : World) (p : Str) (a : Attr) : Cmd → Option Str → Attr → Prop where
  | file : kindOf a.mode = some .reg →
      Shown c w p a (if c.encrypted then .encFile else .file) none
        (Described c a (inExcludeComp c.excom p c.compression))
  | dir : kindOf a.mode = some .dir → Shown c w p a .directory none (Described c a c.compression)
  | symlink {t : Str} : kindOf a.mode = some .lnk → p ∉ c.blockdevs → w.readlink p = some t →
      Shown c w p a .softLink (some t) (Described c a c.compression)
  /-- a symbolic link that is named as a block device -/
  | device : kindOf a.mode = some .lnk → p ∈ c.blockdevs →
      Shown c w p a (if c.encrypted then .encFile else .file) none
        (Described c (Seen c p a) (inExcludeComp c.excom p c.compression))
  | read : ToBeRead c p (kindOf a.mode) →
      Shown c w p a (if c.encrypted then .encFile else .file) none
        (Described c a (inExcludeComp c.excom p c.compression))
  | special : kindOf a.mode ≠ some .reg → kindOf a.mode ≠ some .dir → kindOf a.mode ≠ some .lnk →
      ¬ ToBeRead c p (kindOf a.mode) → Shown c w p a .special none (Described c a c.compression)

/-- An entry for a file, not for its metadata. -/
def Main : Ev → Prop
  | .entry cmd _ _ _ => cmd ≠ .metadata ∧ cmd ≠ .encMetadata
  | .warn _ _ => False

instance : DecidablePred Main := fun e => by
  cases e <;> simp only [Main] <;> infer_instance

/-- What is told are warnings, and entries, each followed by one for its metadata just if it has any. -/
inductive Told (c : Cfg) (w : World) : List Ev → Prop where
  | nil : Told c w []
  | warn {p : Problem} {f : Str} {l : List Ev} : Told c w l → Told c w (.warn p f :: l)
  | plain {cmd : Cmd} {a : Attr} {f : Str} {t : Option Str} {l : List Ev} : Main (.entry cmd a f t) →
      w.extra f (decide (cmd = .directory)) = false → Told c w l → Told c w (.entry cmd a f t :: l)
  | withMeta {cmd : Cmd} {a : Attr} {f : Str} {t : Option Str} {l : List Ev} : Main (.entry cmd a f t) →
      w.extra f (decide (cmd = .directory)) = true → Told c w l →
      Told c w (.entry cmd a f t :: .entry (if c.encrypted then .encMetadata else .metadata) a f none :: l)

/-- The path of what is said. -/
def Ev.path : Ev → Str
  | .entry _ _ p _ => p
  | .warn _ p => p

/-- Something that can have several names: what it is, and that it has several. -/
def Shareable (a : Attr) : Prop :=
  a.nlink > 1 ∧ (kindOf a.mode = some .reg ∨ kindOf a.mode = some .chr ∨ kindOf a.mode = some .blk ∨
    kindOf a.mode = some .fifo ∨ kindOf a.mode = some .sock)

/-- The same file. -/
def SameFile (a b : Attr) : Prop := a.dev = b.dev ∧ a.ino = b.ino

/-- The settings want the file to be in the backup. -/
def LetThrough (c : Cfg) (p : Str) (a : Attr) (top : Bool) : Prop :=
  isIncluded c.find p top = true ∧ c.logic p a = false ∧
    (kindOf a.mode = some .reg → sizeMatch c.find a.size.toNat = true)

/-- A problem with a file, that keeps it or what is in it out of the backup. -/
def Serious : Ev → Prop
  | .warn p _ => p = .noFsChange ∨ p = .noFollow ∨ p = .noStat ∨ p = .noOpen
  | .entry _ _ _ _ => False

/-- An entry for `q` with the attributes `a`, and with its data or whatever else makes it what it is. -/
def Plainly (q : Str) (a : Attr) (e : Ev) : Prop :=
  ∃ cmd l, e = .entry cmd a q l ∧ Main e ∧ cmd ≠ .hardLink

/-- An entry that comes after `pre` is right: it is for a file that was to be looked at and is wanted, and says what
it is; or it says that it is another name of a file that was there before. -/
def Right (c : Cfg) (w : World) (starts : List Elem) (pre : List Ev) (cmd : Cmd) (a : Attr) (p : Str)
    (l : Option Str) : Prop :=
  ∃ parent top a0, Reached c w starts p parent top ∧ w.lstat p = some a0 ∧ LetThrough c p (Seen c p a0) top ∧
    ((Shown c w p a0 cmd l a ∧ (Shareable a → ∀ e ∈ pre, ∀ q b, Plainly q b e → Shareable b → ¬ SameFile a b)) ∨
     (cmd = .hardLink ∧ a = Described c (Seen c p a0) c.compression ∧ Shareable a ∧
       ∃ t, l = some t ∧ t ≠ p ∧ ∃ e ∈ pre, ∃ b, Plainly t b e ∧ Shareable b ∧ SameFile a b))

/-- The entry of the list on the server. -/
def Ev.listed : Ev → Option Entry
  | .entry cmd a p none => some (.plain cmd ((encode a).getD []) p)
  | .entry cmd a p (some t) => some (.link cmd ((encode a).getD []) p t)
  | .warn _ _ => none

/-- What the system says can be put into messages: paths are strings without dots as components, nothing is longer
than a message can be, numbers have their sizes. -/
structure Sayable (c : Cfg) (w : World) (starts : List Elem) : Prop where
  path : ∀ p parent top, Reached c w starts p parent top → NoNul p ∧ DotFree p ∧ Fits p
  attr : ∀ p a, w.lstat p = some a → a.InRange
  target : ∀ p t, w.readlink p = some t → Fits t
  compression : c.compression < 10

/-- The tree `t` has what is gone through: all that is to be looked at is in it, and a directory that is gone into and
read has the names there that it has in it. -/
structure Agrees (c : Cfg) (w : World) (starts : List Elem) (t : Scan.Tree) : Prop where
  there : ∀ p parent top, Reached c w starts p parent top → Scan.lstat t p ≠ .missing
  names : ∀ p parent top a l, Reached c w starts p parent top → w.lstat p = some a → kindOf a.mode = some .dir →
    Entered c w p parent top a → w.entries p = .names l → Scan.lstat t p = .dir l

/-- The tree `t` has no more than can be seen: names only in directories that are gone into and read. -/
def NoMore (c : Cfg) (w : World) (starts : List Elem) (t : Scan.Tree) : Prop :=
  ∀ p parent top a n ns, Reached c w starts p parent top → w.lstat p = some a → Scan.lstat t p = .dir (n :: ns) →
    kindOf a.mode = some .dir ∧ Entered c w p parent top a ∧ ∃ l, w.entries p = .names l

/-- No file system that is looked at is of a type that is left out. -/
def Accepted (c : Cfg) (w : World) (starts : List Elem) : Prop :=
  ∀ p parent top a, Reached c w starts p parent top → w.lstat p = some a → kindOf a.mode = some .dir →
    top = true ∨ parent ≠ a.dev → ∃ t, w.fstype p = some t ∧ t ∉ c.excfs ∧ (c.incfs = [] ∨ t ∈ c.incfs)

/-- What an entry is for: its kind and its path. -/
def Ev.key : Ev → Option (Cmd × Option Str)
  | .entry cmd _ p _ => some (cmd, some p)
  | .warn _ _ => none

end Verif.Phase1
