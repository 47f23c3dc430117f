import Verif.Model.Monitor
import Verif.Spec.Cntr

/-!
# What a monitor may see

A client may watch itself. It may watch others if their settings list it in `restore_clients` or
`super_clients`, unless it only pretends to be the client that it says it is.
-/

namespace Verif.Monitor

/-- Whether the one who watches may see the client `n`, whose settings are `cc`. -/
def MaySee (m : Watcher) (n : Str) (cc : ClientConf) : Prop :=
  m.cname = some n ∨
  (m.superClient = none ∧ ∃ me, m.cname = some me ∧ (me ∈ cc.restoreClients ∨ me ∈ cc.superClients))

/-- The names of files in `clientconfdir` that are names of clients. -/
def ValidName (n : Str) : Prop :=
  n ≠ [] ∧ n.head? ≠ some dot ∧ slash ∉ n ∧ (92 : Byte) ∉ n ∧ n.getLast? ≠ some 126

/-- On this disk there is a client `n` with the settings `cc`. -/
def HasClient (sv : Server) (w : World) (n : Str) (cc : ClientConf) : Prop :=
  ValidName n ∧ ∃ t text, w.conf n = some (t, text) ∧ sv.load sv.globalText n text = some cc

/-- On this disk there is a client `n` with the settings `cc`, and the monitor may see it. -/
def MayWatch (sv : Server) (w : World) (n : Str) (cc : ClientConf) : Prop :=
  HasClient sv w n cc ∧ MaySee sv.who n cc

/-- The disks that are read in a history. -/
def disks : List Event → List World
  | [] => []
  | .disk w :: es => w :: disks es
  | _ :: es => disks es

/-- Files of clients change their time when they change their text, no time is 0, and what is a file of a client
is found in the directory. -/
structure Honest (ws : List World) : Prop where
  nonzero : ∀ w ∈ ws, ∀ n t x, w.conf n = some (t, x) → t ≠ 0
  same : ∀ w ∈ ws, ∀ w' ∈ ws, ∀ n t x x', w.conf n = some (t, x) → w'.conf n = some (t, x') → x = x'
  listed : ∀ w ∈ ws, ∀ ns, w.names = some ns → ∀ n p, w.conf n = some p → n ∈ ns

/-- The last time that the disk is read, it is `w`; `es` is the whole history. -/
def LastDisk (es : List Event) (w : World) : Prop :=
  ∃ es1 es2, es = es1 ++ .disk w :: es2 ∧ disks es2 = []

/-- What the main process tells is of these two kinds: the children at work, or the counters of one of them. -/
def Told : Event → Prop
  | .parent s =>
    (∃ l : List (Str × Nat × Nat), (∀ x ∈ l, Cntr.Plain x.1) ∧ s = clientsLine l) ∨
    (∃ (cnt : Cntr.Cntr) (cname : Str) (pid bno status : Nat) (path : Str), Cntr.Plain cname ∧ Cntr.Plain path ∧
      pid < 2 ^ 31 ∧ bno < 2 ^ 31 ∧ status < 10 ∧ s = Cntr.toStr cnt cname pid bno status path)
  | _ => True

/-- The files that may be read to show the backup `b`: the manifest, and the logs and statistics, which may be
compressed. -/
def Readable (b : Bu) (p : Str) : Prop :=
  p = b.path ++ bytes "/manifest.gz" ∨
  ∃ f ∈ [bytes "/log", bytes "/restorelog", bytes "/verifylog", bytes "/backup_stats", bytes "/restore_stats",
      bytes "/verify_stats"], p = b.path ++ f ∨ p = b.path ++ f ++ bytes ".gz"

/-- What a message says about clients. -/
def Msg.infos : Msg → List Info
  | .clients l => l
  | _ => []

/-- The messages that are not markers. -/
def Msg.plain : Msg → Bool
  | .start _ => false
  | .finish _ => false
  | _ => true

end Verif.Monitor
