import Verif.Model.Cntr

/-!
# What the counters have to say

The counters are compared with the history of calls itself.
-/

namespace Verif.Cntr

/-- The kinds of entries of a backup: each has a row of its own. -/
def kinds : List Byte :=
  [ Cmd.file, Cmd.encFile, Cmd.metadata, Cmd.encMetadata, Cmd.directory, Cmd.hardLink, Cmd.softLink,
    Cmd.special, Cmd.vss, Cmd.encVss, Cmd.vssT, Cmd.encVssT, Cmd.efsFile ].map Cmd.toByte

/-- The calls made for a backup on the server: entries are counted under their kind, warnings and
messages too, and byte counts are added or set. (`cntr_add` with `CMD_FILE_CHANGED` is only called on
the client.) -/
def Allowed : Op → Prop
  | .add ch => ch ∈ kinds ∨ ch = Cmd.warning.toByte ∨ ch = Cmd.message.toByte
  | .same ch _ => ch ∈ kinds
  | .changed ch _ => ch ∈ kinds
  | .deleted ch => ch ∈ kinds
  | .phase1 ch => ch ∈ kinds
  | .val ch _ => ch = Cmd.bytes.toByte ∨ ch = Cmd.bytesEstimated.toByte
  | .setBytes _ _ => True

instance : DecidablePred Allowed := fun o => by cases o <;> unfold Allowed <;> infer_instance

/-- The sum of a list of counters, as 64 bit numbers. -/
def sum (l : List UInt64) : UInt64 := l.foldr (· + ·) 0

/-- How much a call says is new for a kind. -/
def newOf (k : Byte) : Op → UInt64
  | .add ch => if ch = k then 1 else 0
  | _ => 0

/-- How much a call says is unchanged for a kind. -/
def sameOf (k : Byte) : Op → UInt64
  | .same ch v => if ch = k then v else 0
  | _ => 0

/-- How much a call says has changed for a kind. -/
def changedOf (k : Byte) : Op → UInt64
  | .changed ch v => if ch = k then v else 0
  | _ => 0

/-- How much a call says was deleted for a kind. -/
def deletedOf (k : Byte) : Op → UInt64
  | .deleted ch => if ch = k then 1 else 0
  | _ => 0

/-- How much a call says was scanned for a kind. -/
def scannedOf (k : Byte) : Op → UInt64
  | .phase1 ch => if ch = k then 1 else 0
  | _ => 0

/-- The sum of one column over all kinds. -/
def column (c : Cntr) (f : Ent → UInt64) : UInt64 := sum (kinds.map (fun k => f (c k)))

/-- A text that can stand in a status line: no tab and no newline. -/
def Plain (s : Str) : Prop := tab ∉ s ∧ newline ∉ s

instance (s : Str) : Decidable (Plain s) := by unfold Plain; infer_instance

/-- The reader has, for the counters of the table, what the sender had: the count for the single
fields, all five numbers for the others. -/
def Received (r : Reader) (c : Cntr) : Prop :=
  ∀ k f, (k, f) ∈ table →
    (f = .single → (r.ent k.toByte).count = (c k.toByte).count) ∧ (f ≠ .single → r.ent k.toByte = c k.toByte)

end Verif.Cntr
