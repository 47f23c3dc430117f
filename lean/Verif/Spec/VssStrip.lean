import Verif.Model.Basic

/-!
# Windows backup streams

As in the documentation of `WIN32_STREAM_ID`: four bytes for the kind of the stream, four for attributes,
eight for the size of the data, four for the size of the name, then the name and the data.
-/

namespace Verif.VssStrip

structure Stream where
  kind : Nat
  attributes : Nat
  name : Str
  content : Str
  deriving DecidableEq, Repr

/-- `n` in `k` bytes, the lowest first. -/
def lowFirst : (k n : Nat) → Str
  | 0, _ => []
  | k + 1, n => UInt8.ofNat (n % 256) :: lowFirst k (n / 256)

/-- A stream as it is in a file. -/
def Stream.write (s : Stream) : Str :=
  lowFirst 4 s.kind ++ lowFirst 4 s.attributes ++ lowFirst 8 s.content.length ++ lowFirst 4 s.name.length ++
    s.name ++ s.content

/-- The numbers fit, and name and content together are not larger than a file can be. -/
def Stream.Fits (s : Stream) : Prop :=
  s.kind < 2 ^ 32 ∧ s.name.length < 2 ^ 31 ∧ s.name.length + s.content.length < 2 ^ 63

instance (s : Stream) : Decidable s.Fits := by unfold Stream.Fits; infer_instance

/-- `BACKUP_DATA`: the contents of the file. Such a stream has no name. -/
def Stream.isData (s : Stream) : Bool := s.kind == 1

end Verif.VssStrip
