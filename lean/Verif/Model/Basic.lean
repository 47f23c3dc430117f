/-!
# Bytes and C strings

A C string is modelled by the list of its bytes without the terminating NUL; the end of the list
plays the part of the NUL byte.
-/

namespace Verif

/-- A byte of memory (`char`/`uint8_t`). -/
abbrev Byte := UInt8

/-- A C string: its bytes, without the terminating NUL. -/
abbrev Str := List Byte

/-- The bytes of a literal, for examples and constants (ASCII only). -/
def bytes (s : String) : Str := s.toList.map (fun c => UInt8.ofNat c.toNat)

/-- No NUL byte inside: what every C string satisfies. -/
def NoNul (s : Str) : Prop := (0 : Byte) ∉ s

instance (s : Str) : Decidable (NoNul s) := by unfold NoNul; infer_instance

/-- `'/'` -/
abbrev slash : Byte := 47
/-- `' '` -/
abbrev space : Byte := 32
/-- `'.'` -/
abbrev dot : Byte := 46
/-- `'\n'` -/
abbrev newline : Byte := 10

end Verif
