import Verif.Model.Attribs

/-!
# What a legal attribute record is

The value ranges of the C types on Linux x86_64. The only excluded values are those that become
`INT64_MIN`, which the encoder negates (undefined behaviour in C).
-/

namespace Verif.Attribs

/-- A value of an unsigned 64-bit field that does not become `INT64_MIN`. -/
def U64 (x : Int) : Prop := 0 ≤ x ∧ x < 2^64 ∧ x ≠ 2^63
/-- A value of an unsigned 32-bit field. -/
def U32 (x : Int) : Prop := 0 ≤ x ∧ x < 2^32
/-- A value of a signed 64-bit field, not `INT64_MIN`. -/
def S64 (x : Int) : Prop := -2^63 < x ∧ x < 2^63
/-- A value of a signed 32-bit field. -/
def S32 (x : Int) : Prop := -2^31 ≤ x ∧ x < 2^31

/-- The base 64 digit with a given value, as in RFC 4648. -/
def b64Char (n : Nat) : Byte :=
  if n < 26 then UInt8.ofNat (65 + n) else if n < 52 then UInt8.ofNat (71 + n)
  else if n < 62 then UInt8.ofNat (n - 4) else if n = 62 then 43 else 47

/-- A record whose fields all fit their C types. -/
structure Attr.InRange (a : Attr) : Prop where
  dev : U64 a.dev
  ino : U64 a.ino
  mode : U32 a.mode
  nlink : U64 a.nlink
  uid : U32 a.uid
  gid : U32 a.gid
  rdev : U64 a.rdev
  size : S64 a.size
  blksize : S64 a.blksize
  blocks : S64 a.blocks
  atime : S64 a.atime
  mtime : S64 a.mtime
  ctime : S64 a.ctime
  winattr : U64 a.winattr
  compression : S32 a.compression
  encryption : S32 a.encryption
  salt : U64 a.salt
  useWinapi : a.useWinapi = 0 ∨ a.useWinapi = 1

end Verif.Attribs
