import Verif.Model.Base64

/-!
# File attributes: `src/attribs.c`

The non-Windows branch without `HAVE_CHFLAGS` (Linux) is modelled.
-/

namespace Verif.Attribs
open Verif Base64

/-- The parts of `struct sbuf` and its `struct stat` that `attribs_encode` stores
(src/sbuf.h:36-56). Integer widths are those of Linux x86_64 and are enforced by `Attr.InRange`. -/
structure Attr where
  dev : Int
  ino : Int
  mode : Int
  nlink : Int
  uid : Int
  gid : Int
  rdev : Int
  size : Int
  blksize : Int
  blocks : Int
  atime : Int
  mtime : Int
  ctime : Int
  winattr : Int
  compression : Int
  encryption : Int
  salt : Int
  useWinapi : Int
deriving DecidableEq, Repr

/-- Conversion of an integer to `int64_t` (argument passing to `to_base64`). -/
def castS64 (x : Int) : Int := Int.bmod x (2^64)
/-- Conversion to `uint64_t` (`plug`, src/attribs.c:124). -/
def castU64 (x : Int) : Int := x % 2^64
/-- Conversion to `uint32_t`. -/
def castU32 (x : Int) : Int := x % 2^32
/-- Conversion to `int32_t`. -/
def castS32 (x : Int) : Int := Int.bmod x (2^32)
/-- The C operator `!`. -/
def lnot (x : Int) : Int := if x = 0 then 1 else 0

/-- The nineteen values given to `to_base64`, in order, src/attribs.c:64-115. -/
def fields (a : Attr) : List Int :=
  [castS64 a.dev, castS64 a.ino, castS64 a.mode, castS64 a.nlink, castS64 a.uid, castS64 a.gid,
   castS64 a.rdev, castS64 a.size, castS64 a.blksize, castS64 a.blocks, castS64 a.atime,
   castS64 a.mtime, castS64 a.ctime, 0, castS64 a.winattr, castS64 a.compression,
   castS64 a.encryption, castS64 a.salt, lnot a.useWinapi]

/-- The repeated `p += to_base64(..., p); *p++ = ' ';`, src/attribs.c:64-116. -/
def encodeFields : List Int → Option Str
  | [] => some []
  | [v] => (toBase64 v).map (fun r => r.1)
  | v :: vs => do
    let r ← toBase64 v
    let rest ← encodeFields vs
    pure (r.1 ++ space :: rest)

/-- `attribs_encode`, src/attribs.c:50-121: the text put into `sb->attr.buf`; `none` when
`to_base64` has undefined behaviour. -/
def encode (a : Attr) : Option Str := encodeFields (fields a)

/-- What `attribs_decode` does with each number it reads, in order, src/attribs.c:137-249. Resets of
defaults that happen between two reads (lines 221, 227, 228) are folded into the previous step. -/
def setters : List (Attr → Int → Attr) :=
  [ fun a v => { a with dev := castU64 v },
    fun a v => { a with ino := castU64 v },
    fun a v => { a with mode := castU32 v },
    fun a v => { a with nlink := castU64 v },
    fun a v => { a with uid := castU32 v },
    fun a v => { a with gid := castU32 v },
    fun a v => { a with rdev := castU64 v },
    fun a v => { a with size := castS64 v },
    fun a v => { a with blksize := castS64 v },
    fun a v => { a with blocks := castS64 v },
    fun a v => { a with atime := castS64 v },
    fun a v => { a with mtime := castS64 v },
    fun a v => { a with ctime := castS64 v },
    fun a _ => { a with winattr := 0 },
    fun a v => { a with winattr := castU64 v, compression := -1, encryption := -1 },
    fun a v => { a with compression := castS32 v },
    fun a v => { a with encryption := castS32 v },
    fun a v => { a with salt := castU64 v },
    fun a v => { a with useWinapi := lnot v } ]

/-- The body of `attribs_decode`: read a number, return if nothing was eaten, store it, go on.
src/attribs.c:137-249. `none` when `from_base64` has undefined behaviour. -/
def decodeFrom : List (Attr → Int → Attr) → Attr → Str → Option Attr
  | [], a, _ => some a
  | f :: fs, a, p =>
    match fromBase64 p with
    | (v, eaten) =>
      if eaten = 0 then some a
      else match v with
        | none => none
        | some v => decodeFrom fs (f a v) (p.drop eaten)

/-- `attribs_decode`, src/attribs.c:127-250, on an `sbuf` whose attributes are `a`. -/
def decode (a : Attr) (p : Str) : Option Attr := decodeFrom setters a p

end Verif.Attribs
