import Verif.Model.Basic

/-!
# Base64 numbers: `src/base64.c`
-/

namespace Verif.Base64
open Verif

/-- `base64_digits`, src/base64.c:42-49. -/
def digits : List Byte :=
  bytes "ABCDEFGHIJKLMNOPQRSTUVWXYZabcdefghijklmnopqrstuvwxyz0123456789+/"

/-- `base64_digits[n]`, src/base64.c:95. The code only uses `n & 0x3F`, so `n < 64`. -/
def digit (n : Nat) : Byte := digits.getD n 0

/-- `base64_map[c]` after `base64_init`, src/base64.c:51-60: the index of `c` among the digits, or 0
for every other byte (the table is cleared first; the digits are distinct, so each entry is
assigned at most once). -/
def map (c : Byte) : Nat := if c ∈ digits then digits.idxOf c else 0

/-- `isalnum(c) || c=='+' || c=='/'`, src/base64.c:124, in the C locale. -/
def isDigitChar (c : Byte) : Bool :=
  (48 ≤ c && c ≤ 57) || (65 ≤ c && c ≤ 90) || (97 ≤ c && c ≤ 122) || c == 43 || c == 47

/-- The size loop of `to_base64`, src/base64.c:83-87: how many digits `val` needs. -/
def sizeLoop (val : Nat) : Nat :=
  if h : val / 64 = 0 then 1 else sizeLoop (val / 64) + 1
termination_by val
decreasing_by omega

/-- The output loop of `to_base64`, src/base64.c:93-97, which fills the buffer from the last digit to
the first. Simplification: the result is the digits in buffer order. -/
def outLoop (val : Nat) : Str :=
  if h : val / 64 = 0 then [digit (val % 64)] else outLoop (val / 64) ++ [digit (val % 64)]
termination_by val
decreasing_by omega

/-- `to_base64`, src/base64.c:68-99. The argument is an `int64_t`. Returns the characters written
and the returned count, or `none` for `INT64_MIN`, where `-value` (line 78) is undefined. -/
def toBase64 (value : Int) : Option (Str × Nat) :=
  if value = -2^63 then none
  else if value < 0 then
    some (45 :: outLoop (-value).toNat, 1 + sizeLoop (-value).toNat)
  else
    some (outLoop value.toNat, sizeLoop value.toNat)

/-- The digit loop of `from_base64`, src/base64.c:122-128, on `uint64_t` arithmetic. Returns the
value and how many characters were passed over (up to a space or the NUL). -/
def inLoop (val : Nat) : Str → Nat × Nat
  | [] => (val, 0)
  | c :: cs =>
    if c = space then (val, 0)
    else if !isDigitChar c then
      let r := inLoop val cs
      (r.1, r.2 + 1)
    else
      let r := inLoop ((val * 64 % 2^64 + map c) % 2^64) cs
      (r.1, r.2 + 1)

/-- The conversion `(int64_t)val` of a `uint64_t`, src/base64.c:130 (two's complement). -/
def toInt64 (val : Nat) : Int := if val < 2^63 then (val : Int) else (val : Int) - 2^64

/-- The end of `from_base64`, src/base64.c:122-131, with the sign known and `i` characters already
passed over. The value is `none` when `-(int64_t)val` overflows (undefined). -/
def fromDigits (neg : Bool) (i : Nat) (s : Str) : Option Int × Nat :=
  let r := inLoop 0 s
  let v := toInt64 r.1
  (if neg then (if v = -2^63 then none else some (-v)) else some v, i + r.2)

/-- `if(where[i]=='-')`, src/base64.c:116-120. -/
def fromSign (i : Nat) (s : Str) : Option Int × Nat :=
  match s with
  | c :: cs => if c = 45 then fromDigits true (i + 1) cs else fromDigits false i s
  | [] => fromDigits false i []

/-- `from_base64`, src/base64.c:106-132: the decoded value and the number of characters converted. -/
def fromBase64 (s : Str) : Option Int × Nat :=
  match s with
  | c :: cs => if c = space then fromSign 1 cs else fromSign 0 s
  | [] => fromSign 0 []

end Verif.Base64
