import Verif.Model.Iobuf

/-!
# Model: how a message that was not expected is shown in the log

`is_printable` and `iobuf_to_printable` of `src/iobuf.c`.
-/

namespace Verif.Printable
open Iobuf

/-- `isprint`, as in the C locale; burp does not call `setlocale`. `src/iobuf.c:186`. -/
def isprint (c : Byte) : Bool := 32 ≤ c && c ≤ 126

/-- `is_printable`, `src/iobuf.c:182-189`. -/
def printable : Str → Bool
  | [] => true
  | c :: cs => if !isprint c && c != newline then false else printable cs

/-- `iobuf_to_printable`, `src/iobuf.c:191-201`: a buffer of 256 bytes, used as a C string. The length of a message is at
most 65535, `src/asfd.c:109-131`. Simplified: the message has been received, so that it has a NUL after its end. -/
def toPrintable (cmd : Byte) (buf : Str) : Str :=
  cstr ((if printable buf then cmd :: (bytes ":" ++ hex04 buf.length ++ bytes ":" ++ buf)
    else cmd :: (bytes ":" ++ hex04 buf.length ++ bytes ":(binary data)")).take 255)

end Verif.Printable
