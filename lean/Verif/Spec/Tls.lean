import Verif.Model.Tls

/-!
# What getting through TLS means
-/

namespace Verif.Tls
open Verif Verif.Iobuf Verif.Asfd

/-- What messages look like on the wire: command, four hexadecimal digits of length, payload. -/
def onWire (ms : List Rec) : Str := (ms.map fun r => r.cmd :: hex04 r.buf.length ++ r.buf).flatten

/-- What a connection looks like at the beginning, with these records under way. -/
def fresh (records : List Str) : TRx := { wire := records }

/-- What has arrived of these records, when the receiver is in this state. -/
def arrived (records : List Str) (c : TRx) : Str :=
  (records.take (records.length - c.wire.length)).flatten

end Verif.Tls
