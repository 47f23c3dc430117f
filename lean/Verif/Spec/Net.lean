import Verif.Model.Asfd

/-!
# What the network layer is meant to do
-/

namespace Verif
open Verif.Asfd Verif.Iobuf

/-- A fresh connection over which the given bytes will arrive. -/
def arriving (net : Str) : Conn := { net := net }

/-- The receiver reads something and the caller takes what is there. -/
def round (n : Nat) (st1 st2 : Str) : List Ev := [.io n st1 st2, .take]

end Verif
