import Verif.Model.Logging

/-!
# Specification: warnings and messages, and where they are written (C122)
-/

namespace Verif.Logging

/-- A text that a warning can have and that fits: one line, not empty, at most 501 bytes. -/
structure Plain (t : Str) : Prop where
  some : t ≠ []
  one : (10 : Byte) ∉ t
  nul : (0 : Byte) ∉ t
  short : t.length ≤ 501

/-- A file of these lines. -/
def ofLines (ls : List Str) : Str := (ls.map (· ++ [10])).flatten

/-- How many newlines there are. -/
def lineCount (s : Str) : Nat := s.countP (· = 10)

/-- A warning, and a warning of the other side. -/
def isWarning : Ev → Bool
  | .warn .. => true
  | .recvd _ c _ => decide ([c] = bytes "w")
  | _ => false

/-- Everything that was written anywhere is still there. -/
structure Kept (g g' : Lg) : Prop where
  files : ∀ p, g.files p <+: g'.files p
  syslog : g.syslog <+: g'.syslog
  stdout : g.stdout <+: g'.stdout
  sent : g.sent <+: g'.sent

end Verif.Logging
