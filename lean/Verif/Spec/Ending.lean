import Verif.Model.Ending

/-!
# What is expected of the end of a backup
-/

namespace Verif.Ending
open Verif.Rubble

variable {E : Type}

/-- The manifest of the backup lists these entries, each as often as it is given, and no others. -/
def Lists (s : St E) (es : List E) : Prop := ∃ m, s.manifest = some m ∧ m.Perm es

/-- The backup counts as done. -/
def Done (s : St E) : Prop := s.link = some .finishing ∨ s.link = some .current

/-- The short time in which the list of changed entries has been removed, and the directory is still the
working one. -/
def InWindow (s : St E) : Prop := s.link = some .working ∧ s.phase1 = false ∧ s.changed = none

/-- If the connection sets out to remove the directory, it gets nowhere or gets it done. -/
def RemovalWhole (key : E → Cmd × Option Str) (ch un : List E) (s : St E) (c : Conn) : Prop :=
  s.link = some .working → recoverWorking (leftover s c) c.settings = .deleted →
    conn key ch un s c = s ∨ (conn key ch un s c).link = none

/-- No connection stops while it removes the directory. -/
def Removals (key : E → Cmd × Option Str) (ch un : List E) : St E → List Conn → Prop
  | _, [] => True
  | s, c :: cs => RemovalWhole key ch un s c ∧ Removals key ch un (conn key ch un s c) cs

/-- No connection stops in the window. -/
def Calm (key : E → Cmd × Option Str) (ch un : List E) : St E → List Conn → Prop
  | s, [] => ¬ InWindow s
  | s, c :: cs => ¬ InWindow s ∧ Calm key ch un (conn key ch un s c) cs

end Verif.Ending
