import Verif.Model.Confs

/-!
# What configuration files say

What the lines of a file say is a list of settings: name, text of the value, and whether it was written with `:=`.
How one line is read is the subject of C52 (`getPair`).
-/

namespace Verif.Confs
open Verif.Strlist Verif.ConfLine Verif.BackupNumber

/-- The lines of a file, with those of the files that it includes in their place. -/
def expand (env : Env) : List Str → Option (List Str)
  | [] => some []
  | l :: ls =>
    if (bytes ". ").isPrefixOf l then
      (env.included ((l.drop 2).takeWhile (fun b => b ≠ newline))).bind fun xs =>
        (expand env ls).map (fun r => xs ++ r)
    else (expand env ls).map (fun r => l :: r)

/-- What one line says: the name, the text of the value, and whether a list starts afresh. -/
structure Setting where
  field : Str
  value : Str
  reset : Bool
  deriving DecidableEq, Repr

/-- The lines say this, and all of them can be read. -/
inductive Says : List Str → List Setting → Prop
  | nil : Says [] []
  | blank {l ls ss} : getPair l = .blank → Says ls ss → Says (l :: ls) ss
  | pair {l ls ss f v r} : getPair l = .pair f v r → Says ls ss → Says (l :: ls) (⟨f, v, r⟩ :: ss)

/-- A file says this, with the files that it includes. -/
def Said (env : Env) (lines : List Str) (ss : List Setting) : Prop :=
  ∃ ls, expand env lines = some ls ∧ Says ls ss

/-- The value that is given last for a name. -/
def lastFor (f : Str) (ss : List Setting) : Option Str :=
  ((ss.filter (fun s => s.field = f)).getLast?).map Setting.value

/-- Does any of them have the name? -/
def Mentions (f : Str) (ss : List Setting) : Prop := ∃ s ∈ ss, s.field = f

/-- The values that are given for a name, from the last `:=` on. -/
def listFor (f : Str) : List Setting → List Str
  | [] => []
  | s :: ss =>
    if s.field = f then
      if (ss.any (fun t => t.field = f && t.reset)) then listFor f ss else s.value :: listFor f ss
    else listFor f ss

/-- Is there a `:=` for the name? -/
def Resets (f : Str) (ss : List Setting) : Prop := ∃ s ∈ ss, s.field = f ∧ s.reset = true

/-- Settings that are lists. -/
def Opt.isList (o : Opt) : Prop := o.info.default = .lst []

instance (o : Opt) : Decidable o.isList := inferInstanceAs (Decidable (o.info.default = .lst []))

/-- The number of the level of compression that a text asks for: a digit, with or without the name of the method. -/
def Level (v : Str) (n : Int) : Prop :=
  ∃ d, isDigit d = true ∧ (v = [d] ∨ v = bytes "gzip" ++ [d] ∨ v = bytes "zlib" ++ [d]) ∧ n = (d.toNat : Int) - 48

/-- What a text means for a setting that is not a list. -/
def Means (env : Env) (o : Opt) (v : Str) (x : Val) : Prop :=
  if o = .COMPRESSION ∨ o = .SSL_COMPRESSION then ∃ n, Level v n ∧ x = .int n
  else if o = .RATELIMIT then env.zero v = false ∧ x = .flt (some v)
  else match o.info.default with
    | .str _ => x = .str (some v)
    | .int _ => x = .int (Cntr.atoi v)
    | .size _ => ∃ n, getFileSize v = some n ∧ x = .size n
    | .flt _ => x = .flt (some v)
    | .perm _ => x = .perm (octal v)
    | .mode _ => x = .mode (strToMode v)
    | .recovery _ => x = .recovery (strToRecovery v)
    | .lst _ | .rshash _ | .cntr => False

/-- Values are of the same kind. -/
def SameKind : Val → Val → Prop
  | .str _, .str _ | .int _, .int _ | .size _, .size _ | .lst _, .lst _ | .flt _, .flt _ | .perm _, .perm _
  | .mode _, .mode _ | .recovery _, .recovery _ | .rshash _, .rshash _ | .cntr, .cntr => True
  | _, _ => False

/-- All settings have values of their kind. -/
def WellKinded (c : Confs) : Prop := ∀ o : Opt, SameKind (c o) o.info.default

/-- Settings that are worked out from others once a file has been read. -/
def derived : List Opt := [.EXCFS, .INCFS, .INCEXT, .EXCEXT, .EXCOM, .INCLUDE, .INCEXCDIR, .FSCHGDIR, .STARTDIR, .KEEP,
  .LISTEN, .LISTEN_STATUS, .PORT_BACKUP, .PORT_RESTORE, .PORT_VERIFY, .PORT_LIST, .PORT_DELETE, .S_SCRIPT_PRE_NOTIFY,
  .S_SCRIPT_POST_NOTIFY, .B_SCRIPT_PRE, .B_SCRIPT_POST, .R_SCRIPT_PRE, .R_SCRIPT_POST, .S_SCRIPT_PRE, .S_SCRIPT_POST,
  .B_SCRIPT_PRE_ARG, .B_SCRIPT_POST_ARG, .R_SCRIPT_PRE_ARG, .R_SCRIPT_POST_ARG, .S_SCRIPT_PRE_ARG,
  .S_SCRIPT_POST_ARG, .S_SCRIPT, .S_SCRIPT_ARG]

/-- The texts of a list. -/
def texts (c : Confs) (o : Opt) : List Str := (getLst c o).map Elem.path

end Verif.Confs
