import Verif.Model.BedupRun

/-!
# What bedup may be told, and what it may touch
-/

namespace Verif.BedupRun

/-- The limit on links that the options ask for: that of the last `-m`. -/
def limit (opts : List Opt) : Nat :=
  opts.foldl (fun n o => match o with
    | .max m => unsigned m
    | _ => n) defMaxLinks

/-- A configuration file is given. -/
def GivesConfig (opts : List Opt) : Prop := ∃ p, Opt.config p ∈ opts

/-- Groups are given. -/
def GivesGroups (opts : List Opt) : Prop := ∃ g, Opt.groups g ∈ opts

/-- The options and arguments go together. With `-n` there are directories, no configuration file and no
groups, a limit of at least two, and not both of `-d` and `-l`. Without it there are neither directories
nor `-d` nor a limit of its own. -/
def Sound (opts : List Opt) (args : List Str) : Prop :=
  (Opt.nonburp ∈ opts → args ≠ [] ∧ ¬ GivesConfig opts ∧ ¬ GivesGroups opts ∧ 2 ≤ limit opts ∧
    ¬ (Opt.delete ∈ opts ∧ Opt.link ∈ opts)) ∧
  (Opt.nonburp ∉ opts → args = [] ∧ Opt.delete ∉ opts ∧ limit opts = defMaxLinks)

/-- Neither the version nor help is asked for. -/
def Plain (opts : List Opt) : Prop := Opt.version ∉ opts ∧ Opt.help ∉ opts

/-- A name in a list of names with commas or newlines between them. -/
def Named (list g : Str) : Prop :=
  g ≠ [] ∧ (44 : Byte) ∉ g ∧ newline ∉ g ∧
    ∃ a b, list = a ++ g ++ b ∧ (a = [] ∨ a.getLast? = some 44 ∨ a.getLast? = some newline) ∧
      (b = [] ∨ b.head? = some 44 ∨ b.head? = some newline)

/-- The last groups that were given. -/
def groupsGiven (opts : List Opt) : Option Str :=
  opts.foldl (fun g o => match o with
    | .groups l => some l
    | _ => g) none

/-- The last configuration file that was given, or the usual one. -/
def configGiven (dflt : Str) (opts : List Opt) : Str :=
  opts.foldl (fun p o => match o with
    | .config q => q
    | _ => p) dflt

/-- A client that bedup is to work on: its name is a valid one, its file a regular one that can be
loaded, and it is in one of the groups, if any are given. -/
def Wanted (opts : List Opt) (e : Entry) (c : ClientConf) : Prop :=
  e.noInode = false ∧ Auth.cnameValid e.name = .valid ∧ e.regular = true ∧ e.conf = some c ∧
    (∀ l, groupsGiven opts = some l → ∃ g, c.group = some g ∧ Named l g)

/-- The events of one run. -/
def ofRun (i : Nat) (es : List (Nat × Ev)) : List Ev := (es.filter fun x => x.1 = i).map (·.2)

/-- The run has the lock: it got it, and has given nothing up since. -/
def Holds (i : Nat) (path : Str) (es : List (Nat × Ev)) : Prop :=
  Ev.locked path ∈ ofRun i es ∧ Ev.released ∉ ofRun i es

/-- No run gets a lock while another has it. -/
def Exclusive (es : List (Nat × Ev)) : Prop :=
  ∀ pre post i path, es = pre ++ (i, Ev.locked path) :: post → ∀ j, j ≠ i → ¬ Holds j path pre

end Verif.BedupRun
