import Verif.Model.Find

/-!
# Include and exclude lines: `src/conffile.c`

Not on Windows, where backslashes are changed first. Allocation does not fail. There is no
`include_regex`, without which there need not be any `include`.
-/

namespace Verif.Incexc
open Verif.Strlist Verif.PathCmp

/-- The lines `include=...` or `exclude=...`, in the order of the file, are added to a sorted list with the
flag 1 for `include`, `src/conffile.c:324-327`, `src/conf.c:196-203`, 742-749. -/
def optionList (flag : Int) (lines : List Str) : List Elem :=
  lines.foldl (fun l p => addSorted l ⟨p, flag⟩) []

/-- `sanity_check_no_dupes`, `src/conffile.c:807-826`: whether there is a duplicate. -/
def hasDupes : Option Str → List Elem → Bool
  | _, [] => false
  | none, s :: ss => hasDupes (some s.path) ss
  | some prev, s :: ss => if s.path = prev then true else hasDupes (some s.path) ss

/-- The two loops of `finalise_incexc_dirs`, `src/conffile.c:833-836`, with `incexc_munge`, 791-805. -/
def munge (acc : List Elem) : List Elem → Option (List Elem)
  | [] => some acc
  | s :: ss => if isAbsolute s.path = false then none else munge (addSortedUniq acc s) ss

/-- `finalise_incexc_dirs`, `src/conffile.c:828-850`. `none` for an error. -/
def incexcDirs (inc exc : List Elem) : Option (List Elem) :=
  match munge [] (inc ++ exc) with
  | none => none
  | some l => if hasDupes none l then none else some l

/-- The loop of `finalise_start_dirs`, `src/conffile.c:891-920`: the list of starting directories (which
the lines are appended to) and `last_sd`. The `cross_filesystem` entries are not modelled. -/
def startLoop (start : List Elem) (last : Option Elem) : List Elem → Option (List Elem)
  | [] => some start
  | s :: ss =>
    if isAbsolute s.path = false then none
    else match last with
      | none => startLoop (start ++ [s]) (some s) ss
      | some l =>
        if isSubdir l.path s.path = 0 then startLoop (start ++ [s]) (some s) ss
        else startLoop start last ss

/-- `finalise_start_dirs`, `src/conffile.c:882-931`, without `seed_src`. `none` for an error. -/
def startDirs (inc : List Elem) : Option (List Elem) :=
  match startLoop [] none inc with
  | none => none
  | some l => if hasDupes none l then none else some l

/-- A configuration with these `include` and `exclude` lines: the directories to look at and the
directories to start from. -/
def configure (includes excludes : List Str) : Option (List Elem × List Elem) :=
  match incexcDirs (optionList 1 includes) (optionList 0 excludes) with
  | none => none
  | some d => match startDirs (optionList 1 includes) with
    | none => none
    | some s => some (d, s)

end Verif.Incexc
