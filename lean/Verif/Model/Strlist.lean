import Verif.Model.PathCmp

/-!
# Lists of option values: `src/strlist.c`

Allocation does not fail, and paths are not null.
-/

namespace Verif.Strlist
open Verif.PathCmp

/-- An element of `struct strlist`, `src/strlist.h`. -/
structure Elem where
  path : Str
  flag : Int
  deriving DecidableEq, Repr

/-- The loop of `do_strlist_add`, `src/strlist.c:61-86`. -/
def doAdd (sorted uniq : Bool) (x : Elem) : List Elem → List Elem
  | [] => [x]
  | s :: ss =>
    if uniq && decide (pathcmp x.path s.path = 0) && decide (x.flag = s.flag) then s :: ss
    else if sorted && decide (pathcmp x.path s.path < 0) then x :: s :: ss
    else if sorted && decide (pathcmp x.path s.path = 0) && decide (x.flag < s.flag) then x :: s :: ss
    else s :: doAdd sorted uniq x ss

/-- `strlist_add`, `src/strlist.c:91-95`. -/
def add (l : List Elem) (x : Elem) : List Elem := doAdd false false x l

/-- `strlist_add_sorted`, `src/strlist.c:97-101`. -/
def addSorted (l : List Elem) (x : Elem) : List Elem := doAdd true false x l

/-- `strlist_add_sorted_uniq`, `src/strlist.c:103-107`. -/
def addSortedUniq (l : List Elem) (x : Elem) : List Elem := doAdd true true x l

/-- `strlist_find`, `src/strlist.c:120-127`. -/
def find (l : List Elem) (path : Str) (flag : Int) : Bool :=
  l.any (fun s => decide (s.path = path) && decide (flag = s.flag))

end Verif.Strlist
