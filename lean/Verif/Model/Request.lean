import Verif.Model.RunAction
import Verif.Model.Restore

/-!
# From the command line to a request, and what is listed

`src/prog.c`, `src/client/list.c`, `src/client/restore.c`, `src/client/delete.c`: what a client sends for the options that
were given. `src/server/list.c`: which backups are listed.
-/

namespace Verif.Request
open Verif Seed PathCmp

/-- What is to be done. -/
inductive Want where
  | restore | verify | list | diff | delete
  deriving DecidableEq, Repr

/-- The options: `-a`, `-b`, `-z` (the second backup), `-r`, `-d` for listing, and whether there is a list of files to
restore. -/
structure Args where
  want : Want
  backup : Option Str := none
  backup2 : Option Str := none
  regex : Option Str := none
  browse : Option Str := none
  restoreList : Bool := false
  deriving DecidableEq, Repr

/-- Backups that are not given, `src/prog.c:427-449`, and slashes at the end of the directory, `src/prog.c:519`. -/
def defaults (a : Args) : Option Args :=
  let a := { a with browse := a.browse.map stripTrailing }
  match a.want with
  | .delete => if a.backup.isNone then none else some a
  | .restore => some { a with backup := some (a.backup.getD (bytes "0")) }
  | .verify => some { a with backup := some (a.backup.getD (bytes "0")) }
  | .diff => some { a with backup := some (a.backup.getD (bytes "0")), backup2 := some (a.backup2.getD (bytes "n")) }
  | .list => some a

/-- `snprintf` into `n` bytes, one of which is for the zero at the end. -/
def fit (n : Nat) (s : Str) : Str := s.take (n - 1)

/-- The request: `do_list_client`, `src/client/list.c:113-140`, `do_delete_client`, `src/client/delete.c:7-13`,
`do_restore_client`, `src/client/restore.c:772-776`. `none`: a directory and a regular expression were given. -/
def request (a : Args) : Option Str :=
  let b := a.backup.getD []
  match a.want with
  | .list => match a.browse, a.regex with
    | some _, some _ => none
    | some d, none => some (fit 512 (bytes "listb " ++ b ++ 58 :: d))
    | none, r => some (fit 512 (bytes "list " ++ b ++ 58 :: r.getD []))
  | .diff => some (fit 512 (bytes "diff " ++ b ++ 58 :: a.backup2.getD []))
  | .delete => some (fit 128 (bytes "Delete " ++ b))
  | .restore => some (fit 512 (bytes "restore" ++ (if a.restoreList then bytes " restore_list" else []) ++ space :: b ++
      58 :: a.regex.getD []))
  | .verify => some (fit 512 (bytes "verify" ++ (if a.restoreList then bytes " restore_list" else []) ++ space :: b ++
      58 :: a.regex.getD []))

/-- Client and server: what the server does for these options. `none`: the client does not ask. -/
def served (c : RunAction.Conf) (e : RunAction.Env) (a : Args) : Option RunAction.Done :=
  ((defaults a).bind request).map (RunAction.runAction c e true)

/-- A backup, and whether it is the current one. -/
structure Bu where
  bak : Restore.Bak
  current : Bool
  deriving DecidableEq, Repr

/-- What a client sees of a list. -/
inductive Listing where
  /-- the names of backups -/
  | names (l : List Bu)
  /-- what is in them -/
  | contents (l : List Bu)
  | noBackups
  | notFound
  deriving DecidableEq, Repr

/-- `list_server_init`, `src/server/list.c:66-82`: what is listed. -/
inductive Mode where
  | backups | one | many
  deriving DecidableEq, Repr

/-- `src/server/list.c:66-82`. An empty regular expression counts as none. -/
def mode (backup regex browse : Option Str) : Mode :=
  match RunAction.noEmpty backup with
  | none => if (RunAction.noEmpty regex).isSome ∨ browse.isSome then .many else .backups
  | some b => if Restore.requestNumber b > 0 then .one
    else if deref b = 99 then .one
    else if deref b = 97 then .many
    else .one

/-- `list_contents_one`, `src/server/list.c:280-299`. -/
def listOne (b : Str) (l : List Bu) : Option Bu :=
  l.find? fun x => decide (x.bak.timestamp = b) || decide (x.bak.bno = Restore.requestNumber b) ||
    (decide (deref b = 99) && x.current)

/-- `do_list_server_work`, `src/server/list.c:321-366`. -/
def listServer (backup regex browse : Option Str) (l : List Bu) : Listing :=
  match mode backup regex browse with
  | .backups => if l = [] then .noBackups else .names l
  | .one => match listOne (backup.getD []) l with
    | none => .notFound
    | some x => .contents [x]
  | .many => if l = [] then .notFound else .contents l

end Verif.Request
