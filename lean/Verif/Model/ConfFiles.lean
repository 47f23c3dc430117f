import Verif.Model.Confs
import Verif.Model.Iobuf
import Verif.Model.Prepend

/-!
# Reading the files of the configuration: `src/conffile.c`

From the bytes of the files to the settings: the buffer that a line is read into, lines that include other
files, and files that include each other. What one line does is in `Verif.Model.Confs`.

The files do not change while they are read. Memory does not run out. `fopen` fails if a file cannot be read, or if
there are no file descriptors left. For a directory it succeeds and nothing can be read, so that a directory is the
same as an empty file.
-/

namespace Verif.ConfFiles

open Verif.Confs

/-- The files: `fopen` and reading to the end, and what `glob` finds for a pattern. -/
structure Disk where
  file : Str → Option Str
  glob : Str → List Str

/-- What comes of reading. The settings may have changed although there was an error. -/
inductive Res where
  /-- memory outside of a string is read -/
  | undefined
  | done (ok : Bool) (c : Confs)

/-- `fgets(buf, sizeof(buf), fp)` with `char buf[4096]`, again and again, `src/conffile.c:1301-1308`. There is still
`room` for that many bytes in the buffer, besides the zero; `cur` is what is in it. -/
def pieces (room : Nat) (cur : Str) : Str → List Str
  | [] => if cur = [] then [] else [cur]
  | x :: xs =>
    if x = newline ∨ room ≤ 1 then (cur ++ [x]) :: pieces 4095 [] xs else pieces (room - 1) (cur ++ [x]) xs

/-- `if((cp=strrchr(copy, '/'))) *cp='\0';`, `src/conffile.c:365`. -/
def upToSlash (path : Str) : Str :=
  if path.contains slash then ((path.reverse.dropWhile (fun b => b ≠ slash)).drop 1).reverse else path

/-- The pattern of a line that includes files, `src/conffile.c:351-373`, not on Windows. -/
def pattern (path name : Str) : Str :=
  if name.head? = some slash then name else Prepend.prependS (some (upToSlash path)) name

/-- The loop over the files that have been found, `src/conffile.c:378-380`: it ends at the first error. -/
def loadAll (load : Str → Confs → Res) : List Str → Confs → Res
  | [], c => .done true c
  | p :: ps, c => match load p c with
    | .done true c' => loadAll load ps c'
    | r => r

/-- `deal_with_dot_inclusion`, `src/conffile.c:344-389`. It is an error if there is no file. -/
def dotInclude (d : Disk) (load : Str → Confs → Res) (path name : Str) (c : Confs) : Res :=
  match d.glob (pattern path name) with
  | [] => .done false c
  | p :: ps => loadAll load (p :: ps) c

/-- `conf_parse_line`, `src/conffile.c:391-422`. A line has a newline only at its end. -/
def line (d : Disk) (env : Env) (load : Str → Confs → Res) (path : Str) (buf : Str) (c : Confs) : Res :=
  let s := Iobuf.cstr buf
  if (bytes ". ").isPrefixOf s then
    let name := (s.drop 2).takeWhile (fun b => b ≠ newline)
    if name = [] then .done false c else dotInclude d load path name c
  else match parsePair env c s with
    | .undefined => .undefined
    | .error => .done false c
    | .ok c' => .done true c'

/-- The loop of `conf_load_lines_from_file`, `src/conffile.c:1308-1316`: it goes on after an error. -/
def linesLoop (f : Str → Confs → Res) : List Str → Confs → Res
  | [], c => .done true c
  | l :: ls, c => match f l c with
    | .undefined => .undefined
    | .done ok c' => match linesLoop f ls c' with
      | .undefined => .undefined
      | .done ok' c'' => .done (ok && ok') c''

/-- `conf_load_lines_from_file`, `src/conffile.c:1296-1319`. That many file descriptors are left: a file stays open
while those that it includes are read. -/
def loadFile (d : Disk) (env : Env) : Nat → Str → Confs → Res
  | 0, _, c => .done false c
  | n + 1, path, c => match d.file path with
    | none => .done false c
    | some b => linesLoop (line d env (loadFile d env n) path) (pieces 4095 [] b) c

/-- `do_load_global_only`, `src/conffile.c:1609-1620`, for a file, without the checks at its end (1265-1294). -/
def load (d : Disk) (env : Env) (n : Nat) (path : Str) : Out :=
  match loadFile d env n path (set init .CONFFILE (.str (some path))) with
  | .undefined => .undefined
  | .done false _ => .error
  | .done true c => finalise env c

end Verif.ConfFiles
