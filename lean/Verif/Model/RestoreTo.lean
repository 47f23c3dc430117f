import Verif.Model.Confine

/-!
# The directory that is restored to: `get_restore_desired_dir`, `src/client/restore.c:575-627`

The file system is that of `Verif/Model/Confine.lean`, and so are the simplifications.
-/

namespace Verif.RestoreTo
open Verif Verif.Confine

/-- The path, `src/client/restore.c:583-605`: absolute, or added to the current directory with `prepend_s`; `none` if
that is not known. -/
def wanted (cwd : Option (List Name)) (pre : Str) : Option (List Name) :=
  if pre.head? = some slash then some (parts pre) else cwd.map (fun d => d ++ sub pre)

/-- Slashes at the end do not matter to `mkdir`. -/
def trim (p : List Name) : List Name := (p.reverse.dropWhile (fun c => c = [])).reverse

/-- `get_restore_desired_dir`, `src/client/restore.c:575-627`: the directory and the file system afterwards. That the
directory is made is not in the log of effects. -/
def desiredDir (cwd : Option (List Name)) (pre : Str) (fs : FS) : Option (List Name) × FS :=
  match wanted cwd pre with
  | none => (none, fs)
  | some p =>
    match realpath fs p with
    | .ok d => (some d, fs)
    | .err => (none, fs)
    | .noent =>
      let fs := (mkdir ⟨fs, 0, []⟩ (trim p)).2.fs
      match realpath fs p with
      | .ok d => (some d, fs)
      | _ => (none, fs)

/-- Where a path starts for the system. -/
def base (cwd : List Name) (p : Str) : List Name := if p.head? = some slash then [] else cwd

/-- The loop of `do_restore_client` for one entry when there is no `restore_desired_dir`,
`src/client/restore.c:819-957`: `prepend_s` leaves the path as it is, and `canonicalise` is not called. Nothing can be
done with an empty path. -/
def freeStep (o : Options) (cwd : List Name) (s : State) (e : Entry) : State :=
  match stripped o e with
  | none => s
  | some e =>
    if e.path = [] then s
    else
      let p := base cwd e.path ++ sub e.path
      if overwriteOk s.fs o.overwrite e p then act s (base cwd e.link) p e else s

/-- `do_restore_client`, `src/client/restore.c:743-764` and the loop: whether anything is restored at all, and what is
done. -/
def restoreTo (o : Options) (cwd : Option (List Name)) (pre : Option Str) (fs : FS) (next : Nat) (es : List Entry) :
    Bool × State :=
  match pre with
  | none => (false, ⟨fs, next, []⟩)
  | some pre =>
    if pre = [slash] then (true, es.foldl (freeStep o (cwd.getD [])) ⟨fs, next, []⟩)
    else
      match desiredDir cwd pre fs with
      | (none, fs) => (false, ⟨fs, next, []⟩)
      | (some d, fs) => (true, restore o d fs next es)

end Verif.RestoreTo
