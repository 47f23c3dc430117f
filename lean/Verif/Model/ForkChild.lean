import Verif.Model.Basic

/-!
# Model: the descriptors of a program that burp runs

`src/forkchild.c`: a script, or the client that the status monitor runs.
-/

namespace Verif.ForkChild

/-- What a descriptor stands for: something that was open before (a socket, a log, a terminal), or an end of one of the
three pipes, `src/forkchild.c:46-48`. -/
inductive Obj where
  | given (n : Nat)
  | reads (k : Nat)
  | writes (k : Nat)
  deriving DecidableEq, Repr

/-- The descriptors of a process. What is not in the list is closed. `src/forkchild.c:28-34`. -/
abbrev Tab := List (Option Obj)

/-- What a descriptor stands for; used for `src/forkchild.c:19-21`. -/
def get : Tab → Nat → Option Obj
  | [], _ => none
  | x :: _, 0 => x
  | _ :: t, i + 1 => get t i

/-- A descriptor is opened or closed; used for `src/forkchild.c:34`, `:50-52`, `:60-62`. -/
def put : Tab → Nat → Option Obj → Tab
  | [], 0, o => [o]
  | [], i + 1, o => none :: put [] i o
  | _ :: t, 0, o => o :: t
  | x :: t, i + 1, o => x :: put t i o

/-- The lowest that is free, which is what POSIX says a new descriptor is, `src/forkchild.c:50-52`. -/
def lowest : Tab → Nat
  | [] => 0
  | none :: _ => 0
  | some _ :: t => lowest t + 1

/-- `pipe`: two new descriptors, the end to read from first, `src/forkchild.c:50-52`, `:74-76`. -/
def pipe (k : Nat) (t : Tab) : Nat × Nat × Tab :=
  let r := lowest t
  let t := put t r (some (.reads k))
  let w := lowest t
  (r, w, put t w (some (.writes k)))

/-- `dup2`, `src/forkchild.c:19-21`. -/
def dup2 (t : Tab) (a b : Nat) : Tab := put t b (get t a)

/-- The loop of `src/forkchild.c:34`: `n` descriptors from `a` on are closed. -/
def closeFrom (t : Tab) (a : Nat) : Nat → Tab
  | 0 => t
  | n + 1 => closeFrom (put t a none) (a + 1) n

/-- A pipe that is wanted or not, `src/forkchild.c:50-52`, `:74-76`. -/
def maybePipe (want : Bool) (k : Nat) (t : Tab) : Option (Nat × Nat) × Tab :=
  if want then (some ((pipe k t).1, (pipe k t).2.1), (pipe k t).2.2) else (none, t)

/-- `dup2` if the pipe is wanted, `src/forkchild.c:19-21`. -/
def maybeDup (t : Tab) (a : Option Nat) (b : Nat) : Tab :=
  match a with
  | none => t
  | some a => dup2 t a b

/-- The child in `do_forkchild`, `src/forkchild.c:16-35`, up to `execv`, when `dup2` does not fail. `FD_SETSIZE` is 1024. -/
def child (t : Tab) (sin sout serr : Option Nat) : Tab :=
  closeFrom (maybeDup (maybeDup (maybeDup t sin 0) sout 1) serr 2) 3 (1024 - 3)

/-- The parent closes its copy of the end that the child has, `src/forkchild.c:60-62`, `:83-85`. -/
def maybeClose (t : Tab) (a : Option Nat) : Tab :=
  match a with
  | none => t
  | some a => put t a none

/-- What comes of it: the descriptors that the caller gets, the table of the parent, and that of the program when it
starts, if it does. `src/forkchild.c:42-64`. -/
structure Out where
  sin : Option Nat := none
  sout : Option Nat := none
  serr : Option Nat := none
  parent : Tab
  program : Option Tab := none
  deriving DecidableEq, Repr

/-- `forkchild` and `forkchild_fd`, `src/forkchild.c:42-87`. `fails` says at which pipe there is an error, if there is
one; `forks` whether `fork` succeeds. Simplified: `fdopen` and `dup2` do not fail. -/
def forkchild (i o e : Bool) (fails : Option Nat) (forks : Bool) (t : Tab) : Out :=
  if i && fails == some 0 then { parent := t }
  else
    let a := maybePipe i 0 t
    if o && fails == some 1 then { parent := a.2 }
    else
      let b := maybePipe o 1 a.2
      if e && fails == some 2 then { parent := b.2 }
      else
        let c := maybePipe e 2 b.2
        let sin := a.1.map (·.1)
        let sout := b.1.map (·.2)
        let serr := c.1.map (·.2)
        { sin := a.1.map (·.2), sout := b.1.map (·.1), serr := c.1.map (·.1)
          parent := maybeClose (maybeClose (maybeClose c.2 sin) sout) serr
          program := if forks then some (child c.2 sin sout serr) else none }

end Verif.ForkChild
