import Verif.Model.RsBuf

/-!
# Specification: what librsync is given, and what becomes of what it puts out
-/

namespace Verif.RsBuf
open Verif Verif.Iobuf

/-- A job keeps to its buffers. -/
structure Lawful {σ} (j : Job σ) : Prop where
  used : ∀ s d e r, (j.iter s d e r).used ≤ d.length
  out : ∀ s d e r, (j.iter s d e r).out.length ≤ r

/-- How a job can come to be in a state: it has used the input `x` and put out `y`, `d` has been put before
it and not been used, and `e` is whether it was told that there is no more. -/
inductive Reach {σ} (j : Job σ) : σ → Str → Str → Str → Bool → Prop where
  | start : Reach j j.init [] [] [] false
  | step {s x y d e} (more : Str) (e' : Bool) (r : Nat) : Reach j s x y d e → (e = true → more = [] ∧ e' = true) →
      Reach j (j.iter s (d ++ more) e' r).job
        (x ++ (d ++ more).take (j.iter s (d ++ more) e' r).used)
        (y ++ (j.iter s (d ++ more) e' r).out)
        ((d ++ more).drop (j.iter s (d ++ more) e' r).used) e'

/-- A job computes a function: what it puts out is never more than a beginning of the value, and when it is
done it is all of it - whatever input may still follow, if it was not told that there is none. -/
structure Computes {σ} (j : Job σ) (f : Str → Str) : Prop where
  part : ∀ s x y d e, Reach j s x y d e → ∀ more e' r, (e = true → more = [] ∧ e' = true) →
    ∀ z, (e' = true → z = []) → y ++ (j.iter s (d ++ more) e' r).out <+: f (x ++ (d ++ more) ++ z)
  done : ∀ s x y d e, Reach j s x y d e → ∀ more e' r, (e = true → more = [] ∧ e' = true) →
    (j.iter s (d ++ more) e' r).res = .done →
    ∀ z, (e' = true → z = []) → y ++ (j.iter s (d ++ more) e' r).out = f (x ++ (d ++ more) ++ z)

/-- A job is not done before it knows that there is no more input. -/
def Waits {σ} (j : Job σ) : Prop := ∀ s d e r, (j.iter s d e r).res = .done → e = true

/-- A job only stops when it has no more room for output, or needs more input. -/
def Busy {σ} (j : Job σ) : Prop := ∀ s d e r, (j.iter s d e r).res = .done ∨
  ((j.iter s d e r).res = .blocked ∧
    ((j.iter s d e r).out.length = r ∨ ((j.iter s d e r).used = d.length ∧ e = false)))

/-- What a job is to be given of a file: all of it, or as much as it was said to have. -/
def given (content : Str) (dataLen : Nat) : Str := if dataLen = 0 then content else content.take dataLen

/-- Nothing goes wrong in a turn. -/
def Turn.Good (t : Turn) : Prop := t.read ≠ .err ∧ t.app = .ok ∧ t.wrote = true ∧ t.net = true

instance (t : Turn) : Decidable t.Good := by unfold Turn.Good; infer_instance

/-- A job that loads a signature: it takes all it is given, and has it when it is done. -/
structure Loads {σ S} (j : Job σ) (value : σ → S) (load : Str → S) : Prop where
  all : ∀ s d e r, (j.iter s d e r).used = d.length
  waits : Waits j
  done : ∀ s x y d e, Reach j s x y d e → ∀ more, (e = true → more = []) →
    (j.iter s (d ++ more) true 0).res = .done → value (j.iter s (d ++ more) true 0).job = load (x ++ (d ++ more))

/-- Messages that are not for the log. -/
def unlogged (ms : List Rec) : List Rec :=
  ms.filter fun m => !(m.cmd == Cmd.message.toByte || m.cmd == Cmd.warning.toByte)

/-- Pieces as messages of a file. -/
def asMessages (ps : List Str) : List Rec := ps.map fun p => ⟨Cmd.append.toByte, p⟩

end Verif.RsBuf
