import Verif.Props.Timeout

/-!
# C85: cases
-/

namespace Verif.Timeout

/-- A connection on which burp waits for something to read. -/
def silent : Sit := {}
/-- A connection with something to read. -/
def talking : Sit := { readable := true }
/-- A connection that waits to send something. -/
def stuck : Sit := { queued := true, attemptReads := false }

/-- A silent connection, one call a second, `network_timeout` 2: given up at the fourth call. -/
example : (run ⟨0, [setTimeout 2]⟩ [(⟨1, true, false, .ok⟩, [silent]), (⟨2, true, false, .ok⟩, [silent]),
    (⟨3, true, false, .ok⟩, [silent])]).2 = .ok := by decide
example : (run ⟨0, [setTimeout 2]⟩ [(⟨1, true, false, .ok⟩, [silent]), (⟨2, true, false, .ok⟩, [silent]),
    (⟨3, true, false, .ok⟩, [silent]), (⟨4, true, false, .ok⟩, [silent])]).2 = .gaveUp 0 := by decide

/-- The same with an interruption, a second call in the same second, and something read in between:
the hypotheses of `C85_not_early` and `C85_any_clock` hold. The second connection has no setting. -/
example :
    let calls : List (Call × List Sit) :=
      [(⟨1, true, false, .ok⟩, [silent, stuck]), (⟨2, true, false, .ok⟩, [talking, stuck]),
       (⟨3, true, false, .ok⟩, [silent, stuck]), (⟨3, true, false, .ok⟩, [silent, stuck]),
       (⟨4, false, false, .interrupted⟩, [silent, stuck]), (⟨5, true, false, .ok⟩, [silent, stuck])]
    let x : Call × List Sit := (⟨7, true, false, .ok⟩, [silent, stuck])
    let fds : List Fd := [setTimeout 2, ⟨0, 0⟩]
    fds[0]? = some (setTimeout 2) ∧ Forward 1 (calls ++ [x]) ∧
    (∀ y ∈ calls ++ [x], y.2.length = fds.length) ∧ (∀ y ∈ calls ++ [x], y.1.now ≠ 0) ∧
    (run ⟨0, fds⟩ calls).2 = .ok ∧ (run ⟨0, fds⟩ (calls ++ [x])).2 = .gaveUp 0 := by decide

/-- It is sending that has stopped: burp gives up, too. -/
example : (run ⟨0, [setTimeout 1]⟩ [(⟨1, false, false, .ok⟩, [stuck]), (⟨2, false, false, .ok⟩, [stuck]),
    (⟨3, false, false, .ok⟩, [stuck])]).2 = .gaveUp 0 := by decide

/-- The hypotheses of `C85_in_time` hold. -/
example :
    let rest : List (Call × List Sit) := [(⟨2, true, false, .ok⟩, [silent]), (⟨3, true, false, .ok⟩, [silent])]
    let x : Call × List Sit := (⟨1, true, false, .ok⟩, [silent])
    Steady 1 x.1.now rest ∧ (run ⟨0, [setTimeout 2]⟩ (x :: rest)).2 = .ok := by decide
example : WaitsAt 0 (⟨1, true, false, .ok⟩, [silent]) ∧ ¬ ActiveAt 0 (⟨1, true, false, .ok⟩, [silent]) := by
  refine ⟨⟨silent, rfl, by decide⟩, ?_⟩
  rintro ⟨s, hs, ha⟩
  injection hs with hs
  subst hs
  revert ha
  decide
/-- Something is read on it, and something is written. -/
example : ActiveAt 0 (⟨1, true, false, .ok⟩, [talking]) := ⟨talking, rfl, by decide⟩
example : ActiveAt 0 (⟨1, true, false, .ok⟩, [{ queued := true, writable := true }]) :=
  ⟨_, rfl, by decide⟩

/-- A call that only has a quick look does not count. -/
example : (run ⟨0, [setTimeout 1]⟩ [(⟨1, true, true, .ok⟩, [silent]), (⟨2, true, true, .ok⟩, [silent]),
    (⟨3, true, true, .ok⟩, [silent]), (⟨4, true, true, .ok⟩, [silent])]).2 = .ok := by decide

/-- Any other problem is not called silence. -/
example : (run ⟨0, [setTimeout 1]⟩ [(⟨1, true, false, .ok⟩, [{ readable := true, readFails := true }])]).2
    = .broken := by decide
example : (run ⟨0, [setTimeout 1]⟩ [(⟨1, true, false, .ok⟩, [{ exc := true }])]).2 = .broken := by decide
example : (run ⟨0, [setTimeout 1]⟩ [(⟨1, true, false, .failed⟩, [silent])]).2 = .broken := by decide
example : (run ⟨0, [setTimeout 1]⟩ [(⟨1, true, false, .ok⟩, [{ parseFails := true }])]).2 = .broken := by
  decide
example : (run ⟨0, [setTimeout 1]⟩
    [(⟨1, true, false, .ok⟩, [{ queued := true, writable := true, writeFails := true }])]).2 = .broken := by
  decide

end Verif.Timeout

namespace Verif
open Verif.Timeout

/-- C85 fails: the manual says that burp gives up if nothing is sent or received over a period of the
length of `network_timeout`, but the seconds are counted by calls, and a pause between two calls
counts as one second, however long it is. After a pause (a computer that was suspended, a server that
was busy for hours) a connection that has been silent for any length of time is waited for all over
again. -/
theorem C85_pause_violated (m d : Int) (hm : 0 < m) (hd : 0 < d) :
    run ⟨0, [setTimeout m]⟩ [(⟨1, true, false, .ok⟩, [silent]), (⟨1 + d, true, false, .ok⟩, [silent])]
      = (⟨1 + d, [⟨m, m - 1⟩]⟩, .ok) := by
  have h1 : ¬ m ≤ 0 := by omega
  have h2 : (1 : Int) < 1 + d := by omega
  simp [run, asyncIo, loop, fdStep, silent, setTimeout, reads, writes, wantsRead, wantsWrite, hm, h1,
    h2]

end Verif
