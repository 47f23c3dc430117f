import Verif.Lemmas.Resume
import Verif.Props.Phase2

/-!
# C30: resuming an interrupted backup

`Interrupted`, `StoppedAfter`, `fullChanged`, `fullUnchanged`, `resumedChanged` and `resumedUnchanged` are
in `Verif/Spec/Resume.lean`.
-/

namespace Verif
open Verif.Phase2 Verif.Manifest Verif.Resume

variable {E : Type}

/-- C30, for interruptions that lose nothing that had been written: a backup that has been interrupted any
number of times, each time at any place, and resumed each time, has after going on to the end exactly the
records that it would have had without interruptions, in the same order. Missing is what
`C30_lost_unchanged_violated` shows: that nothing written is lost is not ensured by the program. -/
theorem C30_resume_complete_partial (w : Walk E) (isDir sent : E → Bool)
    (hd : ∀ c p, w.dec c p ≠ .doneDeleted) (scan : List E) (prev : Option (List E))
    (hs : SortedBy w.key scan) (hp : SortedBy w.key (prev.getD []))
    (hn : NoClash w.key (scan ++ prev.getD [])) (changed unchanged : List (Out E))
    (h : Interrupted w isDir sent scan prev changed unchanged) :
    resumedChanged w isDir sent scan prev changed unchanged = fullChanged w sent scan prev ∧
    resumedUnchanged w isDir scan prev changed unchanged = fullUnchanged w scan prev := by
  obtain ⟨n, h⟩ := interrupted_stopped w isDir sent hd scan prev hs hp hn changed unchanged h
  obtain ⟨X, h1, h2, h3, _⟩ := resume_point w isDir sent hd scan prev hs hp hn n changed unchanged h
  constructor
  · unfold resumedChanged fullChanged
    simp only
    rw [h1, h2, List.filter_append]
  · unfold resumedUnchanged fullUnchanged
    simp only
    rw [h1, h3, List.filter_append]

/-- C30: what is left to do after resuming is what is not in the lists: no file whose data had been
received and kept is asked for again. -/
theorem C30_nothing_repeated_partial (w : Walk E) (isDir sent : E → Bool)
    (hd : ∀ c p, w.dec c p ≠ .doneDeleted) (scan : List E) (prev : Option (List E))
    (hs : SortedBy w.key scan) (hp : SortedBy w.key (prev.getD []))
    (hn : NoClash w.key (scan ++ prev.getD [])) (changed unchanged : List (Out E))
    (h : Interrupted w isDir sent scan prev changed unchanged) :
    ∀ o ∈ (resume (outInfo w isDir) w.key changed unchanged scan prev).changed ++
        (resume (outInfo w isDir) w.key changed unchanged scan prev).unchanged,
      subject o ∉ (resume (outInfo w isDir) w.key changed unchanged scan prev).scan := by
  obtain ⟨n, h⟩ := interrupted_stopped w isDir sent hd scan prev hs hp hn changed unchanged h
  obtain ⟨X, h1, h2, h3, h4⟩ := resume_point w isDir sent hd scan prev hs hp hn n changed unchanged h
  intro o ho hm
  have hoX : o ∈ X := by
    rcases List.mem_append.1 ho with h | h
    · rw [h2] at h; exact (List.mem_filter.1 h).1
    · rw [h3] at h; exact (List.mem_filter.1 h).1
  rw [← records_subject w (resume (outInfo w isDir) w.key changed unchanged scan prev).scan
      (resume (outInfo w isDir) w.key changed unchanged scan prev).prev,
    List.mem_map] at hm
  obtain ⟨o', ho', e⟩ := hm
  have hG := records_sorted w scan prev hs
  have : o' = o := sorted_same_eq hG (by rw [h1]; simp [ho']) (by rw [h1]; simp [hoX]) (by simp only [e]; exact ⟨rfl, rfl⟩)
  subst this
  exact h4 _ ho' hoX

/-- C30: except with the separate Windows headers, all files whose data had been received are kept. -/
theorem C30_received_kept (w : Walk E) (isDir : E → Bool) (scan : List E) (prev : Option (List E))
    (changed unchanged : List (Out E))
    (hv : ∀ o ∈ changed, (w.key (subject o)).1 ≠ .vss ∧ (w.key (subject o)).1 ≠ .encVss) :
    (resume (outInfo w isDir) w.key changed unchanged scan prev).changed = changed := by
  have : (lastGood (outInfo w isDir) changed).2 = changed.length := by
    have := lastGoodLoop_all (outInfo w isDir) changed 0 (none, 0) rfl
      (fun x hx => ⟨(hv x hx).1, (hv x hx).2, rfl⟩)
    simpa [lastGood] using this
  unfold resume
  simp only [this, List.take_length]
  split <;> rfl

/-- C30: what is kept of the list of changed entries ends with an entry that is all there, and does not
stop between a Windows header and the footer that belongs to it. This holds for every list, whatever is
in it. -/
theorem C30_kept_entire {R : Type} (i : Info R) (key : E → Cmd × Option Str) (changed unchanged : List R)
    (scan : List E) (prev : Option (List E)) :
    (resume i key changed unchanged scan prev).changed <+: changed ∧
    ¬ InGroup i (resume i key changed unchanged scan prev).changed ∧
    ∀ r, (resume i key changed unchanged scan prev).changed.getLast? = some r → Entire i r := by
  rcases lastGood_spec i changed with h | ⟨q, r, h, hq⟩
  · have : (resume i key changed unchanged scan prev).changed = [] := by simp [resume, h]
    rw [this]
    refine ⟨by simp, ?_, by simp⟩
    rintro ⟨a, x, b, e, _⟩
    simp at e
  · have hg := lastGood_good i changed r _ h
    have e : changed.take (q.length + 1) = q ++ [r] := by
      obtain ⟨v, rfl⟩ := hq
      rw [show q.length + 1 = (q ++ [r]).length by simp, List.take_left']
      rfl
    have : (resume i key changed unchanged scan prev).changed = q ++ [r] := by
      unfold resume
      rw [h]
      exact e
    rw [this]
    rw [e] at hg
    refine ⟨hq, hg.2, ?_⟩
    intro r' hr
    simp at hr
    rw [← hr]
    exact hg.1

/-- A case: a file between a header and a footer has been received; nothing of it is kept. -/
example :
    let i : Info (Cmd × Option Str) := ⟨fun x => x, fun _ => true, fun _ => false⟩
    (resume i (fun x : Cmd × Option Str => x)
      [(.file, some (bytes "/a")), (.vss, some (bytes "/b")), (.file, some (bytes "/b"))] [] [] none).changed =
    [(.file, some (bytes "/a"))] := by decide +kernel

/-! ### A case -/

/-- The scan of the example, with the previous backup. -/
def exResumeWalk : Walk Ent := entWalk exSettings exPrev (fun _ => true)

/-- Interrupted when one file had been received, resumed, interrupted again, with the client unable to
send `/e`: the hypotheses are met, and resuming starts after the file that had been received. -/
example : (∀ c p, exResumeWalk.dec c p ≠ .doneDeleted) ∧
    SortedBy exResumeWalk.key exScan ∧ SortedBy exResumeWalk.key exPrev ∧
    NoClash exResumeWalk.key (exScan ++ exPrev) ∧
    Interrupted exResumeWalk (fun _ => false) (fun e => decide (e ≠ exEnt .file "/e" 2)) exScan (some exPrev)
      ([.new (exEnt .file "/d/c" 1)] ++ [])
      ([.changed (exEnt .directory "/d" 2) (exEnt .directory "/d" 1),
        .unchanged (exEnt .file "/d/a" 1) (exEnt .file "/d/a" 1)] ++ []) ∧
    (resume (outInfo exResumeWalk (fun _ => false)) exResumeWalk.key [.new (exEnt .file "/d/c" 1)]
      [.changed (exEnt .directory "/d" 2) (exEnt .directory "/d" 1),
        .unchanged (exEnt .file "/d/a" 1) (exEnt .file "/d/a" 1)] exScan (some exPrev)).scan =
      [exEnt .file "/e" 2] := by
  refine ⟨fun c p => deltaStuff_ne _ _ c p, by decide +kernel, by decide +kernel, by decide +kernel, ?_,
    by decide +kernel⟩
  have h1 : StoppedAfter exResumeWalk (fun e => decide (e ≠ exEnt .file "/e" 2)) exScan (some exPrev) 4
      [.new (exEnt .file "/d/c" 1)]
      [.changed (exEnt .directory "/d" 2) (exEnt .directory "/d" 1),
        .unchanged (exEnt .file "/d/a" 1) (exEnt .file "/d/a" 1)] := by
    constructor <;> decide +kernel
  have h2 := Interrupted.again (n := 0) (changed' := []) (unchanged' := [])
    (Interrupted.first (isDir := fun _ => false) h1) ⟨by simp, by simp⟩
  have e1 : (resume (outInfo exResumeWalk (fun _ => false)) exResumeWalk.key [.new (exEnt .file "/d/c" 1)]
      [.changed (exEnt .directory "/d" 2) (exEnt .directory "/d" 1),
        .unchanged (exEnt .file "/d/a" 1) (exEnt .file "/d/a" 1)] exScan (some exPrev)).changed =
      [.new (exEnt .file "/d/c" 1)] := by decide +kernel
  have e2 : (resume (outInfo exResumeWalk (fun _ => false)) exResumeWalk.key [.new (exEnt .file "/d/c" 1)]
      [.changed (exEnt .directory "/d" 2) (exEnt .directory "/d" 1),
        .unchanged (exEnt .file "/d/a" 1) (exEnt .file "/d/a" 1)] exScan (some exPrev)).unchanged =
      [.changed (exEnt .directory "/d" 2) (exEnt .directory "/d" 1),
        .unchanged (exEnt .file "/d/a" 1) (exEnt .file "/d/a" 1)] := by decide +kernel
  rw [e1, e2] at h2
  exact h2

/-! ### Where it fails -/

/-- C30 fails when the server is killed or the power is cut at the wrong time. The two lists are separate
files, each with its own buffer, and are not flushed together (`src/server/manio.c`, `src/fzp.c`), so what
has been written to one of them can be lost although a later entry of the other is on the disc. Resuming
takes its position from the list of changed entries alone. Here `/d` and `/d/a` have been looked at and
belong in the list of unchanged entries, `/d/c` has been received; the list of unchanged entries is lost,
and the resumed backup has neither `/d` nor `/d/a`, although each list is a beginning of what it should
be. -/
theorem C30_lost_unchanged_violated :
    ∃ changed unchanged : List (Out Ent),
      changed <+: fullChanged exResumeWalk (fun _ => true) exScan (some exPrev) ∧
      unchanged <+: fullUnchanged exResumeWalk exScan (some exPrev) ∧
      fullUnchanged exResumeWalk exScan (some exPrev) =
        [.changed (exEnt .directory "/d" 2) (exEnt .directory "/d" 1),
          .unchanged (exEnt .file "/d/a" 1) (exEnt .file "/d/a" 1)] ∧
      resumedUnchanged exResumeWalk (fun _ => false) exScan (some exPrev) changed unchanged = [] :=
  ⟨[.new (exEnt .file "/d/c" 1)], [], by decide +kernel, by decide +kernel, by decide +kernel,
    by decide +kernel⟩

end Verif
