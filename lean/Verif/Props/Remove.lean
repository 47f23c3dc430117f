import Verif.Lemmas.RemoveAside

/-!
# C89: deleting removes what is to be deleted, and nothing else
-/

namespace Verif
open Confine Remove

/-- Deleting something changes nothing but what is there and below, whatever calls fail, and wherever links
there lead; and there nothing is made or changed, only removed. So it is at every moment on the way: nothing
else has been touched. -/
theorem C89_nothing_else (w : World) (depth : Nat) (s : State) (p d : List Name) (c : Name)
    (hn : Names s.fs p d c) (hf : Fits w s.fs)
    (hl : (∃ t, s.fs (d ++ [c]) = some (.lnk t)) → w.fails .first p = false) :
    Only (d ++ [c]) s.fs (recursiveDelete w depth s p).2.fs ∧
    (∀ q, (recursiveDelete w depth s p).2.fs q = s.fs q ∨ (recursiveDelete w depth s p).2.fs q = none) ∧
    ∃ l, (recursiveDelete w depth s p).2.effs = l ++ s.effs ∧ ∀ e ∈ l, ∃ x, e = .name x ∧ d ++ [c] <+: x := by
  have key : Step w (d ++ [c]) s (recursiveDelete w depth s p).2 := by
    have hrm : (∀ t, s.fs (d ++ [c]) ≠ some .dir → (unlink w s p).1 = t → Step w (d ++ [c]) s
        (match unlink w s p with
          | (false, s) => (Ret.remaining, s)
          | (true, s) => del w true false depth s p).2) := by
      intro t hnd _
      have hu := unlink_step (w := w) hn hf
      generalize unlink w s p = o at hu
      obtain ⟨b, s'⟩ := o
      cases b
      · exact hu.1
      · exact hu.1.trans (del_step w true false depth s' p d c (hn.only hu.1.only) hu.1.fits
          (by rw [show s'.fs (d ++ [c]) = none from hu.2.1 rfl]; simp))
    unfold recursiveDelete
    by_cases hfi : w.fails .first p = true
    · rw [if_pos hfi]
      refine del_step w true false depth s p d c hn hf fun t ht => ?_
      rw [hl ⟨t, ht⟩] at hfi
      exact absurd hfi (by simp)
    · rw [if_neg hfi, lstat_entry hn.now]
      rcases hx : s.fs (d ++ [c]) with _ | k
      · exact del_step w true false depth s p d c hn hf (by rw [hx]; simp)
      · cases k with
        | dir => exact del_step w true false depth s p d c hn hf (by rw [hx]; simp)
        | file i => exact hrm _ (by rw [hx]; simp) rfl
        | lnk t => exact hrm _ (by rw [hx]; simp) rfl
  exact ⟨key.only, key.less, key.effs⟩

/-- When deleting says that it has been done, nothing is left, whatever calls have failed on the way. (The
call that looks whether there is anything at all must not fail: `C89_unseen_violated`.) -/
theorem C89_success (w : World) (depth : Nat) (s : State) (p d : List Name) (c : Name)
    (hn : Names s.fs p d c) (hf : Fits w s.fs)
    (h1 : w.fails .first p = false) (h2 : w.fails .lstat p = false)
    (h : (recursiveDelete w depth s p).1 = .ok) : Gone (d ++ [c]) (recursiveDelete w depth s p).2.fs := by
  have hrm : s.fs (d ++ [c]) ≠ some .dir →
      (match unlink w s p with
        | (false, s) => (Ret.remaining, s)
        | (true, s) => del w true false depth s p).1 = .ok →
      Gone (d ++ [c]) (match unlink w s p with
        | (false, s) => (Ret.remaining, s)
        | (true, s) => del w true false depth s p).2.fs := by
    intro hnd
    have hu := unlink_step (w := w) hn hf
    generalize unlink w s p = o at hu
    obtain ⟨b, s'⟩ := o
    cases b
    · exact fun h => absurd h (by simp)
    · intro h
      have hno : ∀ t, s'.fs (d ++ [c]) ≠ some (.lnk t) := by
        rw [show s'.fs (d ++ [c]) = none from hu.2.1 rfl]; simp
      have hn' := hn.only hu.1.only
      exact (del_step w true false depth s' p d c hn' hu.1.fits hno).fits.gone (del_ok hn' hu.1.fits hno h2 h)
  unfold recursiveDelete at h ⊢
  rw [if_neg (by rw [h1]; simp), lstat_entry hn.now] at h ⊢
  have hdel : (∀ t, s.fs (d ++ [c]) ≠ some (.lnk t)) → (del w true false depth s p).1 = .ok →
      Gone (d ++ [c]) (del w true false depth s p).2.fs := fun hl h =>
    (del_step w true false depth s p d c hn hf hl).fits.gone (del_ok hn hf hl h2 h)
  rcases hx : s.fs (d ++ [c]) with _ | k
  · rw [hx] at h
    exact hdel (by rw [hx]; simp) h
  · rw [hx] at h
    cases k with
    | dir => exact hdel (by rw [hx]; simp) h
    | file i => exact hrm (by rw [hx]; simp) h
    | lnk t => exact hrm (by rw [hx]; simp) h

/-- When no call fails, everything is deleted: files, links, and directories with all that they hold. -/
theorem C89_works (w : World) (depth : Nat) (s : State) (p d : List Name) (c : Name)
    (hn : Names s.fs p d c) (hf : Fits w s.fs) (hr : Reliable w) (hk : Shallow depth s.fs) :
    (recursiveDelete w depth s p).1 = .ok ∧ Gone (d ++ [c]) (recursiveDelete w depth s p).2.fs := by
  have hdepth : depth ≠ 0 := by
    intro e
    have := hk [] (by rw [hf.good.root]; simp)
    simp [e] at this
  have habs : ∀ s', Names s'.fs p d c → s'.fs (d ++ [c]) = none → (del w true false depth s' p).1 = .ok := by
    intro s' hn' hx
    cases depth with
    | zero => exact absurd rfl hdepth
    | succ k => rw [del, if_pos (.inr (by rw [lstat_entry hn'.now]; exact hx))]
  have hrm : s.fs (d ++ [c]) ≠ some .dir → s.fs (d ++ [c]) ≠ none →
      (match unlink w s p with
        | (false, s) => (Ret.remaining, s)
        | (true, s) => del w true false depth s p).1 = .ok := by
    intro hnd hex
    have hu := unlink_step (w := w) hn hf
    have hw := unlink_works hr hn hex hnd
    generalize unlink w s p = o at hu hw
    obtain ⟨b, s'⟩ := o
    cases b
    · exact absurd hw (by simp)
    · exact habs s' (hn.only hu.1.only) (hu.2.1 rfl)
  have key : (recursiveDelete w depth s p).1 = .ok := by
    unfold recursiveDelete
    rw [if_neg (by rw [hr.calls]; simp), lstat_entry hn.now]
    rcases hx : s.fs (d ++ [c]) with _ | k
    · exact habs s hn hx
    · cases k with
      | dir => exact del_all hr depth s p d c hn hf hx hk (by omega)
      | file i => exact hrm (by rw [hx]; simp) (by rw [hx]; simp)
      | lnk t => exact hrm (by rw [hx]; simp) (by rw [hx]; simp)
  exact ⟨key, C89_success w depth s p d c hn hf (hr.calls _ _) (hr.calls _ _) key⟩

/-- Removing empty directories never removes a file or a link, nor anything that is not below, whatever calls
fail. -/
theorem C89_dirs_only (w : World) (ignore : Bool) (depth : Nat) (s : State) (p d : List Name) (c : Name)
    (hn : Names s.fs p d c) (hf : Fits w s.fs) (hl : ∀ t, s.fs (d ++ [c]) ≠ some (.lnk t)) :
    Only (d ++ [c]) s.fs (dirsOnly w ignore depth s p).2.fs ∧
    ∀ q, s.fs q ≠ some .dir → (dirsOnly w ignore depth s p).2.fs q = s.fs q :=
  ⟨(del_step w false ignore depth s p d c hn hf hl).only, del_kept w ignore depth s p⟩

/-- When no call fails, the directories that are removed by the variant without warnings are exactly those
that hold nothing but directories. -/
theorem C89_empty_directories (w : World) (depth : Nat) (s : State) (p d : List Name) (c : Name)
    (hn : Names s.fs p d c) (hf : Fits w s.fs) (hr : Reliable w) (hu : ∀ q, (w.names q).Nodup)
    (hk : Shallow depth s.fs) (hd : s.fs (d ++ [c]) = some .dir) (q : List Name) (hq : d ++ [c] <+: q)
    (hqd : s.fs q = some .dir) :
    (dirsOnly w true depth s p).1 = .ok ∧ ((dirsOnly w true depth s p).2.fs q = none ↔ Bare s.fs q) := by
  have h := del_prune hr hu depth s p d c hn hf hd hk (by omega)
  exact ⟨h.1, h.2.bare hq hqd⟩

end Verif
