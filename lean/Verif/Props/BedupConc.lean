import Verif.Lemmas.BedupConcRel

/-!
# C100: deduplication while the server goes on

Whatever the server does meanwhile, and in whatever order `bedup` goes about, nobody notices `bedup` who reads the
files by their paths: they have the data that they would have without it.

This fails when a backup of a client begins while `bedup` is at the files of that client: `bedup` reads the links
`working` and `finishing` once, when it comes to a client (src/server/bedup.c:548-552), so that it goes on to look at
the files of a backup that has begun since. The theorems are for runs in which this does not happen.
-/

namespace Verif
open Verif.BedupConc

/-- C100 (partial): every file that the server would have without `bedup` is there, with the data it would have. Backups
are made, broken off, finished and deleted meanwhile, on all clients; none begins on a client while `bedup` is at its
files. -/
theorem C100_unnoticed_partial (ext : Str) (s : Server) (h : Fine s) (as : List Act) (t : Sys)
    (hr : Run ext Quiet (begin_ s) as t) (p : Path) (hp : ¬ isTmp ext p) (x : Str)
    (hx : (as.foldl Server.act s).view p = some x) : t.server.view p = some x :=
  (run_rel hr (base_begin s h) (rel_begin s h)).2.le p x hp hx

/-- C100 (partial): as long as the server takes no finished backup away, there is nothing else either, but for the
temporary names. -/
theorem C100_nothing_else_partial (ext : Str) (s : Server) (h : Fine s) (as : List Act) (t : Sys)
    (hr : Run ext Quiet (begin_ s) as t) (hk : ∀ a ∈ as, a.keeps) (p : Path) (hp : ¬ isTmp ext p) :
    t.server.view p = (as.foldl Server.act s).view p := by
  have h1 : Same ext s (begin_ s) := fun _ _ _ hv => hv
  have h2 : Stays ext (begin_ s) := fun q y _ ho => (note_none s (fun _ => none) q y rfl ho).2
  have h3 := run_same hr (base_begin s h) (rel_begin s h) h1 h2 hk
  cases hx : (as.foldl Server.act s).view p with
  | some x => exact C100_unnoticed_partial ext s h as t hr p hp x hx
  | none =>
    cases hy : t.server.view p with
    | none => rfl
    | some y => rw [h3.1 p y hp hy] at hx; cases hx

/-- C100 (partial): the data of a finished backup does not change from one moment to a later one. -/
theorem C100_kept_partial (ext : Str) (s : Server) (h : Fine s) (as bs : List Act) (t u : Sys)
    (hr : Run ext Quiet (begin_ s) as t) (hr' : Run ext Quiet t bs u) (p : Path) (hp : ¬ isTmp ext p)
    (hb : ¬ t.server.inBusy p) (x y : Str) (hx : t.server.view p = some x) (hy : u.server.view p = some y) : y = x := by
  have h1 := (run_rel hr (base_begin s h) (rel_begin s h)).1
  have h2 := h1.old p x hp hb hx
  obtain ⟨h3, h4⟩ := run_old hr' h1 p x h2
  obtain ⟨d, e, r, e1, _, e2⟩ := h4.done p x h3
  have h5 := h4.old p y hp (by
    rintro ⟨d', e', r', e3, e4⟩
    rw [e1] at e3; cases e3; exact e2 e4) hy
  rw [h3] at h5
  exact (Option.some.inj h5).symm

/-- C100 (partial): no step of `bedup` changes anything below the directory of a backup that is being made, be it named
by `working` or by `finishing`. -/
theorem C100_hands_off_partial (ext : Str) (s : Server) (h : Fine s) (as : List Act) (t u : Sys)
    (hr : Run ext Quiet (begin_ s) as t) (hd : Does ext t u) (p : Path) (hb : t.server.inBusy p) :
    u.server.at_ p = t.server.at_ p ∧ u.server.content = t.server.content := by
  have h1 := (run_rel hr (base_begin s h) (rel_begin s h)).1
  obtain ⟨_, h2, _⟩ := h1.does hd
  generalize u.server = v at h2
  cases h2 with
  | none => exact ⟨rfl, rfl⟩
  | temp q o h3 h4 =>
    refine ⟨put_ne _ _ ?_, rfl⟩
    rintro rfl; exact h3.tmp_not_busy hb
  | over q j h3 h4 h5 h6 =>
    refine ⟨?_, rfl⟩
    rw [put_ne, put_ne]
    · rintro rfl; exact h3.tmp_not_busy hb
    · rintro rfl; exact h3.not_busy hb

end Verif
