import Verif.Lemmas.Sessions

/-!
# C115: sessions for one client at the same time

In all of these the sessions are any at all, any number of them, interleaved in any way, and any of them may
be killed at any time.
-/

namespace Verif
open Sessions

/-- **C115.** One session at a time writes. -/
theorem C115_one_writer (size : Nat → Nat) (bs : List Nat) (kind : Nat → Kind) (es : List Sessions.Event)
    (p q : Nat) (hp : Writes (Sessions.run size (Sessions.initial bs kind) es) p)
    (hq : Writes (Sessions.run size (Sessions.initial bs kind) es) q) : p = q := by
  have hI := inv_run (size := size) es bs kind
  have h1 := (hI.w p).2 ((writes_iff _ p).1 hp)
  have h2 := (hI.w q).2 ((writes_iff _ q).1 hq)
  rw [h1] at h2
  injection h2

/-- **C115.** One restore at a time reads a backup. -/
theorem C115_one_reader (size : Nat → Nat) (bs : List Nat) (kind : Nat → Kind) (es : List Sessions.Event)
    (p q b : Nat) (hp : Reads (Sessions.run size (Sessions.initial bs kind) es) p b)
    (hq : Reads (Sessions.run size (Sessions.initial bs kind) es) q b) : p = q := by
  have hI := inv_run (size := size) es bs kind
  have h1 := (hI.r p b).2 ((reads_iff _ p b).1 hp)
  have h2 := (hI.r q b).2 ((reads_iff _ q b).1 hq)
  rw [h1] at h2
  injection h2

/-- **C115.** No lock is left behind: one that is held is held by a session that is at work. -/
theorem C115_locks (size : Nat → Nat) (bs : List Nat) (kind : Nat → Kind) (es : List Sessions.Event) (p : Nat) :
    ((Sessions.run size (Sessions.initial bs kind) es).writer = some p →
      Writes (Sessions.run size (Sessions.initial bs kind) es) p)
    ∧ ∀ b, (Sessions.run size (Sessions.initial bs kind) es).reader b = some p →
      Reads (Sessions.run size (Sessions.initial bs kind) es) p b := by
  have hI := inv_run (size := size) es bs kind
  exact ⟨fun h => (writes_iff _ p).2 ((hI.w p).1 h), fun b h => (reads_iff _ p b).2 ((hI.r p b).1 h)⟩

/-- **C115.** No session waits for another: each ends after a number of steps of its own, whatever the others
do. -/
theorem C115_ends (size : Nat → Nat) (bs : List Nat) (kind : Nat → Kind) (es : List Sessions.Event) (p : Nat)
    (h : stepsOf size (kind p) ≤ ownSteps p es) :
    ∃ o, (Sessions.run size (Sessions.initial bs kind) es).stage p = .done o := by
  have hr := rest_run (size := size) p es (fits_initial bs kind)
  have h0 : rest size (kind p) .start = stepsOf size (kind p) := by cases kind p <;> rfl
  have h1 : rest size (kind p) ((Sessions.run size (Sessions.initial bs kind) es).stage p)
      ≤ rest size (kind p) .start - ownSteps p es := hr
  exact rest_zero (size := size) (fits_run es bs kind p) (by omega)

/-- **C115.** The only session that writes is not refused, whatever restores there are. -/
theorem C115_writer_served (size : Nat → Nat) (bs : List Nat) (kind : Nat → Kind) (es : List Sessions.Event)
    (p : Nat) (cs : List Change) (hk : kind p = .write cs) (ho : OnlyWriter kind p)
    (hkill : Sessions.Event.kill p ∉ es) (h : cs.length + 2 ≤ ownSteps p es) :
    (Sessions.run size (Sessions.initial bs kind) es).stage p = .done .written := by
  have key := run_induct (size := size)
    (P := fun s => s.kind = kind ∧ Inv s ∧ (∀ q, Fits (s.kind q) (s.stage q)) ∧ GoodWriter (s.stage p)) es
    (s := Sessions.initial bs kind) ⟨rfl, inv_initial bs kind, fits_initial bs kind, trivial⟩ (by
      rintro s e he ⟨h1, h2, h3, h4⟩
      refine ⟨(exec_kind size s e).trans h1, inv_exec h2 e, fits_exec h3 e, ?_⟩
      exact goodWriter_exec h2 h3 (by rw [h1]; exact hk) (by rw [h1]; exact ho) h4
        (fun hx => hkill (hx ▸ he)))
  obtain ⟨o, hd⟩ := C115_ends size bs kind es p (by rw [hk]; exact h)
  have hg := key.2.2.2
  rw [hd] at hg ⊢
  cases o <;> first | rfl | exact absurd hg (fun h => h)

/-- **C115 (partial).** A restore that is said to be done has sent the whole of its backup, whatever other
restores and backups there were and whoever was killed. Missing: no session may have removed that backup
(`C115_removed_violated`). -/
theorem C115_whole_partial (size : Nat → Nat) (bs : List Nat) (kind : Nat → Kind) (es : List Sessions.Event)
    (p b n : Nat) (list used : Option Str) (hk : kind p = .restore b list) (hn : NeverRemoved kind b)
    (hd : (Sessions.run size (Sessions.initial bs kind) es).stage p = .done (.sent n used)) :
    n = size b := by
  have key := run_induct (size := size)
    (P := fun s => s.kind = kind ∧ (∀ q, Fits (s.kind q) (s.stage q))
      ∧ WholeAt size b s.backups (s.stage p)) es
    (s := Sessions.initial bs kind) ⟨rfl, fits_initial bs kind, trivial⟩ (by
      rintro s e he ⟨h1, h2, h3⟩
      refine ⟨(exec_kind size s e).trans h1, fits_exec h2 e, ?_⟩
      exact whole_exec h2 (by rw [h1]; exact hk) (by rw [h1]; exact hn) h3 e)
  have hg := key.2.2
  rw [hd] at hg
  exact hg

/-- **C115 (partial).** A restore uses the list that its own client sent, or none if none was sent. Missing:
where a list was sent, no other session may be a restore (`C115_list_violated`). -/
theorem C115_list_partial (size : Nat → Nat) (bs : List Nat) (kind : Nat → Kind) (es : List Sessions.Event)
    (p b n : Nat) (list used : Option Str) (hk : kind p = .restore b list)
    (ho : list = none ∨ OnlyRestore kind p)
    (hd : (Sessions.run size (Sessions.initial bs kind) es).stage p = .done (.sent n used)) :
    used = list := by
  have key := run_induct (size := size)
    (P := fun s => s.kind = kind ∧ OwnList list s.listFile (s.stage p)) es
    (s := Sessions.initial bs kind) ⟨rfl, trivial⟩ (by
      rintro s e he ⟨h1, h2⟩
      refine ⟨(exec_kind size s e).trans h1, ?_⟩
      exact own_exec (by rw [h1]; exact hk) (by rw [h1]; exact ho) h2 e)
  have hg := key.2
  rw [hd] at hg
  exact hg

/-- **C115 (partial).** A restore of a backup that is there succeeds, sends the whole of it and uses its own
list, whatever backups and deletions of others there are at the same time. Missing: no session may remove
that backup, and no other may be a restore. -/
theorem C115_restored_partial (size : Nat → Nat) (bs : List Nat) (kind : Nat → Kind)
    (es : List Sessions.Event) (p b : Nat) (list : Option Str) (hk : kind p = .restore b list) (hb : b ∈ bs)
    (hn : NeverRemoved kind b) (ho : OnlyRestore kind p) (hkill : Sessions.Event.kill p ∉ es)
    (h : size b + 6 ≤ ownSteps p es) :
    (Sessions.run size (Sessions.initial bs kind) es).stage p = .done (.sent (size b) list) := by
  have key := run_induct (size := size)
    (P := fun s => s.kind = kind ∧ Inv s ∧ (∀ q, Fits (s.kind q) (s.stage q)) ∧ b ∈ s.backups
      ∧ OwnList list s.listFile (s.stage p) ∧ GoodStage (s.stage p)) es
    (s := Sessions.initial bs kind)
    ⟨rfl, inv_initial bs kind, fits_initial bs kind, hb, trivial, trivial⟩ (by
      rintro s e he ⟨h1, h2, h3, h4, h5, h6⟩
      refine ⟨(exec_kind size s e).trans h1, inv_exec h2 e, fits_exec h3 e,
        stays h3 (by rw [h1]; exact hn) h4 e,
        own_exec (by rw [h1]; exact hk) (by rw [h1]; exact Or.inr ho) h5 e, ?_⟩
      refine good_exec h2 (by rw [h1]; exact hk) ?_ h4 ?_ h6 (fun hx => hkill (hx ▸ he))
      · intro q l' hq
        rw [h1] at hq
        exact ho q b l' hq
      · intro hs
        have hl : list.isSome = true → s.listFile = list := by
          rcases hs with hs | hs
          · rw [hs] at h5; exact h5
          · rw [hs] at h5; exact h5
        unfold listOpens
        cases list with
        | none => rfl
        | some x => rw [hl rfl]; rfl)
  obtain ⟨o, hd⟩ := C115_ends size bs kind es p (by rw [hk]; exact h)
  have hg := key.2.2.2.2.2
  rw [hd] at hg
  cases o with
  | sent n used =>
    rw [hd, C115_whole_partial size bs kind es p b n list used hk hn hd,
      C115_list_partial size bs kind es p b n list used hk (Or.inr ho) hd]
  | _ => exact absurd hg (fun h => h)

/-- **C115.** A restore that sends no list is not disturbed by restores of other backups either. -/
theorem C115_restored_whole (size : Nat → Nat) (bs : List Nat) (kind : Nat → Kind)
    (es : List Sessions.Event) (p b : Nat) (hk : kind p = .restore b none) (hb : b ∈ bs)
    (hn : NeverRemoved kind b) (hone : ∀ q l, kind q = .restore b l → q = p)
    (hkill : Sessions.Event.kill p ∉ es) (h : size b + 6 ≤ ownSteps p es) :
    (Sessions.run size (Sessions.initial bs kind) es).stage p = .done (.sent (size b) none) := by
  have key := run_induct (size := size)
    (P := fun s => s.kind = kind ∧ Inv s ∧ (∀ q, Fits (s.kind q) (s.stage q)) ∧ b ∈ s.backups
      ∧ GoodStage (s.stage p)) es
    (s := Sessions.initial bs kind)
    ⟨rfl, inv_initial bs kind, fits_initial bs kind, hb, trivial⟩ (by
      rintro s e he ⟨h1, h2, h3, h4, h6⟩
      refine ⟨(exec_kind size s e).trans h1, inv_exec h2 e, fits_exec h3 e,
        stays h3 (by rw [h1]; exact hn) h4 e, ?_⟩
      refine good_exec h2 (by rw [h1]; exact hk) ?_ h4 (fun _ => rfl) h6 (fun hx => hkill (hx ▸ he))
      intro q l' hq
      rw [h1] at hq
      exact hone q l' hq)
  obtain ⟨o, hd⟩ := C115_ends size bs kind es p (by rw [hk]; exact h)
  have hg := key.2.2.2.2
  rw [hd] at hg
  cases o with
  | sent n used =>
    rw [hd, C115_whole_partial size bs kind es p b n none used hk hn hd,
      C115_list_partial size bs kind es p b n none used hk (Or.inl rfl) hd]
  | _ => exact absurd hg (fun h => h)

/-! Concrete cases. -/

/-- Session 0 restores backup 1 by a list, session 1 adds backup 3 and removes backup 2, all others restore
nothing that is there. -/
def sessWriteRead : Nat → Kind
  | 0 => .restore 1 (some (bytes "a"))
  | 1 => .write [.add 3, .remove 2]
  | _ => .write []

def sessEvents : List Sessions.Event :=
  [.step 0, .step 1, .step 0, .step 1, .step 0, .step 0, .step 1, .step 0, .step 0, .step 0, .step 1,
   .step 0, .step 0, .step 0]

/-- The hypotheses of `C115_restored_partial` are met. -/
example : (Sessions.run (fun _ => 2) (Sessions.initial [1, 2] sessWriteRead) sessEvents).stage 0
    = .done (.sent 2 (some (bytes "a"))) :=
  C115_restored_partial (fun _ => 2) [1, 2] sessWriteRead sessEvents 0 1 (some (bytes "a")) rfl (by decide)
    (by
      intro p cs hk
      match p, hk with
      | 0, hk => cases hk
      | 1, hk => injection hk with hk; subst hk; decide
      | (n + 2), hk => injection hk with hk; subst hk; decide)
    (by
      intro q b l hk
      match q, hk with
      | 0, _ => rfl
      | 1, hk => cases hk
      | (n + 2), hk => cases hk)
    (by decide) (by decide)

/-- And both were at work at once. -/
example : (Sessions.run (fun _ => 2) (Sessions.initial [1, 2] sessWriteRead) (sessEvents.take 6)).stage 0
      = .reading 2 0 (some (bytes "a"))
    ∧ (Sessions.run (fun _ => 2) (Sessions.initial [1, 2] sessWriteRead) (sessEvents.take 6)).stage 1
      = .writing [.remove 2] := by decide

/-- The second of two that write is refused. -/
example : (Sessions.run (fun _ => 2) (Sessions.initial [] sessWriteRead) [.step 1, .step 2]).stage 2
    = .done .refused := by decide

/-- A restore of backup 1 and a session that removes it. -/
def sessRemove : Nat → Kind
  | 0 => .restore 1 none
  | _ => .write [.remove 1]

/-- C115 fails where a session removes a backup while another restores it: the deletion does not look at the
lock of the restore, so the restore leaves out the rest and is done all the same. -/
theorem C115_removed_violated :
    Reads (Sessions.run (fun _ => 3) (Sessions.initial [1, 2] sessRemove)
        [.step 0, .step 0, .step 0, .step 0, .step 0, .step 1]) 0 1
    ∧ Writes (Sessions.run (fun _ => 3) (Sessions.initial [1, 2] sessRemove)
        [.step 0, .step 0, .step 0, .step 0, .step 0, .step 1]) 1
    ∧ (Sessions.run (fun _ => 3) (Sessions.initial [1, 2] sessRemove)
        [.step 0, .step 0, .step 0, .step 0, .step 0, .step 1, .step 1, .step 0, .step 0, .step 0,
         .step 0]).stage 0 = .done (.sent 1 none) := by
  refine ⟨⟨⟨none, rfl⟩, Or.inr (Or.inr ⟨2, 1, none, by decide⟩)⟩, ⟨[.remove 1], by decide⟩, by decide⟩

/-- Two restores, of two backups, each by a list. -/
def sessLists : Nat → Kind
  | 0 => .restore 1 (some (bytes "a"))
  | 1 => .restore 2 (some (bytes "b"))
  | _ => .restore 9 none

/-- C115 fails where two restores by lists run at the same time, although they are of different backups: there
is one file for the list, so the first picks files by the list of the second. -/
theorem C115_list_violated :
    (Sessions.run (fun _ => 1) (Sessions.initial [1, 2] sessLists)
        [.step 0, .step 1, .step 0, .step 0, .step 0, .step 0, .step 0, .step 0]).stage 0
      = .done (.sent 1 (some (bytes "b"))) := by decide

/-- C115 fails where a restore by a list runs while another ends, even one that was refused for a backup that
is not there: the end of any restore removes the file of the list, and the first fails. -/
theorem C115_unlinked_violated :
    (Sessions.run (fun _ => 1) (Sessions.initial [1, 2] sessLists)
        [.step 0, .step 0, .step 2, .step 2, .step 2, .step 0, .step 0]).stage 0
      = .done .failed := by decide

end Verif
