import Verif.Lemmas.Ending

/-!
# C111: the end of a backup when the server stops
-/

namespace Verif
open Verif.Ending Verif.Rubble Verif.Manifest

variable {E : Type}

/-- However often the server stops, and wherever, but in the window and in removing a directory: a
backup that counts as done lists all that phase 2 recorded, and nothing else. -/
theorem C111_complete_partial (key : E → Cmd × Option Str) (ch un : List E) (steps : List (Nat × Nat))
    (stop : Nat) (cs : List Conn)
    (hr : Removals key ch un (applyAll scanned ((firstOps key ch un steps).take stop)) cs)
    (hc : Calm key ch un (applyAll scanned ((firstOps key ch un steps).take stop)) cs)
    (hd : Done (history key ch un steps stop cs)) :
    Lists (history key ch un steps stop cs) (un ++ ch) := by
  have h := good_conns cs _ (good_first (calm_head hc)) hr hc
  change Ending.Good key ch un (history key ch un steps stop cs) at h
  unfold Done at hd
  rcases h with h | h | h | h | h
  · rw [h] at hd; rcases hd with hd | hd <;> cases hd
  · rw [h.1] at hd; rcases hd with hd | hd <;> cases hd
  · rw [h.1] at hd; rcases hd with hd | hd <;> cases hd
  · rw [h.1] at hd; rcases hd with hd | hd <;> cases hd
  · exact ⟨_, h.2, C17_merge_loses_nothing key un ch⟩

/-- Then also the next connection that resumes the backup completes it, if the server does not stop. -/
theorem C111_progress_partial (key : E → Cmd × Option Str) (ch un : List E) (steps : List (Nat × Nat))
    (stop : Nat) (cs : List Conn) (c : Conn)
    (hr : Removals key ch un (applyAll scanned ((firstOps key ch un steps).take stop)) cs)
    (hc : Calm key ch un (applyAll scanned ((firstOps key ch un steps).take stop)) cs)
    (hl : (history key ch un steps stop cs).link = some .working)
    (hres : recoverWorking (leftover (history key ch un steps stop cs) c) c.settings = .resume)
    (hb : c.backup = true)
    (hs : (connOps key ch un (history key ch un steps stop cs) c).length ≤ c.stop) :
    (history key ch un steps stop (cs ++ [c])).link = some .current ∧
      Lists (history key ch un steps stop (cs ++ [c])) (un ++ ch) := by
  have h := good_conns cs _ (good_first (calm_head hc)) hr hc
  change Ending.Good key ch un (history key ch un steps stop cs) at h
  have hstep : history key ch un steps stop (cs ++ [c]) =
      conn key ch un (history key ch un steps stop cs) c := by
    unfold history
    rw [List.foldl_append]
    rfl
  rw [hstep]
  generalize history key ch un steps stop cs = s at *
  have hops : connOps key ch un s c = backupOps key ch un c.steps s := by
    unfold connOps
    rw [hl]
    simp only [hres, hb, if_true]
  have hconn : conn key ch un s c = applyAll s (backupOps key ch un c.steps s) := by
    unfold conn
    rw [List.take_of_length_le hs, hops]
  have hp := C17_merge_loses_nothing key un ch
  rw [hconn]
  rcases h with h | h | h | h | h
  · rw [h] at hl; cases hl
  · obtain ⟨_, h1, h2⟩ := backup_second (key := key) (ch := ch) (un := un) (steps := c.steps) h
    exact ⟨h1, _, h2, hp⟩
  · obtain ⟨_, h1, h2⟩ := backup_third (key := key) (ch := ch) (un := un) (steps := c.steps) h
    exact ⟨h1, _, h2, hp⟩
  · obtain ⟨_, h1, h2⟩ := backup_third (key := key) (ch := ch) (un := un) (steps := c.steps) h
    exact ⟨h1, _, h2, hp⟩
  · rcases h.1 with h | h <;> rw [h] at hl <;> cases hl

/-- And the directory is not taken for one whose scan was not completed. -/
theorem C111_not_unscanned_partial (key : E → Cmd × Option Str) (ch un : List E)
    (steps : List (Nat × Nat)) (stop : Nat) (cs : List Conn) (c : Conn)
    (hr : Removals key ch un (applyAll scanned ((firstOps key ch un steps).take stop)) cs)
    (hc : Calm key ch un (applyAll scanned ((firstOps key ch un steps).take stop)) cs)
    (hl : (history key ch un steps stop cs).link = some .working) :
    phase1Incomplete (leftover (history key ch un steps stop cs) c) = false := by
  have h := good_conns cs _ (good_first (calm_head hc)) hr hc
  change Ending.Good key ch un (history key ch un steps stop cs) at h
  generalize history key ch un steps stop cs = s at *
  rcases h with h | h | h | h | h
  · rw [h] at hl; cases hl
  · exact scan_there (Or.inl h.2.1)
  · exact scan_there (Or.inr (Or.inl (by rw [h.2.2.1]; rfl)))
  · exact scan_there (Or.inr (Or.inl (by rw [h.2.2.1]; rfl)))
  · rcases h.1 with h | h <;> rw [h] at hl <;> cases hl

/-- With stops in the window too: what counts as done lists all that was recorded, or all of it but the
changed entries. -/
theorem C111_outcomes (key : E → Cmd × Option Str) (ch un : List E) (steps : List (Nat × Nat))
    (stop : Nat) (cs : List Conn)
    (hr : Removals key ch un (applyAll scanned ((firstOps key ch un steps).take stop)) cs)
    (hd : Done (history key ch un steps stop cs)) :
    Lists (history key ch un steps stop cs) (un ++ ch) ∨ Lists (history key ch un steps stop cs) un := by
  have h := weak_conns cs _ (weak_first (steps := steps) (stop := stop)) hr
  change Weak key ch un (history key ch un steps stop cs) at h
  unfold Done at hd
  rcases h with h | h | h | h | ⟨m, hm, h | h | h⟩
  · rw [h] at hd; rcases hd with hd | hd <;> cases hd
  · rw [h.1] at hd; rcases hd with hd | hd <;> cases hd
  · rw [h.1] at hd; rcases hd with hd | hd <;> cases hd
  · rw [h.1] at hd; rcases hd with hd | hd <;> cases hd
  · rw [h.1] at hd; rcases hd with hd | hd <;> cases hd
  · rw [h.1] at hd; rcases hd with hd | hd <;> cases hd
  · rcases hm with rfl | rfl
    · exact Or.inl ⟨_, h.2, C17_merge_loses_nothing key un ch⟩
    · refine Or.inr ⟨_, h.2, ?_⟩
      have := C17_merge_loses_nothing key un []
      rwa [List.append_nil] at this

/-- A backup that counts as done goes on to do so, with the same manifest. -/
theorem C111_kept (key : E → Cmd × Option Str) (ch un : List E) (s : St E) (hd : Done s)
    (cs : List Conn) :
    Done (cs.foldl (conn key ch un) s) ∧ (cs.foldl (conn key ch un) s).manifest = s.manifest := by
  induction cs generalizing s with
  | nil => exact ⟨hd, rfl⟩
  | cons c cs ih =>
    obtain ⟨h1, h2⟩ := conn_done (key := key) (ch := ch) (un := un) (c := c) hd
    obtain ⟨h3, h4⟩ := ih _ h1
    exact ⟨h3, h4.trans h2⟩

/-- A connection that is refused, or that does not ask for a backup, leaves a directory that is to be
resumed as it is. -/
theorem C111_untouched (key : E → Cmd × Option Str) (ch un : List E) (s : St E) (c : Conn)
    (hl : s.link = some .working)
    (h : recoverWorking (leftover s c) c.settings = .refused ∨
      (recoverWorking (leftover s c) c.settings = .resume ∧ c.backup = false)) :
    conn key ch un s c = s := by
  unfold conn connOps
  rw [hl]
  rcases h with h | ⟨h, hb⟩
  · simp [h, applyAll]
  · simp [h, hb, applyAll]

/-- The directory is removed only by a connection that finds that it has to be. -/
theorem C111_removed_only (key : E → Cmd × Option Str) (ch un : List E) (s : St E) (c : Conn)
    (hs : s.link ≠ none) (h : (conn key ch un s c).link = none) :
    s.link = some .working ∧ recoverWorking (leftover s c) c.settings = .deleted := by
  have keep : ∀ (ops : List (Op E)) (t : St E), t.link ≠ none → (∀ o ∈ ops, o ≠ .delete) →
      (applyAll t ops).link ≠ none := by
    intro ops
    induction ops with
    | nil => exact fun t ht _ => ht
    | cons o ops ih =>
      intro t ht ho
      rw [applyAll_cons]
      refine ih _ ?_ (fun o' ho' => ho o' (List.mem_cons_of_mem _ ho'))
      have h1 := ho o List.mem_cons_self
      cases o with
      | delete => exact absurd rfl h1
      | toFinishing => exact fun h => by cases h
      | toCurrent => exact fun h => by cases h
      | lose f => cases f <;> exact ht
      | _ => exact ht
  have hthird : ∀ a b, ∀ o ∈ phase3Ops key a b ++ endOps, o ≠ Op.delete := by
    intro a b o ho
    unfold phase3Ops endOps at ho
    simp only [List.mem_append, List.mem_map, List.mem_cons, List.not_mem_nil, or_false] at ho
    rcases ho with (⟨_, _, rfl⟩ | rfl | rfl | rfl) | rfl | rfl | rfl <;> simp
  have hback : ∀ o ∈ backupOps key ch un c.steps s, o ≠ Op.delete := by
    intro o ho
    unfold backupOps at ho
    split at ho
    · exact hthird _ _ o ho
    · split at ho
      · rw [List.append_assoc] at ho
        rcases List.mem_append.mp ho with ho | ho
        · unfold phase2Ops at ho
          simp only [List.mem_append, List.mem_flatMap, List.mem_cons, List.not_mem_nil, or_false] at ho
          rcases ho with ((rfl | rfl) | ⟨_, _, rfl | rfl⟩) | rfl | rfl | rfl | rfl <;> simp
        · exact hthird _ _ o ho
      · simp only [List.mem_cons, List.not_mem_nil, or_false] at ho
        rcases ho with rfl | rfl <;> simp
  by_cases hd : Done s
  · rcases (conn_done (key := key) (ch := ch) (un := un) (c := c) hd).1 with h1 | h1 <;>
      rw [h] at h1 <;> cases h1
  · have hl : s.link = some .working := by
      cases hk : s.link with
      | none => exact absurd hk hs
      | some l =>
        cases l with
        | working => rfl
        | finishing => exact absurd (Or.inl hk) hd
        | current => exact absurd (Or.inr hk) hd
    refine ⟨hl, ?_⟩
    rcases conn_of_working (key := key) (ch := ch) (un := un) (c := c) hl with h1 | h1 | ⟨_, _, h1⟩
    · exact h1
    · rw [h1] at h; exact absurd h hs
    · rw [h1] at h
      exact absurd h (keep _ _ hs fun o ho => hback o (List.mem_of_mem_take ho))

/-- While the scan is there the client is told before the backup is completed. -/
theorem C111_told_partial (key : E → Cmd × Option Str) (ch un : List E) (s : St E) (c : Conn)
    (hl : s.link = some .working) (hp : s.phase1 = true)
    (hd : Done (conn key ch un s c)) : clientTold key ch un s c = true := by
  have hskip : skipPhase2 s = false := by
    unfold skipPhase2
    rw [hp]
    rfl
  have hnot : ¬ Done s := by
    rintro (h | h) <;> rw [hl] at h <;> cases h
  have key1 : ∀ (ops : List (Op E)) (t : St E) (n : Nat), ¬ Done t →
      (∀ o ∈ ops, o ≠ .toFinishing ∧ o ≠ .toCurrent) → ¬ Done (applyAll t (ops.take n)) := by
    intro ops
    induction ops with
    | nil => intro t n ht _; rw [List.take_nil]; exact ht
    | cons o ops ih =>
      intro t n ht ho
      cases n with
      | zero => exact ht
      | succ n =>
        rw [List.take_succ_cons, applyAll_cons]
        refine ih _ n ?_ (fun o' ho' => ho o' (List.mem_cons_of_mem _ ho'))
        obtain ⟨h1, h2⟩ := ho o List.mem_cons_self
        cases o with
        | toFinishing => exact absurd rfl h1
        | toCurrent => exact absurd rfl h2
        | lose f => cases f <;> exact ht
        | delete => rintro (h | h) <;> cases h
        | _ => exact ht
  unfold clientTold
  unfold conn at hd
  unfold connOps at hd ⊢
  rw [hl] at hd ⊢
  cases hr : recoverWorking (leftover s c) c.settings with
  | deleted =>
    simp only [hr] at hd
    refine absurd hd (key1 _ _ _ hnot ?_)
    intro o ho
    unfold deleteOps at ho
    rcases List.mem_append.mp ho with ho | ho
    · obtain ⟨f, _, rfl⟩ := List.mem_map.mp ho
      exact ⟨by simp, by simp⟩
    · rw [List.mem_singleton.mp ho]
      exact ⟨by simp, by simp⟩
  | linkRemoved => simp only [hr, List.take_nil] at hd; exact absurd hd hnot
  | refused => simp only [hr, List.take_nil] at hd; exact absurd hd hnot
  | resume =>
    simp only [hr] at hd ⊢
    cases hb : c.backup with
    | false => simp [hb] at hd; exact absurd hd hnot
    | true =>
      simp only [hb, if_true] at hd ⊢
      unfold backupOps phase2Ops at hd ⊢
      rw [hskip, if_neg (by decide), if_pos hp] at hd ⊢
      simp only [List.append_assoc] at hd ⊢
      rw [← List.append_assoc] at hd ⊢
      generalize hpre : ([Op.createChanged, Op.createUnchanged]
        ++ c.steps.flatMap fun n => [Op.setChanged (ch.take n.1), Op.setUnchanged (un.take n.2)]) = pre
        at hd ⊢
      have hpre' : ∀ o ∈ pre, o ≠ Op.toFinishing ∧ o ≠ Op.toCurrent := by
        intro o ho
        rw [← hpre] at ho
        simp only [List.mem_append, List.mem_cons, List.not_mem_nil, or_false, List.mem_flatMap] at ho
        rcases ho with (rfl | rfl) | ⟨n, _, rfl | rfl⟩ <;> exact ⟨by simp, by simp⟩
      rw [List.take_append] at hd ⊢
      rw [List.any_append]
      by_cases hn : c.stop ≤ pre.length
      · rw [show c.stop - pre.length = 0 by omega, List.take_zero, List.append_nil] at hd
        exact absurd hd (key1 _ _ _ hnot hpre')
      · obtain ⟨k, hk⟩ : ∃ k, c.stop - pre.length = k + 1 := ⟨c.stop - pre.length - 1, by omega⟩
        rw [hk]
        simp

/-! ## What goes wrong -/

/-- Entries are told apart by their paths. -/
def endKey (n : Nat) : Cmd × Option Str := (.file, some [47, UInt8.ofNat n])

/-- A connection that asks for a backup and resumes. -/
def endConn : Conn :=
  { resumed := none, appendable := true, incexc := some [], logOpens := true,
    settings := { method := .resume, maxResumeAttempts := 0, superClient := false, incexc := [] },
    backup := true, order := [], steps := [], stop := 100 }

/-- C111 fails if the server stops after phase 3 has removed the list of changed entries and before it
has removed that of the unchanged ones: the next backup fails but creates an empty list, and the one
after that takes the two for the lists of phase 2, overwrites the complete manifest and counts as done
without any entry that was new or changed. -/
theorem C111_window_lost_violated :
    ∃ (ch un : List Nat) (stop : Nat) (cs : List Conn),
      (history endKey ch un [] stop []).manifest = some (phase3 endKey un ch) ∧
      (history endKey ch un [] stop cs).link = some .current ∧
      ¬ Lists (history endKey ch un [] stop cs) (un ++ ch) := by
  refine ⟨[1], [2], 11, [endConn, endConn], by decide +kernel, by decide +kernel, ?_⟩
  rintro ⟨m, hm, hp⟩
  have h2 : (history endKey [1] [2] [] 11 [endConn, endConn]).manifest = some [2] := by decide +kernel
  rw [h2] at hm
  cases hm
  exact absurd hp.length_eq (by decide)

/-- C111 fails if the server stops when both lists have been removed and the directory is still the
working one: the backup is complete, and the next connection removes it as one whose scan was not
completed, although resuming is asked for. -/
theorem C111_window_deleted_violated :
    ∃ (ch un : List Nat) (stop : Nat) (c : Conn),
      (history endKey ch un [] stop []).manifest = some (phase3 endKey un ch) ∧
      c.settings.method = .resume ∧ c.settings.maxResumeAttempts = 0 ∧
      (history endKey ch un [] stop [c]).link = none :=
  ⟨[1], [2], 12, endConn, by decide +kernel, rfl, rfl, by decide +kernel⟩

/-- C111 fails for the client in the same way: it has been told that the backup was done. -/
theorem C111_told_then_deleted_violated :
    ∃ (ch un : List Nat) (stop : Nat) (c : Conn),
      Op.told ∈ (firstOps endKey ch un []).take stop ∧
      (history endKey ch un [] stop [c]).link = none :=
  ⟨[1], [2], 12, endConn, by decide +kernel, by decide +kernel⟩

/-- C111 fails if the server stops in phase 3 and the backup is resumed: it is completed, but the client
is never told, and takes it for a failure. -/
theorem C111_client_not_told_violated :
    ∃ (ch un : List Nat) (stop : Nat) (c : Conn),
      (history endKey ch un [] stop [c]).link = some .current ∧
      Lists (history endKey ch un [] stop [c]) (un ++ ch) ∧
      clientTold endKey ch un (history endKey ch un [] stop []) c = false := by
  refine ⟨[1], [2], 7, endConn, by decide +kernel, ⟨[1, 2], by decide +kernel, ?_⟩, by decide +kernel⟩
  decide

/-- The settings of the client have changed: the directory is to be removed. -/
def endChanged : Conn :=
  { endConn with
    incexc := some (bytes "include = /a")
    settings := { endConn.settings with incexc := bytes "include = /b" }
    order := [.phase1, .other, .changed, .unchanged]
    stop := 2 }

/-- C111 fails if the server stops while it removes the directory of a backup that was interrupted in
phase 2 and is not to be resumed: when the scan and the file with the settings have gone first, the next
backup takes what is left for a backup that was interrupted in phase 3, and a part of a backup counts as
done. -/
theorem C111_removal_violated :
    ∃ (ch un : List Nat) (stop : Nat) (c1 c2 : Conn),
      (history endKey ch un [(0, 1)] stop []).phase1 = true ∧
      recoverWorking (leftover (history endKey ch un [(0, 1)] stop []) c1) c1.settings = .deleted ∧
      (history endKey ch un [(0, 1)] stop [c1, c2]).link = some .current ∧
      ¬ Lists (history endKey ch un [(0, 1)] stop [c1, c2]) (un ++ ch) ∧
      ¬ Lists (history endKey ch un [(0, 1)] stop [c1, c2]) un := by
  refine ⟨[1], [2, 3], 4, endChanged, { endConn with incexc := none }, by decide +kernel,
    by decide +kernel, by decide +kernel, ?_, ?_⟩
  all_goals
    rintro ⟨m, hm, hp⟩
    have h2 : (history endKey [1] [2, 3] [(0, 1)] 4
        [endChanged, { endConn with incexc := none }]).manifest = some [2] := by decide +kernel
    rw [h2] at hm
    cases hm
    exact absurd hp.length_eq (by decide)

/-! ## Such histories -/

/-- Three stops, in phase 2, in phase 3 and before the last link, and what they come to. -/
theorem endCalm :
    Removals endKey [1, 4] [2, 3]
        (applyAll scanned ((firstOps endKey [1, 4] [2, 3] [(1, 0), (1, 2)]).take 5))
        [{ endConn with stop := 9 }, { endConn with stop := 6 }, endConn] ∧
      Calm endKey [1, 4] [2, 3]
        (applyAll scanned ((firstOps endKey [1, 4] [2, 3] [(1, 0), (1, 2)]).take 5))
        [{ endConn with stop := 9 }, { endConn with stop := 6 }, endConn] := by
  refine ⟨⟨?_, ?_, ?_, trivial⟩, ?_, ?_, ?_, ?_⟩
  · exact fun _ h => absurd h (by decide +kernel)
  · exact fun _ h => absurd h (by decide +kernel)
  · exact fun _ h => absurd h (by decide +kernel)
  · exact fun h => absurd h.2.1 (by decide +kernel)
  · exact fun h => absurd h.2.2 (by decide +kernel)
  · exact fun h => absurd h.2.2 (by decide +kernel)
  · exact fun h => absurd h.1 (by decide +kernel)

example : Done (history endKey [1, 4] [2, 3] [(1, 0), (1, 2)] 5
      [{ endConn with stop := 9 }, { endConn with stop := 6 }, endConn]) ∧
    (history endKey [1, 4] [2, 3] [(1, 0), (1, 2)] 5
      [{ endConn with stop := 9 }, { endConn with stop := 6 }, endConn]).manifest =
        some [1, 2, 3, 4] :=
  ⟨Or.inr (by decide +kernel), by decide +kernel⟩

example : recoverWorking (leftover (history endKey [1, 4] [2, 3] [(1, 0), (1, 2)] 5 []) endConn)
    endConn.settings = .resume := by decide +kernel

end Verif
