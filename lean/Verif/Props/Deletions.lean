import Verif.Lemmas.Deletions

/-!
# C118: entries without data leave the manifest, and no others, wherever the server is killed
-/

namespace Verif
open Deletions

variable {E : Type} [DecidableEq E]

/-- **C118.** However often the server was killed in the shuffle before, and wherever: once a run of it ends well, the
manifest has the entries that it had, in their order, but for some whose data could not be put together in one of the
runs; all the data of the entries that it has is in its place; and nothing is left noted. -/
theorem C118_kept (k : Kinds E) (may : E → Prop) (m0 : List E) (d : Disc E) (o : Luck E)
    (hn : NoClash k.key m0) (hs : SortedBy k.key m0) (h : Reach k may m0 d)
    (ho : ∀ e, o.data e = .failed → may e) (hok : (Deletions.run k o d).2.2 = true) :
    ∃ m, (Deletions.run k o d).2.1.man = some m ∧ m.Sublist m0
      ∧ (∀ e ∈ m0, ¬ may e → e ∈ m) ∧ (∀ e ∈ m0, k.data e = false → e ∈ m)
      ∧ (∀ e ∈ m, k.data e = true → (Deletions.run k o d).2.1.fin e = true)
      ∧ (Deletions.run k o d).2.1.dels = none := by
  obtain ⟨m, h1, h2, h3, h4⟩ := (run_fine ho hn hs (reach_inv hn hs h)).2 hok
  refine ⟨m, h1, h2.1, fun e he hm => ?_, fun e he hd => ?_, h4, h3⟩
  · exact Decidable.byContradiction (fun hne => hm (h2.2 e he hne).1)
  · exact Decidable.byContradiction (fun hne => by rw [(h2.2 e he hne).2] at hd; cases hd)

/-- **C118.** If nothing ever fails, the manifest stays as it was. -/
theorem C118_whole (k : Kinds E) (m0 : List E) (d : Disc E) (o : Luck E)
    (hn : NoClash k.key m0) (hs : SortedBy k.key m0) (h : Reach k (fun _ => False) m0 d)
    (ho : ∀ e, o.data e ≠ .failed) (hok : (Deletions.run k o d).2.2 = true) :
    (Deletions.run k o d).2.1.man = some m0 := by
  obtain ⟨m, h1, h2, h3⟩ := (run_fine (may := fun _ => False) (fun e he => ho e he) hn hs (reach_inv hn hs h)).2 hok
  have hm : ∀ e ∈ m0, e ∈ m := fun e he => Decidable.byContradiction (fun hne => (h2.2 e he hne).1)
  have hnd : m0.Nodup := hs.imp (fun {a b} h e => by rw [e] at h; exact lt_asymm h h)
  rw [h1, sublist_all h2.1 hnd hm]

/-- **C118.** At any time there is a manifest, or a complete temporary one in its stead; it has all the entries that
never failed. -/
theorem C118_always_one (k : Kinds E) (may : E → Prop) (m0 : List E) (d : Disc E)
    (hn : NoClash k.key m0) (hs : SortedBy k.key m0) (h : Reach k may m0 d) :
    ∃ m, d.manifest = some m ∧ m.Sublist m0 ∧ ∀ e ∈ m0, ¬ may e → e ∈ m := by
  obtain ⟨m, hk, hm⟩ := reach_inv hn hs h
  refine ⟨m, ?_, hk.1, fun e he hne => Decidable.byContradiction (fun hc => hne (hk.2 e he hc).1)⟩
  unfold Disc.manifest
  rcases hm with hm | ⟨h1, h2, _⟩
  · rw [hm.1]
  · rw [h1, h2]

/-- **C118.** From wherever the server was killed, a run without other errors ends well. Data that librsync cannot put
together does not hinder it. -/
theorem C118_goes_on (k : Kinds E) (may : E → Prop) (m0 : List E) (d : Disc E) (o : Luck E)
    (hn : NoClash k.key m0) (hs : SortedBy k.key m0) (h : Reach k may m0 d)
    (hf : ∀ e, o.data e ≠ .fatal) (hw : o.writes = true) (hr : o.renames = true) :
    (Deletions.run k o d).2.2 = true := by
  obtain ⟨m, _, hm | ⟨h1, h2, _⟩⟩ := reach_inv hn hs h
  · unfold Deletions.run
    rw [hm.1]
    exact rest_ok hf hw hr m d
  · unfold Deletions.run
    rw [h1, h2]
    exact rest_ok hf hw hr m _

/-- **C118.** After a run that ended well a further one changes nothing, whatever would fail in it. -/
theorem C118_again (k : Kinds E) (may : E → Prop) (m0 : List E) (d : Disc E) (o o' : Luck E)
    (hn : NoClash k.key m0) (hs : SortedBy k.key m0) (h : Reach k may m0 d)
    (ho : ∀ e, o.data e = .failed → may e) (hok : (Deletions.run k o d).2.2 = true) :
    Deletions.run k o' (Deletions.run k o d).2.1 = ([], (Deletions.run k o d).2.1, true) := by
  obtain ⟨m, h1, _, h3, h4⟩ := (run_fine ho hn hs (reach_inv hn hs h)).2 hok
  generalize (Deletions.run k o d).2.1 = f at h1 h3 h4
  unfold Deletions.run
  rw [h1]
  show Run.andThen (loop k o' m f) (finish k o' m) = _
  rw [loop_done m h4]
  show (([] : List (Disc E)) ++ (finish k o' m f).1, (finish k o' m f).2.1, (finish k o' m f).2.2) = _
  unfold finish
  rw [h3]
  rfl

/-- **C118.** An entry whose data fails in the last run, and was not in its place before, is not in the manifest. -/
theorem C118_failed_gone (k : Kinds E) (may : E → Prop) (m0 : List E) (d : Disc E) (o : Luck E) (e : E)
    (hn : NoClash k.key m0) (hs : SortedBy k.key m0) (h : Reach k may m0 d)
    (ho : ∀ e, o.data e = .failed → may e) (hok : (Deletions.run k o d).2.2 = true)
    (hd : k.data e = true) (hne : (Deletions.run k o d).2.1.fin e = false) :
    ∀ m, (Deletions.run k o d).2.1.man = some m → e ∉ m := by
  obtain ⟨m, h1, _, _, h4⟩ := (run_fine ho hn hs (reach_inv hn hs h)).2 hok
  intro m' hm' he
  rw [h1] at hm'
  injection hm' with hm'
  subst hm'
  rw [h4 e he hd] at hne
  cases hne

/-! ## A case -/

/-- Three files. -/
def dlKinds : Kinds (Fin 3) := ⟨fun n => (.file, some (47 :: [UInt8.ofNat (97 + n.val)])), fun _ => true⟩

/-- The disc before the shuffle. -/
def dlDisc : Disc (Fin 3) := ⟨some [0, 1, 2], none, none, fun _ => false⟩

/-- A run in which these fail. -/
def dlLuck (l : List (Fin 3)) : Luck (Fin 3) := ⟨fun e => if e ∈ l then .failed else .done, true, true⟩

example : NoClash dlKinds.key [0, 1, 2] ∧ SortedBy dlKinds.key [0, 1, 2] := by decide

theorem dl_data (e : Fin 3) : dlKinds.data e = true := rfl

theorem dl_perform : Manifest.performDeletions dlKinds.key [0, 1, 2] [1] = [0, 2] := by
  have h1 : Manifest.pcmp dlKinds.key 0 1 = -1 := by decide
  have h2 : Manifest.pcmp dlKinds.key 1 1 = 0 := by decide
  simp [Manifest.performDeletions, h1, h2]

/-- The second file fails: it is taken out, with nine operations after which the server may be killed. -/
example : (Deletions.run dlKinds (dlLuck [1]) dlDisc).2.1.man = some [0, 2]
    ∧ (Deletions.run dlKinds (dlLuck [1]) dlDisc).2.2 = true
    ∧ (Deletions.run dlKinds (dlLuck [1]) dlDisc).1.length = 9 := by
  refine ⟨?_, ?_, ?_⟩ <;>
    simp [Deletions.run, Deletions.rest, Deletions.loop, Deletions.one, Deletions.finish, Run.andThen, dl_data, dl_perform,
      dlLuck, dlDisc]

/-! ## What does not hold -/

/-- C118 fails for data that cannot be put together at first and can be later: if the server is killed after the
failure was noted, and the next run puts the data in its place, then the entry is taken out of the manifest all the
same, and the file is not in the backup although its data is. -/
theorem C118_recovered_violated : ∃ (k : Kinds (Fin 3)) (may : Fin 3 → Prop) (m0 m : List (Fin 3))
    (d : Disc (Fin 3)) (o : Luck (Fin 3)) (e : Fin 3), NoClash k.key m0 ∧ SortedBy k.key m0 ∧ Reach k may m0 d
    ∧ (∀ e, o.data e = .done) ∧ (Deletions.run k o d).2.2 = true ∧ e ∈ m0
    ∧ (Deletions.run k o d).2.1.fin e = true ∧ (Deletions.run k o d).2.1.man = some m ∧ e ∉ m := by
  refine ⟨dlKinds, fun e => e = 1, [0, 1, 2], [0, 2],
    ⟨some [0, 1, 2], none, some [1], fun x => if x = 0 then true else false⟩, dlLuck [], 1, by decide, by decide,
    ?_, fun e => rfl, ?_, by decide, ?_, ?_, by decide⟩
  · refine Reach.killed dlDisc _ (dlLuck [1]) (.new _ rfl rfl) ?_ ?_
    · intro e he
      unfold dlLuck at he
      simp only at he
      split at he
      · next h => simpa using h
      · cases he
    · simp [Deletions.run, Deletions.rest, Deletions.loop, Deletions.one, Deletions.finish, Run.andThen, dl_data, dl_perform,
        dlLuck, dlDisc]
  all_goals
    simp [Deletions.run, Deletions.rest, Deletions.loop, Deletions.one, Deletions.finish, Run.andThen, dl_data, dl_perform,
      dlLuck]

end Verif
