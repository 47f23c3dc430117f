import Verif.Props.Confine

/-!
# C68: without `-f`, a restore does not overwrite existing files
-/

namespace Verif
open Confine

namespace Confine

/-- What is there stays. -/
def Keeps (fs fs' : FS) : Prop := ∀ p n, fs p = some n → fs' p = some n

/-- Only directories are new. -/
def AddsDirs (fs fs' : FS) : Prop := ∀ p n, fs' p = some n → n = .dir ∨ fs p = some n

theorem Keeps.refl (fs : FS) : Keeps fs fs := fun _ _ h => h
theorem Keeps.trans {a b c : FS} (h : Keeps a b) (h' : Keeps b c) : Keeps a c := fun p n e => h' p n (h p n e)

theorem make_keeps (s : State) (P : List Name) (n : Node) : Keeps s.fs (make s P n).2.fs := by
  unfold make
  split
  · split
    · rename_i hn
      intro p m hp
      show put _ _ _ _ = _
      rw [put, if_neg (fun e => by rw [e, hn] at hp; simp at hp)]
      exact hp
    · exact Keeps.refl _
  · exact Keeps.refl _

theorem mkdir_adds (s : State) (P : List Name) : AddsDirs s.fs (mkdir s P).2.fs := by
  unfold mkdir make
  split
  · split
    · intro p m hp
      have hp' : put _ _ _ p = some m := hp
      unfold put at hp'
      split at hp'
      · injection hp' with hp'; exact .inl hp'.symm
      · exact .inr hp'
    · exact fun _ _ h => .inr h
  · exact fun _ _ h => .inr h

theorem mkpathR_both (s : State) (l : List Name) :
    Keeps s.fs (mkpathR s l).2.fs ∧ AddsDirs s.fs (mkpathR s l).2.fs := by
  induction l with
  | nil => exact ⟨Keeps.refl _, fun _ _ h => .inr h⟩
  | cons c rq ih =>
    unfold mkpathR
    split
    · exact ⟨Keeps.refl _, fun _ _ h => .inr h⟩
    · split
      · rcases e : mkpathR s rq with ⟨b, s1⟩
        rw [e] at ih
        cases b with
        | false => exact ih
        | true =>
          refine ⟨ih.1.trans (make_keeps s1 _ .dir), fun p n h => ?_⟩
          rcases mkdir_adds s1 _ p n h with h | h
          · exact .inl h
          · exact ih.2 p n h
      · exact ⟨Keeps.refl _, fun _ _ h => .inr h⟩

theorem lchown_fs (s : State) (P : List Name) : (lchown s P).2.fs = s.fs := by
  unfold lchown; split <;> rfl

theorem chmod_fs (s : State) (P : List Name) : (chmod s P).2.fs = s.fs := by
  unfold chmod; split <;> rfl

theorem attribsSet_fs (s : State) (P : List Name) (m : Mode) : (attribsSet s P m).fs = s.fs := by
  unfold attribsSet
  have h1 := lchown_fs s P
  generalize lchown s P = rr at *
  obtain ⟨b, s1⟩ := rr
  cases b with
  | false => exact h1
  | true =>
    simp only at h1 ⊢
    split
    · rw [lchown_fs, h1]
    · have h2 := chmod_fs s1 P
      generalize chmod s1 P = rr at *
      obtain ⟨b, s2⟩ := rr
      cases b with
      | false => exact h2.trans h1
      | true => exact (lchown_fs s2 P).trans (h2.trans h1)

theorem writeExisting_fs (s : State) (P : List Name) : (writeExisting s P).2.fs = s.fs := by
  unfold writeExisting
  split
  · split <;> rfl
  · rfl

theorem makeFile_keeps (s : State) (P : List Name) : Keeps s.fs (makeFile s P).2.fs := by
  unfold makeFile
  exact make_keeps { s with next := s.next + 1 } P _

theorem hardLink_keeps (s : State) (old P : List Name) : Keeps s.fs (hardLink s old P).2.fs := by
  unfold hardLink
  split
  · exact Keeps.refl _
  · exact Keeps.refl _
  · exact make_keeps s P _

theorem restoreDir_keeps (s : State) (P : List Name) (m : Mode) : Keeps s.fs (restoreDir s P m).fs := by
  have h1 : Keeps s.fs (mkpath s P).2.fs := (mkpathR_both s P.reverse).1
  unfold restoreDir
  generalize mkpath s P = rr at *
  obtain ⟨b, s1⟩ := rr
  cases b with
  | false => exact h1
  | true =>
    simp only
    split
    · rw [attribsSet_fs]; exact h1
    · have h2 : Keeps s1.fs (mkdir s1 P).2.fs := make_keeps s1 P _
      generalize mkdir s1 P = rr at *
      obtain ⟨b, s2⟩ := rr
      cases b with
      | false => exact h1.trans h2
      | true => simp only; rw [attribsSet_fs]; exact h1.trans h2

theorem restoreMeta_keeps (s : State) (P : List Name) (m : Mode) (acl : Bool) :
    Keeps s.fs (restoreMeta s P m acl).fs := by
  have key : ∀ s0 : State, Keeps s0.fs (match mkpath s0 P with
      | (false, s) => s
      | (true, s) => (lchown (if acl then (chmod s P).2 else s) P).2).fs := by
    intro s0
    have h1 : Keeps s0.fs (mkpath s0 P).2.fs := (mkpathR_both s0 P.reverse).1
    generalize mkpath s0 P = rr at *
    obtain ⟨b, s1⟩ := rr
    cases b with
    | false => exact h1
    | true =>
      simp only
      rw [lchown_fs]
      split
      · rw [chmod_fs]; exact h1
      · exact h1
  unfold restoreMeta
  by_cases hm : m = .dir
  · simp only [hm, if_true]
    exact (restoreDir_keeps s P .dir).trans (key _)
  · simp only [hm, if_false]
    exact key s

theorem restoreSpecial_keeps (s : State) (P : List Name) (m : Mode) : Keeps s.fs (restoreSpecial s P m).fs := by
  have h1 : Keeps s.fs (mkpath s P).2.fs := (mkpathR_both s P.reverse).1
  unfold restoreSpecial
  generalize mkpath s P = rr at *
  obtain ⟨b, s1⟩ := rr
  cases b with
  | false => exact h1
  | true =>
    simp only
    split
    · have h2 := makeFile_keeps s1 (cut 107 P)
      generalize makeFile s1 (cut 107 P) = rr at *
      obtain ⟨b, s2⟩ := rr
      cases b with
      | false => exact h1.trans h2
      | true => simp only; rw [attribsSet_fs]; exact h1.trans h2
    · have h2 : Keeps s1.fs (if m = .dir ∨ m = .lnk then (false, s1) else makeFile s1 P).2.fs := by
        split
        · exact Keeps.refl _
        · exact makeFile_keeps s1 P
      generalize (if m = .dir ∨ m = .lnk then (false, s1) else makeFile s1 P) = rr at *
      obtain ⟨b, s2⟩ := rr
      cases b with
      | true => simp only; rw [attribsSet_fs]; exact h1.trans h2
      | false =>
        simp only
        split
        · rw [attribsSet_fs]; exact h1.trans h2
        · exact h1.trans h2

/-- If nothing was there before the directories above were made, nothing is removed. -/
theorem unlink_keeps {H Hm Hd : Prop} {fs0 : FS} {n0 : Nat} {D P : List Name} {s : State}
    (hi : Inv H Hm Hd fs0 n0 D s) (hp : Pathed H Hm Hd fs0 n0 D P s) (hb : (mkpath s P).1 = true)
    (hl : lstat s.fs P = none) : (unlink (mkpath s P).2 P).2.fs = (mkpath s P).2.fs := by
  have had : AddsDirs s.fs (mkpath s P).2.fs := (mkpathR_both s P.reverse).2
  have hr := hp.2 hb
  generalize (mkpath s P).2 = s1 at had hr
  unfold unlink
  cases hr with
  | nowhere h => rcases h with h | h <;> rw [h]
  | self q h _ => rw [h]
  | entry d c e ha =>
    subst e
    rw [ha.locate]
    rcases hn : s1.fs (d ++ [c]) with _ | n
    · simp only [hn]
    · cases n with
      | dir => simp only [hn]
      | file i =>
        exfalso
        rcases had _ _ hn with h | h
        · simp at h
        · have hc : ∀ q, q <+: d → s.fs q = some .dir := by
            intro q ⟨t, ht⟩
            subst ht
            have up : ∀ k (t : List Name), t.length = k → s.fs (q ++ t) = some .dir → s.fs q = some .dir := by
              intro k
              induction k with
              | zero => intro t hk h; rw [List.length_eq_zero_iff.mp hk, List.append_nil] at h; exact h
              | succ k ih =>
                intro t hk h
                rcases List.eq_nil_or_concat t with rfl | ⟨t', y, rfl⟩
                · simp at hk
                · rw [List.concat_eq_append, ← List.append_assoc] at h
                  exact ih t' (by simpa using hk) (hi.good.tree _ y (by rw [h]; simp))
            exact up t.length t rfl (hi.good.tree _ c (by rw [h]; simp))
          have ha' : At s.fs D d c := ⟨⟨fun q hq _ => hc q hq, by rw [hc d (List.prefix_refl d)]; simp,
            ha.canon.plain⟩, hc d (List.prefix_refl d), ha.plain, ha.good, ha.inside⟩
          rw [ha'.lstat, h] at hl
          simp at hl
      | lnk x =>
        exfalso
        rcases had _ _ hn with h | h
        · simp at h
        · have hc : ∀ q, q <+: d → s.fs q = some .dir := by
            intro q ⟨t, ht⟩
            subst ht
            have up : ∀ k (t : List Name), t.length = k → s.fs (q ++ t) = some .dir → s.fs q = some .dir := by
              intro k
              induction k with
              | zero => intro t hk h; rw [List.length_eq_zero_iff.mp hk, List.append_nil] at h; exact h
              | succ k ih =>
                intro t hk h
                rcases List.eq_nil_or_concat t with rfl | ⟨t', y, rfl⟩
                · simp at hk
                · rw [List.concat_eq_append, ← List.append_assoc] at h
                  exact ih t' (by simpa using hk) (hi.good.tree _ y (by rw [h]; simp))
            exact up t.length t rfl (hi.good.tree _ c (by rw [h]; simp))
          have ha' : At s.fs D d c := ⟨⟨fun q hq _ => hc q hq, by rw [hc d (List.prefix_refl d)]; simp,
            ha.canon.plain⟩, hc d (List.prefix_refl d), ha.plain, ha.good, ha.inside⟩
          rw [ha'.lstat, h] at hl
          simp at hl

theorem restoreLink_keeps {H Hm Hd : Prop} {fs0 : FS} {n0 : Nat} {D P : List Name} {s : State} {e : Entry}
    (hi : Inv H Hm Hd fs0 n0 D s) (hp : Pathed H Hm Hd fs0 n0 D P s)
    (hl : lstat s.fs P = none) : Keeps s.fs (restoreLink s D P e).fs := by
  have h1 : Keeps s.fs (mkpath s P).2.fs := (mkpathR_both s P.reverse).1
  have h2 := unlink_keeps hi hp (hl := hl)
  unfold restoreLink
  generalize mkpath s P = rr at *
  obtain ⟨b, s1⟩ := rr
  cases b with
  | false => exact h1
  | true =>
    have h3 := h2 rfl
    simp only at h3 h1 ⊢
    have h4 : Keeps (unlink s1 P).2.fs (if e.hard then hardLink (unlink s1 P).2 (D ++ sub e.link) P
        else make (unlink s1 P).2 P (.lnk e.link)).2.fs := by
      split
      · exact hardLink_keeps _ _ _
      · exact make_keeps _ _ _
    rw [h3] at h4
    generalize (if e.hard then hardLink (unlink s1 P).2 (D ++ sub e.link) P
        else make (unlink s1 P).2 P (.lnk e.link)) = rr at *
    obtain ⟨b, s2⟩ := rr
    cases b with
    | false => exact h1.trans h4
    | true => simp only; rw [attribsSet_fs]; exact h1.trans h4

theorem restoreFile_keeps {H Hm Hd : Prop} {fs0 : FS} {n0 : Nat} {D P : List Name} {s : State} {m : Mode}
    (hi : Inv H Hm Hd fs0 n0 D s) (hp : Pathed H Hm Hd fs0 n0 D P s) (hm : m ≠ .dir)
    (hl : lstat s.fs P = none) : Keeps s.fs (restoreFile s P m).fs := by
  have h1 : Keeps s.fs (mkpath s P).2.fs := (mkpathR_both s P.reverse).1
  have h2 := unlink_keeps hi hp (hl := hl)
  unfold restoreFile
  generalize mkpath s P = rr at *
  obtain ⟨b, s1⟩ := rr
  cases b with
  | false => exact h1
  | true =>
    have h3 := h2 rfl
    simp only at h3 h1 ⊢
    rw [if_neg hm]
    have key : ∀ s2 : State, s2.fs = s1.fs → Keeps s.fs
        (match makeFile s2 P with
        | (false, s) => s
        | (true, s) => attribsSet (attribsSet (writeExisting s P).2 P m) P m).fs := by
      intro s2 e2
      have h4 := makeFile_keeps s2 P
      rw [e2] at h4
      generalize makeFile s2 P = rr at *
      obtain ⟨b, s3⟩ := rr
      cases b with
      | false => exact h1.trans h4
      | true =>
        simp only
        rw [attribsSet_fs, attribsSet_fs, writeExisting_fs]
        exact h1.trans h4
    rcases he : unlink s1 P with ⟨r, s2⟩
    rw [he] at h3
    simp only at h3
    match r with
    | some false => simp only; rw [h3]; exact h1
    | some true => exact key s2 h3
    | none => exact key s2 h3

/-- Entries as a backup has them: links and files do not have the mode of a directory, and there is no file
with the data of a fifo. -/
def Sound (e : Entry) : Prop :=
  (isLink e.cmd → e.mode ≠ .dir) ∧ (isData e.cmd → e.mode ≠ .dir ∧ e.mode ≠ .fifo)

instance (e : Entry) : Decidable (Sound e) := by unfold Sound; infer_instance

theorem overwriteOk_none {fs : FS} {e : Entry} {P : List Name} (h : overwriteOk fs false e P = true)
    (hm : e.mode ≠ .dir) (hk : isLink e.cmd ∨ (isData e.cmd ∧ e.mode ≠ .fifo)) : lstat fs P = none := by
  unfold overwriteOk at h
  rw [if_neg (by simp)] at h
  have hnm : e.cmd ≠ .metadata ∧ e.cmd ≠ .encMetadata ∧ e.cmd ≠ .vss ∧ e.cmd ≠ .encVss := by
    refine ⟨?_, ?_, ?_, ?_⟩ <;>
    · intro hc
      rcases hk with hk | hk
      · rw [hc] at hk; simp [isLink] at hk
      · rw [hc] at hk; simp [isData] at hk
  rw [if_pos ⟨hm, hnm⟩] at h
  split at h
  · rename_i hf
    rcases hk with hk | hk
    · rcases hf.1 with hc | hc <;> · rw [hc] at hk; simp [isLink] at hk
    · exact absurd hf.2 hk.2
  · exact of_decide_eq_true h

theorem entryStep_keeps {H Hm Hd : Prop} {fs0 : FS} {n0 : Nat} {D : List Name} {o : Options} {s : State}
    {e : Entry} (hi : Inv H Hm Hd fs0 n0 D s) (ho : o.overwrite = false) (hnul : NoNul e.path)
    (hh : ∀ e', stripped o e = some e' → Sound e' ∧ (EndsUp e' → H)) :
    Keeps s.fs (entryStep o D s e).fs := by
  unfold entryStep
  split
  · exact Keeps.refl _
  · rename_i e' he
    obtain ⟨h1, h2⟩ := hh e' he
    have hnul' := stripped_noNul he hnul
    split
    · exact Keeps.refl _
    · rename_i P hc
      split
      · rename_i hov
        rw [ho] at hov
        have hn : ∀ x ∈ D ++ sub e'.path, PartName x := by
          intro x hx
          rcases List.mem_append.mp hx with hx | hx
          · have := hi.good.names D (by rw [hi.dir.dirs D (List.prefix_refl D)]; simp) x hx
            exact ⟨this.2.1, this.2.2⟩
          · exact sub_mem hnul' x hx
        have hH : (D ++ sub e'.path).getLast? = some [dot, dot] → H := by
          intro h
          by_cases hs : sub e'.path = []
          · rw [hs, List.append_nil] at h
            have := (hi.dir.plain _ (List.mem_of_getLast? h)).2
            simp [isUp] at this
          · apply h2
            unfold EndsUp
            rw [← h, List.getLast?_append]
            rcases hl : (sub e'.path).getLast? with _ | z
            · exact absurd (List.getLast?_eq_none_iff.mp hl) hs
            · rfl
        have hp : Pathed H Hm Hd fs0 n0 D P s := mkpath_fine hi hc hn hH
        have hlink : isLink e'.cmd = true → Keeps s.fs (restoreLink s D P e').fs := fun hk =>
          restoreLink_keeps hi hp (overwriteOk_none hov (h1.1 hk) (.inl hk))
        have hfile : isData e'.cmd = true → Keeps s.fs (restoreFile s P e'.mode).fs := fun hk =>
          restoreFile_keeps hi hp (h1.2 hk).1 (overwriteOk_none hov (h1.2 hk).1 (.inr ⟨hk, (h1.2 hk).2⟩))
        unfold act
        cases hcmd : e'.cmd <;> simp only [] <;> first
          | exact Keeps.refl _
          | exact restoreDir_keeps _ _ _
          | exact hlink (by rw [hcmd]; rfl)
          | exact hfile (by rw [hcmd]; rfl)
          | exact restoreMeta_keeps _ _ _ _
          | exact restoreSpecial_keeps _ _ _
      · exact Keeps.refl _

end Confine

/-- Without `-f`, everything that was there when the restore began is still there at the end, and so is
everything that the restore has made: directories, files (the same ones) and links (with the same targets).
The entries must be as a backup has them, and there must be no backup of the contents of a fifo. -/
theorem C68_kept_partial (o : Options) (D : List Name) (fs : FS) (next : Nat) (es : List Entry)
    (ho : o.overwrite = false) (hfs : GoodFS fs) (hD : RealDir fs D) (hnul : ∀ e ∈ es, NoNul e.path)
    (hh : ∀ e ∈ es, ∀ e', stripped o e = some e' → Harmless e' ∧ Sound e')
    (es1 es2 : List Entry) (he : es = es1 ++ es2) (p : List Name) (n : Node)
    (hp : (restore o D fs next es1).fs p = some n) : (restore o D fs next es).fs p = some n := by
  subst he
  have h1 : Inv True True True fs next D (restore o D fs next es1) := restore_inv hfs hD
    (fun e he => hnul e (by simp [he]))
    (fun e he e' h => ⟨(hh e (by simp [he]) e' h).1, fun _ => trivial, fun _ => trivial, fun _ => trivial⟩)
  have key : ∀ (l : List Entry) (s : State), Inv True True True fs next D s → (∀ e ∈ l, e ∈ es2) →
      Keeps s.fs (l.foldl (entryStep o D) s).fs := by
    intro l
    induction l with
    | nil => intro s _ _; exact Keeps.refl _
    | cons e l ih =>
      intro s hi hl
      have hm : e ∈ es1 ++ es2 := List.mem_append_right _ (hl e (by simp))
      rw [List.foldl_cons]
      refine (entryStep_keeps hi ho (hnul e hm) (fun e' h => ⟨(hh e hm e' h).2, fun _ => trivial⟩)).trans
        (ih _ (entryStep_inv hi (hnul e hm) (fun e' h => ⟨(hh e hm e' h).1, fun _ => trivial, fun _ => trivial,
          fun _ => trivial⟩)) (fun x hx => hl x (List.mem_cons_of_mem _ hx)))
  have := key es2 _ h1 (fun _ h => h)
  unfold restore at hp this ⊢
  rw [List.foldl_append]
  exact this p n hp

/-- And no data are written into a file that was there. -/
theorem C68_data_partial (o : Options) (D : List Name) (fs : FS) (next : Nat) (es : List Entry)
    (hfs : GoodFS fs) (hD : RealDir fs D) (hnext : ∀ p i, fs p = some (.file i) → i < next)
    (hnul : ∀ e ∈ es, NoNul e.path)
    (hh : ∀ e ∈ es, ∀ e', stripped o e = some e' → Harmless e' ∧ Sound e') (p : List Name) (i : Nat)
    (hp : .data p i ∈ (restore o D fs next es).effs) : ∀ q, fs q ≠ some (.file i) :=
  C49_fresh_partial o D fs next es hfs hD hnext hnul
    (fun e he e' h => ⟨(hh e he e' h).1, fun hd => ((hh e he e' h).2.2 hd.1).1 hd.2⟩) p i hp

/-- The entries of the examples are as a backup has them. -/
example : ∀ es ∈ [ordinary, through], ∀ e ∈ es, Sound e := by decide +kernel

/-- A second restore over the first one changes nothing that is there. -/
example : (restore opts room world 2 (ordinary.take 2 ++ ordinary.take 2)).fs (room ++ [bytes "home", bytes "x"]) =
    some (.file 2) := by decide +kernel

/-- With `-f` the file is replaced. -/
example : (restore { opts with overwrite := true } room world 2 (ordinary.take 2 ++ ordinary.take 2)).fs
    (room ++ [bytes "home", bytes "x"]) = some (.file 3) := by decide +kernel

/-- The data of a fifo (from a client with `read_fifo` or `read_all_fifos`): whatever is at the path is
replaced, although overwriting is not allowed. -/
theorem C68_fifo_violated : ∃ e : Entry, e.cmd = .file ∧ e.mode = .fifo ∧ opts.overwrite = false ∧
    let before := put world (room ++ [bytes "x"]) (some (.file 1))
    (restore opts room before 2 [e]).fs (room ++ [bytes "x"]) = some (.file 2) :=
  ⟨⟨.file, bytes "x", [], false, .fifo, false⟩, by decide +kernel⟩

/-- An entry for a link with the mode of a directory replaces what is there. -/
theorem C68_link_violated : ∃ e : Entry, e.cmd = .softLink ∧ opts.overwrite = false ∧
    let before := put world (room ++ [bytes "x"]) (some (.file 1))
    (restore opts room before 2 [e]).fs (room ++ [bytes "x"]) = some (.lnk (bytes "y")) :=
  ⟨⟨.softLink, bytes "x", bytes "y", false, .dir, false⟩, by decide +kernel⟩

end Verif
