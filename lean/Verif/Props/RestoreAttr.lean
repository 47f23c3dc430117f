import Verif.Lemmas.RestoreAttr

/-!
# C91: what is restored has the owner, the mode and the times that it had
-/

namespace Verif.RestoreAttr
open Verif

variable {family : Path → Path} {w : World}

/-- First something on the way to a path and at it, then only the file there. -/
def Step (family : Path → Path) (P : Path) (s s' : S) : Prop :=
  ∃ s1, Good family s1 ∧ Quiet P s s1 ∧ Local P s1 s'

theorem Step.good {P : Path} {s s' : S} (h : Step family P s s') : Good family s' := by
  obtain ⟨s1, h1, _, h3⟩ := h; exact h3.good h1

theorem Step.local {P : Path} {s s1 s' : S} (h : Step family P s s1) (hl : Local P s1 s') : Step family P s s' := by
  obtain ⟨s0, h1, h2, h3⟩ := h; exact ⟨s0, h1, h2, h3.trans hl⟩

theorem Step.frame {P : Path} {s s' : S} (h : Step family P s s') {q : Path} {i : Nat} (hq : s.dent q = some i)
    (hp : ¬ q <+: P) : s'.dent q = some i ∧ (s'.node i).kind = (s.node i).kind ∧
      (s'.node i = s.node i ∨ s'.dent P = some i) := by
  obtain ⟨s1, _, h2, h3⟩ := h
  obtain ⟨k1, k2⟩ := h2 q i hq hp
  refine ⟨h3.dent ▸ k1, (h3.kind i).trans (congrArg Node.kind k2), ?_⟩
  rcases h3.node i with c | c
  · exact .inl (c.trans k2)
  · exact .inr (h3.dent ▸ c)

theorem mkpath_step {s : S} (hg : Good family s) (p : Path) :
    Good family (mkpath w s p).2 ∧ Quiet p s (mkpath w s p).2 := by
  have := mkpathR_spec (w := w) (P := p) p.reverse s hg (by rw [List.reverse_reverse]; exact List.prefix_refl p)
  exact ⟨this.1, this.2.1⟩

theorem step_of {P : Path} {s s' : S} (hg : Good family s') (h : Quiet P s s') : Step family P s s' :=
  ⟨s', hg, h, Local.refl P s'⟩

/-- Setting attributes after something that has been done. -/
theorem step_attribs {P : Path} {s s1 : S} (h : Step family P s s1) (st : Stat) (b : What)
    (hk : ∀ i, s1.dent P = some i → KindOk b (s1.node i)) :
    Step family P s (attribsSet w s1 P st).2 ∧ ((attribsSet w s1 P st).1 = true →
      ∃ i, (attribsSet w s1 P st).2.dent P = some i ∧ Has ((attribsSet w s1 P st).2.node i) st ∧
        KindOk b ((attribsSet w s1 P st).2.node i)) := by
  obtain ⟨a1, a2⟩ := attribsSet_local (w := w) s1 P st
  refine ⟨h.local a1, fun hb => ?_⟩
  obtain ⟨i, hi, hh⟩ := a2 hb
  refine ⟨i, a1.dent ▸ hi, hh, ?_⟩
  have := hk i hi
  have hkk := a1.kind i
  unfold KindOk at this ⊢
  cases b <;> first | exact trivial | (rw [hkk]; exact this)

/-- What one function does, and what its success means. -/
def Does (family : Path → Path) (b : What) (P : Path) (st : Stat) (s : S) (o : Bool × S) : Prop :=
  Step family P s o.2 ∧ (o.1 = true → ∃ i, o.2.dent P = some i ∧ Has (o.2.node i) st ∧ KindOk b (o.2.node i))

theorem does_fail {b : What} {P : Path} {st : Stat} {s s' : S} (h : Step family P s s') : Does family b P st s (false, s') :=
  ⟨h, fun c => (by cases c)⟩

theorem restoreDir_does {s : S} (hg : Good family s) (P : Path) (st : Stat) :
    Does family .dir P st s (restoreDir w s P st) := by
  unfold restoreDir
  obtain ⟨k1, k2⟩ := mkpath_step (w := w) hg P
  generalize mkpath w s P = o at *
  obtain ⟨b, s1⟩ := o
  cases b with
  | false => exact does_fail (step_of k1 k2)
  | true =>
    dsimp only at k1 k2 ⊢
    split
    · rename_i hd
      refine step_attribs (step_of k1 k2) st .dir ?_
      intro i hi
      obtain ⟨j, hj, hk⟩ := (isDir_iff s1 P).mp hd
      rw [hi] at hj; cases hj
      exact hk
    · obtain ⟨c1, c2, c3, _⟩ := create_spec (w := w) k1 (List.prefix_refl P) .dir w.dirMode
      generalize create w s1 P .dir w.dirMode = o at *
      obtain ⟨b, s2⟩ := o
      cases b with
      | false => exact does_fail (step_of c1 (k2.trans c2))
      | true =>
        refine step_attribs (step_of c1 (k2.trans c2)) st .dir ?_
        intro i hi
        obtain ⟨_, j, hj, hk⟩ := c3 rfl
        dsimp only at hi hj hk
        rw [hi] at hj; cases hj
        exact hk

theorem restoreFile_does {s : S} (hg : Good family s) (P : Path) (st : Stat) :
    Does family .file P st s (restoreFile w s P st) := by
  unfold restoreFile
  obtain ⟨k1, k2⟩ := mkpath_step (w := w) hg P
  generalize mkpath w s P = o at *
  obtain ⟨b, s1⟩ := o
  cases b with
  | false => exact does_fail (step_of k1 k2)
  | true =>
    dsimp only at k1 k2 ⊢
    obtain ⟨u1, u2, _, _⟩ := unlink_spec (w := w) (P := P) k1
    generalize unlink w s1 P = o at *
    obtain ⟨b, s2⟩ := o
    cases b with
    | false => exact does_fail (step_of u1 (k2.trans u2))
    | true =>
      dsimp only at u1 u2 ⊢
      obtain ⟨c1, c2, c3, _⟩ := create_spec (w := w) u1 (List.prefix_refl P) .file 0o600
      generalize create w s2 P .file 0o600 = o at *
      obtain ⟨b, s3⟩ := o
      cases b with
      | false => exact does_fail (step_of c1 ((k2.trans u2).trans c2))
      | true =>
        dsimp only at c1 c2 c3 ⊢
        have hst : Step family P s s3 := step_of c1 ((k2.trans u2).trans c2)
        obtain ⟨d1, _⟩ := change_local (w := w) s3 P (fun n => { n with mtime := w.now s3.calls }) (fun _ => rfl)
        generalize change w s3 P _ = o at *
        obtain ⟨b, s4⟩ := o
        cases b with
        | false => exact does_fail (hst.local d1)
        | true =>
          dsimp only at d1 ⊢
          have hl : Local P s3 (attribsSet w s4 P st).2 := d1.trans (attribsSet_local s4 P st).1
          refine step_attribs (hst.local hl) st .file ?_
          intro i hi
          obtain ⟨_, j, hj, hk⟩ := c3 rfl
          rw [hl.dent] at hi
          obtain rfl : i = j := Option.some.inj (hi.symm.trans hj)
          exact (hl.kind i).trans hk

theorem restoreLink_does {s : S} (hg : Good family s) (P : Path) (t : Option Path) (ht : ∀ x, t = some x → family P = family x)
    (st : Stat) : Does family (match t with | none => .symlink | some x => .hardlink x) P st s (restoreLink w s P t st) := by
  unfold restoreLink
  obtain ⟨k1, k2⟩ := mkpath_step (w := w) hg P
  generalize mkpath w s P = o at *
  obtain ⟨b, s1⟩ := o
  cases b with
  | false => exact does_fail (step_of k1 k2)
  | true =>
    dsimp only at k1 k2 ⊢
    obtain ⟨u1, u2, _, _⟩ := unlink_spec (w := w) (P := P) k1
    generalize unlink w s1 P = o at *
    obtain ⟨b, s2⟩ := o
    dsimp only at u1 u2 ⊢
    cases t with
    | none =>
      dsimp only
      obtain ⟨c1, c2, c3, _⟩ := create_spec (w := w) u1 (List.prefix_refl P) .link 0o777
      generalize create w s2 P .link 0o777 = o at *
      obtain ⟨b, s3⟩ := o
      cases b with
      | false => exact does_fail (step_of c1 ((k2.trans u2).trans c2))
      | true =>
        refine step_attribs (step_of c1 ((k2.trans u2).trans c2)) st .symlink ?_
        intro i hi
        obtain ⟨_, j, hj, hk⟩ := c3 rfl
        dsimp only at hi hj hk
        rw [hi] at hj; cases hj
        exact hk
    | some x =>
      dsimp only
      obtain ⟨c1, c2, c3⟩ := link_spec (w := w) u1 (ht x rfl)
      generalize link w s2 x P = o at *
      obtain ⟨b, s3⟩ := o
      cases b with
      | false => exact does_fail (step_of c1 ((k2.trans u2).trans c2))
      | true => exact step_attribs (step_of c1 ((k2.trans u2).trans c2)) st (.hardlink x) (fun _ _ => trivial)

theorem restoreSpecial_does {s : S} (hg : Good family s) (P : Path) (st : Stat) :
    Does family .special P st s (restoreSpecial w s P st) := by
  unfold restoreSpecial
  obtain ⟨k1, k2⟩ := mkpath_step (w := w) hg P
  generalize mkpath w s P = o at *
  obtain ⟨b, s1⟩ := o
  cases b with
  | false => exact does_fail (step_of k1 k2)
  | true =>
    dsimp only at k1 k2 ⊢
    obtain ⟨c1, c2, _, _⟩ := create_spec (w := w) k1 (List.prefix_refl P) .special st.mode
    generalize create w s1 P .special st.mode = o at *
    obtain ⟨b, s2⟩ := o
    cases b with
    | true => exact step_attribs (step_of c1 (k2.trans c2)) st .special (fun _ _ => trivial)
    | false =>
      dsimp only at c1 c2 ⊢
      split
      · exact step_attribs (step_of c1 (k2.trans c2)) st .special (fun _ _ => trivial)
      · exact does_fail (step_of c1 (k2.trans c2))

/-- The last part of restoring metadata. -/
def metaEnd (w : World) (s : S) (P : Path) (st : Stat) : Bool × S :=
  match change w s P (fun n => { n with mtime := w.now s.calls }) with
  | (false, s) => (false, s)
  | (true, s) => setTimes w s P st.atime st.mtime

theorem metaEnd_local (s : S) (P : Path) (st : Stat) : Local P s (metaEnd w s P st).2 := by
  unfold metaEnd
  obtain ⟨d1, _⟩ := change_local (w := w) s P (fun n => { n with mtime := w.now s.calls }) (fun _ => rfl)
  generalize change w s P _ = o at *
  obtain ⟨b, s2⟩ := o
  cases b with
  | false => exact d1
  | true =>
    exact d1.trans (change_local (w := w) s2 P (fun n => { n with atime := (st.atime, 0), mtime := (st.mtime, 0) })
      (fun _ => rfl)).1

theorem metaEnd_does {s s1 : S} {P : Path} {st : Stat} (h : Step family P s s1)
    (hpre : ∀ i, s1.dent P = some i → Has (s1.node i) st) : Does family .metadata P st s (metaEnd w s1 P st) := by
  refine ⟨h.local (metaEnd_local s1 P st), ?_⟩
  unfold metaEnd
  obtain ⟨d1, d2⟩ := change_local (w := w) s1 P (fun n => { n with mtime := w.now s1.calls }) (fun _ => rfl)
  generalize change w s1 P _ = o at *
  obtain ⟨b, s2⟩ := o
  cases b with
  | false => exact fun c => by cases c
  | true =>
    dsimp only at d1 d2 ⊢
    obtain ⟨i, hi, hn⟩ := d2 rfl
    obtain ⟨e1, e2⟩ := change_local (w := w) s2 P (fun n => { n with atime := (st.atime, 0), mtime := (st.mtime, 0) })
      (fun _ => rfl)
    intro hb
    obtain ⟨j, hj, hm⟩ := e2 hb
    rw [d1.dent] at hj
    obtain rfl : i = j := Option.some.inj (hi.symm.trans hj)
    unfold setTimes
    refine ⟨i, by rw [e1.dent, d1.dent]; exact hi, ?_, trivial⟩
    rw [hm, hn]
    obtain ⟨q1, q2, _, _, q5⟩ := hpre i hi
    exact ⟨q1, q2, rfl, rfl, q5⟩

theorem restoreMetadata_eq (s : S) (P : Path) (st : Stat) : restoreMetadata w s P st =
    (match (if st.kind = .dir then restoreDir w s P st else (true, s)) with
    | (false, s) => (false, s)
    | (true, s) =>
      match mkpath w s P with
      | (false, s) => (false, s)
      | (true, s) => metaEnd w s P st) := rfl

/-- Metadata of a directory. -/
theorem metadata_dir {s : S} (hg : Good family s) (P : Path) (st : Stat) (hk : st.kind = .dir) :
    Does family .metadata P st s (restoreMetadata w s P st) := by
  rw [restoreMetadata_eq, if_pos hk]
  obtain ⟨r1, r2⟩ := restoreDir_does (w := w) hg P st
  generalize restoreDir w s P st = o at *
  obtain ⟨b, s1⟩ := o
  cases b with
  | false => exact does_fail r1
  | true =>
    dsimp only at r1 r2 ⊢
    obtain ⟨i, hi, hh, _⟩ := r2 rfl
    rw [mkpath_there r1.good (by rw [hi]; exact fun c => by cases c)]
    exact metaEnd_does r1 (fun j hj => by rw [hi] at hj; cases hj; exact hh)

theorem metadata_step {s : S} (hg : Good family s) (P : Path) (st : Stat) :
    Step family P s (restoreMetadata w s P st).2 := by
  by_cases hk : st.kind = .dir
  · exact (metadata_dir hg P st hk).1
  rw [restoreMetadata_eq, if_neg hk]
  dsimp only
  obtain ⟨k1, k2⟩ := mkpath_step (w := w) hg P
  generalize mkpath w s P = o at *
  obtain ⟨b, s1⟩ := o
  cases b with
  | false => exact step_of k1 k2
  | true => exact (step_of k1 k2).local (metaEnd_local s1 P st)

/-- Metadata of something that has another name. -/
theorem metadata_other {s : S} (hg : Good family s) {P q : Path} {st : Stat} {i : Nat}
    (hok : (restoreMetadata w s P st).1 = true) (hi : (restoreMetadata w s P st).2.dent P = some i)
    (hq : s.dent q = some i) (hp : ¬ q <+: P) (hh : Has (s.node i) st) : Has ((restoreMetadata w s P st).2.node i) st := by
  by_cases hk : st.kind = .dir
  · obtain ⟨j, hj, hjh, _⟩ := (metadata_dir hg P st hk).2 hok
    obtain rfl : i = j := Option.some.inj (hi.symm.trans hj)
    exact hjh
  revert hok hi
  rw [restoreMetadata_eq, if_neg hk]
  dsimp only
  obtain ⟨k1, k2⟩ := mkpath_step (w := w) hg P
  generalize mkpath w s P = o at *
  obtain ⟨b, s1⟩ := o
  cases b with
  | false => exact fun c => by cases c
  | true =>
    dsimp only at k1 k2 ⊢
    intro hok hi
    have hd : s1.dent P = some i := by rw [← (metaEnd_local (w := w) s1 P st).dent]; exact hi
    obtain ⟨j, hj, hjh, _⟩ := (metaEnd_does (w := w) (st := st) (step_of k1 k2) (fun j hj => by
      obtain rfl : i = j := Option.some.inj (hd.symm.trans hj)
      rw [(k2 q i hq hp).2]; exact hh)).2 hok
    obtain rfl : i = j := Option.some.inj (hi.symm.trans hj)
    exact hjh

/-- Metadata of what is there. -/
theorem metadata_there {s : S} (hg : Good family s) {P : Path} {st : Stat} {i : Nat} (hi : s.dent P = some i)
    (hh : Has (s.node i) st) (hok : (restoreMetadata w s P st).1 = true) :
    (restoreMetadata w s P st).2.dent P = some i ∧ Has ((restoreMetadata w s P st).2.node i) st ∧
      ((restoreMetadata w s P st).2.node i).kind = (s.node i).kind := by
  have hthere : s.dent P ≠ none := by rw [hi]; exact fun c => by cases c
  have hloc : Local P s (restoreMetadata w s P st).2 := by
    revert hok
    rw [restoreMetadata_eq]
    by_cases hk : st.kind = .dir
    · rw [if_pos hk]
      unfold restoreDir
      rw [mkpath_there hg hthere]
      dsimp only
      by_cases hd : isDir s P = true
      · rw [if_pos hd]
        have hl := (attribsSet_local (w := w) s P st).1
        generalize attribsSet w s P st = o at *
        obtain ⟨b, s1⟩ := o
        cases b with
        | false => exact fun _ => hl
        | true =>
          dsimp only at hl ⊢
          rw [mkpath_there (hl.good hg) (by rw [hl.dent]; exact hthere)]
          exact fun _ => hl.trans (metaEnd_local s1 P st)
      · rw [if_neg hd]
        obtain ⟨_, _, c3, _⟩ := create_spec (w := w) hg (List.prefix_refl P) .dir w.dirMode
        generalize create w s P .dir w.dirMode = o at *
        obtain ⟨b, s1⟩ := o
        cases b with
        | false => exact fun c => by cases c
        | true => exact absurd (c3 rfl).1 hthere
    · rw [if_neg hk]
      dsimp only
      rw [mkpath_there hg hthere]
      exact fun _ => metaEnd_local s P st
  refine ⟨by rw [hloc.dent]; exact hi, ?_, hloc.kind i⟩
  by_cases hk : st.kind = .dir
  · obtain ⟨j, hj, hjh, _⟩ := (metadata_dir (w := w) hg P st hk).2 hok
    rw [hloc.dent] at hj
    obtain rfl : i = j := Option.some.inj (hi.symm.trans hj)
    exact hjh
  · have he : restoreMetadata w s P st = metaEnd w s P st := by
      rw [restoreMetadata_eq, if_neg hk]
      dsimp only
      rw [mkpath_there hg hthere]
    obtain ⟨j, hj, hjh, _⟩ := (metaEnd_does (w := w) (st := st) (step_of hg (Quiet.refl P s)) (fun j hj => by
      obtain rfl : i = j := Option.some.inj (hi.symm.trans hj)
      exact hh)).2 (he ▸ hok)
    rw [← he, hloc.dent] at hj
    obtain rfl : i = j := Option.some.inj (hi.symm.trans hj)
    rw [he]; exact hjh

theorem restoreOne_step {s : S} (hg : Good family s) (e : Entry) (hl : ∀ t, e.what = .hardlink t → family e.path = family t) :
    Step family e.path s (restoreOne w s e).2 := by
  unfold restoreOne
  cases hw : e.what with
  | file => exact (restoreFile_does hg e.path e.stat).1
  | dir => exact (restoreDir_does hg e.path e.stat).1
  | symlink => exact (restoreLink_does hg e.path none (fun x c => by cases c) e.stat).1
  | hardlink t => exact (restoreLink_does hg e.path (some t) (fun x c => by cases c; exact hl t hw) e.stat).1
  | special => exact (restoreSpecial_does hg e.path e.stat).1
  | metadata => exact metadata_step hg e.path e.stat

theorem restoreOne_ok {s : S} (hg : Good family s) (e : Entry) (hl : ∀ t, e.what = .hardlink t → family e.path = family t)
    (hm : e.what ≠ .metadata) (hok : (restoreOne w s e).1 = true) : Restored (restoreOne w s e).2 e := by
  unfold Restored
  unfold restoreOne at hok ⊢
  cases hw : e.what with
  | file => rw [hw] at hok; exact (restoreFile_does hg e.path e.stat).2 hok
  | dir => rw [hw] at hok; exact (restoreDir_does hg e.path e.stat).2 hok
  | symlink => rw [hw] at hok; exact (restoreLink_does hg e.path none (fun x c => by cases c) e.stat).2 hok
  | hardlink t =>
    rw [hw] at hok
    exact (restoreLink_does hg e.path (some t) (fun x c => by cases c; exact hl t hw) e.stat).2 hok
  | special => rw [hw] at hok; exact (restoreSpecial_does hg e.path e.stat).2 hok
  | metadata => exact absurd hw hm

theorem kindOk_congr {b : What} {m n : Node} (h : m.kind = n.kind) (k : KindOk b n) : KindOk b m := by
  unfold KindOk at *
  cases b <;> first | exact trivial | (rw [h]; exact k)

/-- What has been restored stays so. -/
theorem restored_keep {attr : Path → Stat} {s : S} (hg : Good family s) (a e : Entry) (hr : Restored s a)
    (hord : a.path <+: e.path → a.path = e.path) (hl : ∀ t, e.what = .hardlink t → family e.path = family t)
    (hat : a.stat = attr (family a.path)) (hat' : e.stat = attr (family e.path))
    (hsame : a.path = e.path → e.what = .metadata ∨ e.what = a.what)
    (hok : family e.path = family a.path → (restoreOne w s e).1 = true) : Restored (restoreOne w s e).2 a := by
  obtain ⟨i, hi, hh, hk⟩ := hr
  have hst := restoreOne_step (w := w) hg e hl
  have hone : e.what = .metadata → restoreOne w s e = restoreMetadata w s e.path e.stat := fun h => by
    unfold restoreOne; rw [h]
  by_cases hp : a.path = e.path
  · have hfam : family e.path = family a.path := by rw [hp]
    have hstat : e.stat = a.stat := by rw [hat, hat', hfam]
    by_cases hm : e.what = .metadata
    · have hok' := hok hfam
      rw [hone hm] at hok' ⊢
      obtain ⟨m1, m2, m3⟩ := metadata_there hg (hp ▸ hi) (hstat ▸ hh) hok'
      exact ⟨i, hp ▸ m1, hstat ▸ m2, kindOk_congr m3 hk⟩
    · obtain ⟨j, hj, hjh, hjk⟩ := restoreOne_ok hg e hl hm (hok hfam)
      refine ⟨j, hp ▸ hj, hstat ▸ hjh, ?_⟩
      rw [← (hsame hp).resolve_left hm]; exact hjk
  · have hnp : ¬ a.path <+: e.path := fun c => hp (hord c)
    obtain ⟨f1, f2, f3⟩ := hst.frame hi hnp
    refine ⟨i, f1, ?_, kindOk_congr f2 hk⟩
    rcases f3 with c | c
    · rw [c]; exact hh
    · rcases hst.good.one a.path e.path i f1 c with h | ⟨_, h⟩
      · exact absurd h hp
      · have hstat : e.stat = a.stat := by rw [hat, hat', h]
        have hok' := hok h.symm
        by_cases hm : e.what = .metadata
        · rw [hone hm] at hok' c ⊢
          rw [← hstat] at hh ⊢
          exact metadata_other hg hok' c hi hnp hh
        · obtain ⟨j, hj, hjh, _⟩ := restoreOne_ok hg e hl hm hok'
          obtain rfl : i = j := Option.some.inj (c.symm.trans hj)
          exact hstat ▸ hjh

theorem restored_end {attr : Path → Stat} (a : Entry) : ∀ (es : List Entry) (s : S), Good family s → Restored s a →
    (∀ e ∈ es, a.path <+: e.path → a.path = e.path) → (∀ e ∈ es, ∀ t, e.what = .hardlink t → family e.path = family t) →
    a.stat = attr (family a.path) → (∀ e ∈ es, e.stat = attr (family e.path)) →
    (∀ e ∈ es, a.path = e.path → e.what = .metadata ∨ e.what = a.what) →
    (∀ x ∈ (restoreAll w s es).1, family x.1.path = family a.path → x.2 = true) → Restored (restoreAll w s es).2 a
  | [], _, _, hr, _, _, _, _, _, _ => hr
  | e :: es, s, hg, hr, h1, h2, h3, h4, h5, h6 => by
    have hk := restored_keep (w := w) hg a e hr (h1 e List.mem_cons_self) (h2 e List.mem_cons_self) h3
      (h4 e List.mem_cons_self) (h5 e List.mem_cons_self) (fun h => h6 (e, _) List.mem_cons_self h)
    exact restored_end a es _ (restoreOne_step hg e (h2 e List.mem_cons_self)).good hk
      (fun x hx => h1 x (List.mem_cons_of_mem _ hx)) (fun x hx => h2 x (List.mem_cons_of_mem _ hx)) h3
      (fun x hx => h4 x (List.mem_cons_of_mem _ hx)) (fun x hx => h5 x (List.mem_cons_of_mem _ hx))
      (fun x hx => h6 x (List.mem_cons_of_mem _ hx))

theorem create_dent (s : S) (p : Path) (k : Kind) (m : Nat) (q : Path) (h : q ≠ p) :
    (create w s p k m).2.dent q = s.dent q := by
  unfold create
  split
  · rfl
  · exact (congrFun (touch_dent _ p).1 q).trans (if_neg h)

theorem mkpathR_new : ∀ (rp : Path) (s : S) (q : Path), rp.length ≤ q.length → (mkpathR w s rp).2.dent q = s.dent q
  | [], _, _, _ => rfl
  | x :: rq, s, q, h => by
    unfold mkpathR
    split
    · rfl
    split
    · have ih := mkpathR_new rq s q (Nat.le_of_succ_le h)
      generalize mkpathR w s rq = o at *
      obtain ⟨b, s1⟩ := o
      cases b with
      | false => exact ih
      | true =>
        refine (create_dent s1 rq.reverse .dir w.dirMode q (fun c => ?_)).trans ih
        rw [c, List.length_reverse] at h
        exact absurd h (Nat.not_succ_le_self _)
    · rfl

end Verif.RestoreAttr

namespace Verif
open RestoreAttr

/-- **C91.** Whatever there was before, whichever of the calls fail and in whatever order a server sends what
it has, as long as a directory comes after what is in it: when every call worked that was made for one file,
for its other names and for its metadata, it has in the end the owner, the group, the mode with
all of its bits and the times that it had when it was backed up, even though restoring other things changes the
times of the directory they are in, changing the owner clears bits of the mode, and setting metadata changes
times. -/
theorem C91_attributes (w : World) (family : Path → Path) (attr : Path → Stat) :
    ∀ (es : List Entry) (s : S), Good family s → Stream family attr es → ∀ e ∈ es, e.what ≠ .metadata →
      (∀ x ∈ (restoreAll w s es).1, family x.1.path = family e.path → x.2 = true) → Restored (restoreAll w s es).2 e
  | [], _, _, _, _, he, _, _ => by cases he
  | a :: es, s, hg, hS, e, he, hm, hok => by
    have hst := restoreOne_step (w := w) hg a (hS.links a List.mem_cons_self)
    have hS' : Stream family attr es := ⟨(List.pairwise_cons.mp hS.order).2, fun x hx => hS.links x (List.mem_cons_of_mem _ hx),
      fun x hx => hS.attrs x (List.mem_cons_of_mem _ hx), (List.pairwise_cons.mp hS.same).2⟩
    rcases List.mem_cons.mp he with rfl | h
    · refine restored_end (family := family) (attr := attr) e es _ hst.good
        (restoreOne_ok hg e (hS.links e List.mem_cons_self) hm (hok (e, _) List.mem_cons_self rfl))
        (fun x hx => (List.pairwise_cons.mp hS.order).1 x hx hm) hS'.links (hS.attrs e List.mem_cons_self) hS'.attrs
        (fun x hx => (List.pairwise_cons.mp hS.same).1 x hx hm) (fun x hx => hok x (List.mem_cons_of_mem _ hx))
    · exact C91_attributes w family attr es _ hst.good hS' e h hm (fun x hx => hok x (List.mem_cons_of_mem _ hx))

/-- **C91.** What is not restored, and is not another name of what is, stays as it is, however much of the
restore fails; of the directories on the way to what is restored only the times change. -/
theorem C91_others_left (w : World) (family : Path → Path) : ∀ (es : List Entry) (s : S), Good family s →
    (∀ e ∈ es, ∀ t, e.what = .hardlink t → family e.path = family t) → ∀ q i, s.dent q = some i →
      (∀ e ∈ es, ¬ q <+: e.path ∧ family q ≠ family e.path) →
      (restoreAll w s es).2.dent q = some i ∧ (restoreAll w s es).2.node i = s.node i
  | [], _, _, _, _, _, hq, _ => ⟨hq, rfl⟩
  | e :: es, s, hg, hl, q, i, hq, hn => by
    have hst := restoreOne_step (w := w) hg e (hl e List.mem_cons_self)
    obtain ⟨f1, _, f3⟩ := hst.frame hq (hn e List.mem_cons_self).1
    have hnode : (restoreOne w s e).2.node i = s.node i := by
      rcases f3 with c | c
      · exact c
      · rcases hst.good.one q e.path i f1 c with h | ⟨_, h⟩
        · exact absurd (h ▸ List.prefix_refl q) (hn e List.mem_cons_self).1
        · exact absurd h (hn e List.mem_cons_self).2
    obtain ⟨r1, r2⟩ := C91_others_left w family es _ hst.good (fun x hx => hl x (List.mem_cons_of_mem _ hx)) q i f1
      (fun x hx => hn x (List.mem_cons_of_mem _ hx))
    exact ⟨r1, r2.trans hnode⟩

/-- **C91.** Where there was nothing, a fifo, a socket or a device is one when it was restored. -/
theorem C91_special_made (w : World) (family : Path → Path) (s : S) (hg : Good family s) (e : Entry) (he : e.what = .special)
    (hn : s.dent e.path = none) (hok : (restoreOne w s e).1 = true) :
    ∃ i, (restoreOne w s e).2.dent e.path = some i ∧ ((restoreOne w s e).2.node i).kind = .special ∧
      Has ((restoreOne w s e).2.node i) e.stat := by
  have hone : restoreOne w s e = restoreSpecial w s e.path e.stat := by unfold restoreOne; rw [he]
  rw [hone] at hok ⊢
  revert hok
  unfold restoreSpecial
  obtain ⟨k1, k2⟩ := mkpath_step (w := w) hg e.path
  have hk : (mkpath w s e.path).2.dent e.path = none := by
    unfold mkpath
    rw [mkpathR_new _ _ _ (by rw [List.length_reverse]; exact Nat.le_refl _)]; exact hn
  generalize mkpath w s e.path = o at *
  obtain ⟨b, s1⟩ := o
  cases b with
  | false => exact fun c => by cases c
  | true =>
    dsimp only at k1 k2 hk ⊢
    obtain ⟨_, _, c3, c4⟩ := create_spec (w := w) k1 (List.prefix_refl e.path) .special e.stat.mode
    generalize create w s1 e.path .special e.stat.mode = o at *
    obtain ⟨b, s2⟩ := o
    cases b with
    | true =>
      dsimp only at c3 ⊢
      obtain ⟨_, j, hj, hjk⟩ := c3 rfl
      obtain ⟨a1, a2⟩ := attribsSet_local (w := w) s2 e.path e.stat
      intro hok
      obtain ⟨i, hi, hh⟩ := a2 hok
      obtain rfl : i = j := Option.some.inj (hi.symm.trans hj)
      exact ⟨i, by rw [a1.dent]; exact hi, (a1.kind i).trans hjk, hh⟩
    | false =>
      dsimp only at c4 ⊢
      rw [c4.1 rfl, if_neg (fun c => c hk)]
      exact fun c => by cases c

/-- **C91.** A hard link that was restored is a name of the file whose name it was, at the end of the restore
too, unless something else is restored in its place or in that of the other name. -/
theorem C91_hard_link (w : World) (family : Path → Path) (s : S) (hg : Good family s) (e : Entry) (t : Path) (es : List Entry)
    (he : e.what = .hardlink t) (hok : (restoreOne w s e).1 = true)
    (hl : ∀ x ∈ e :: es, ∀ t, x.what = .hardlink t → family x.path = family t)
    (hn : ∀ x ∈ es, ¬ e.path <+: x.path ∧ ¬ t <+: x.path) :
    ∃ i, (restoreAll w s (e :: es)).2.dent e.path = some i ∧ (restoreAll w s (e :: es)).2.dent t = some i := by
  have keep : ∀ (es : List Entry) (s : S), Good family s → (∀ x ∈ es, ∀ t, x.what = .hardlink t → family x.path = family t) →
      ∀ q i, s.dent q = some i → (∀ x ∈ es, ¬ q <+: x.path) → (restoreAll w s es).2.dent q = some i := by
    intro es
    induction es with
    | nil => intro s _ _ q i hq _; exact hq
    | cons x es ih =>
      intro s hg hl q i hq hn
      have hst := restoreOne_step (w := w) hg x (hl x List.mem_cons_self)
      exact ih _ hst.good (fun y hy => hl y (List.mem_cons_of_mem _ hy)) q i (hst.frame hq (hn x List.mem_cons_self)).1
        (fun y hy => hn y (List.mem_cons_of_mem _ hy))
  have hst := restoreOne_step (w := w) hg e (hl e List.mem_cons_self)
  have hnow : ∃ i, (restoreOne w s e).2.dent e.path = some i ∧ (restoreOne w s e).2.dent t = some i := by
    have hone : restoreOne w s e = restoreLink w s e.path (some t) e.stat := by unfold restoreOne; rw [he]
    rw [hone] at hok ⊢
    revert hok
    unfold restoreLink
    generalize mkpath w s e.path = o
    obtain ⟨b, s1⟩ := o
    cases b with
    | false => exact fun c => by cases c
    | true =>
      dsimp only
      generalize (unlink w s1 e.path).2 = s2
      have hlk : (link w s2 t e.path).1 = true → ∃ i, (link w s2 t e.path).2.dent e.path = some i ∧
          (link w s2 t e.path).2.dent t = some i := by
        unfold link
        split
        · exact fun c => by cases c
        · cases ht : s2.dent t with
          | none => exact fun c => by cases c
          | some i =>
            refine fun _ => ⟨i, ?_, ?_⟩
            · rw [(touch_dent _ _).1]; exact if_pos rfl
            · rw [(touch_dent _ _).1]
              change (if t = e.path then some i else s2.dent t) = some i
              split
              · rfl
              · exact ht
      generalize link w s2 t e.path = o at *
      obtain ⟨b, s3⟩ := o
      cases b with
      | false => exact fun c => by cases c
      | true =>
        intro _
        obtain ⟨i, h1, h2⟩ := hlk rfl
        have hd := (attribsSet_local (w := w) s3 e.path e.stat).1.dent
        exact ⟨i, by rw [hd]; exact h1, by rw [hd]; exact h2⟩
  obtain ⟨i, h1, h2⟩ := hnow
  exact ⟨i, keep es _ hst.good (fun x hx => hl x (List.mem_cons_of_mem _ hx)) e.path i h1 (fun x hx => (hn x hx).1),
    keep es _ hst.good (fun x hx => hl x (List.mem_cons_of_mem _ hx)) t i h2 (fun x hx => (hn x hx).2)⟩

end Verif
