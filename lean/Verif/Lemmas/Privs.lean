import Verif.Spec.Privs

/-! Helper lemmas for `Verif/Props/Privs.lean`. -/

namespace Verif.Privs

/-- One step that did not fail. -/
def Took (s : Site) (c : Cred) (k : Option Call) (c' : Cred) : Prop :=
  (k = none ∧ c' = c) ∨ ∃ x, k = some x ∧ s.fails x = false ∧ call c x = some c'

theorem runSteps_cons {s : Site} {c d : Cred} {f : Cred → Option Call} {fs}
    (h : runSteps s c (f :: fs) = (true, d)) :
    ∃ c', Took s c (f c) c' ∧ runSteps s c' fs = (true, d) := by
  cases hf : f c with
  | none => rw [runSteps, hf] at h; exact ⟨c, Or.inl ⟨rfl, rfl⟩, h⟩
  | some k =>
    rw [runSteps, hf] at h
    simp only at h
    by_cases hk : s.fails k = true
    · rw [if_pos hk] at h; cases h
    · rw [if_neg hk] at h
      cases hc : call c k with
      | none => rw [hc] at h; cases h
      | some c' =>
        rw [hc] at h
        exact ⟨c', Or.inr ⟨k, rfl, by simpa using hk, hc⟩, h⟩

theorem runSteps_nil {s : Site} {c d : Cred} (h : runSteps s c [] = (true, d)) : d = c := by
  cases h; rfl

theorem start_some {s : Site} {a : Ask} {c d : Cred} (h : start s a c = some d) :
    change s a c = (true, d) := by
  unfold start at h
  by_cases hc : (change s a c).1 = true
  · rw [if_pos hc] at h
    injection h with h
    rw [← h, ← hc]
  · rw [if_neg hc] at h; cases h

theorem change_cases {s : Site} {a : Ask} {c d : Cred} (h : change s a c = (true, d)) :
    (askedUser a = none ∧ a.group = none ∧ d = c) ∨
    ((askedUser a ≠ none ∨ a.group ≠ none) ∧ ∃ p gid, lookupUser s (askedUser a) c = some p ∧ lookupGroup s a.group p = some gid
      ∧ runSteps s c (steps s a p gid) = (true, d)) := by
  unfold change at h
  by_cases hn : ((askedUser a).isNone && a.group.isNone) = true
  · rw [if_pos hn] at h
    cases h
    simp at hn
    exact Or.inl ⟨hn.1, hn.2, rfl⟩
  · rw [if_neg hn] at h
    refine Or.inr ⟨?_, ?_⟩
    · by_cases h1 : askedUser a = none
      · right; intro h2; apply hn; simp [h1, h2]
      · exact Or.inl h1
    cases hu : lookupUser s (askedUser a) c with
    | none => rw [hu] at h; cases h
    | some p =>
      rw [hu] at h
      simp only at h
      cases hg : lookupGroup s a.group p with
      | none => rw [hg] at h; cases h
      | some gid =>
        rw [hg] at h
        simp only at h
        split at h
        · cases h
        · exact ⟨p, gid, rfl, hg, h⟩

theorem steps_plain {s : Site} {u g : Option Str} {p : Passwd} {gid : Nat} {c d : Cred}
    (h : runSteps s c (steps s ⟨u, g, false⟩ p gid) = (true, d)) :
    ∃ c1 c2,
      Took s c (if gid ≠ c.rgid then some (.setgroups (gid :: s.memberOf p.name)) else none) c1
      ∧ Took s c1 (if g.isSome ∧ gid ≠ c1.rgid then some (.setgid gid) else none) c2
      ∧ Took s c2 (if p.uid ≠ c2.ruid then some (.setuid p.uid) else none) d := by
  unfold steps at h
  obtain ⟨c1, h1, h⟩ := runSteps_cons h
  obtain ⟨c2, h2, h⟩ := runSteps_cons h
  obtain ⟨c3, h3, h⟩ := runSteps_cons h
  have := runSteps_nil h
  subst this
  exact ⟨c1, c2, h1, h2, h3⟩

theorem steps_read {s : Site} {u g : Option Str} {p : Passwd} {gid : Nat} {c d : Cred}
    (h : runSteps s c (steps s ⟨u, g, true⟩ p gid) = (true, d)) :
    ∃ c1 c2 c3 c4,
      Took s c (if gid ≠ c.rgid then some (.setgroups (gid :: s.memberOf p.name)) else none) c1
      ∧ Took s c1 (if g.isSome ∧ gid ≠ c1.rgid then some (.setgid gid) else none) c2
      ∧ Took s c2 (some .keepCaps) c3
      ∧ Took s c3 (some (.setreuid p.uid p.uid)) c4
      ∧ Took s c4 (some (.capset .read)) d := by
  unfold steps at h
  obtain ⟨c1, h1, h⟩ := runSteps_cons h
  obtain ⟨c2, h2, h⟩ := runSteps_cons h
  obtain ⟨c3, h3, h⟩ := runSteps_cons h
  obtain ⟨c4, h4, h⟩ := runSteps_cons h
  obtain ⟨c5, h5, h⟩ := runSteps_cons h
  have := runSteps_nil h
  subst this
  exact ⟨c1, c2, c3, c4, h1, h2, h3, h4, h5⟩

theorem took_some {s : Site} {c d : Cred} {k : Call} (h : Took s c (some k) d) :
    call c k = some d := by
  rcases h with ⟨h, _⟩ | ⟨x, h, _, hc⟩
  · cases h
  · injection h with h; subst h; exact hc

theorem took_if {s : Site} {c d : Cred} {P : Prop} [Decidable P] {k : Call}
    (h : Took s c (if P then some k else none) d) :
    (¬ P ∧ d = c) ∨ (P ∧ call c k = some d) := by
  by_cases hp : P
  · rw [if_pos hp] at h; exact Or.inr ⟨hp, took_some h⟩
  · rw [if_neg hp] at h
    rcases h with ⟨_, h⟩ | ⟨x, h, _⟩
    · exact Or.inl ⟨hp, h⟩
    · cases h

/-- The list of groups is all that the first step may change. -/
theorem first_step {s : Site} {c c1 : Cred} {gid : Nat} {gs : List Nat}
    (h : Took s c (if gid ≠ c.rgid then some (.setgroups gs) else none) c1) :
    (gid = c.rgid ∧ c1 = c) ∨ (gid ≠ c.rgid ∧ c.effective = .all ∧ c1 = { c with groups := gs }) := by
  rcases took_if h with ⟨h, rfl⟩ | ⟨hp, h⟩
  · exact Or.inl ⟨Decidable.not_not.1 h, rfl⟩
  · simp only [call] at h
    by_cases he : c.effective = .all
    · rw [if_pos he] at h; injection h with h; exact Or.inr ⟨hp, he, h.symm⟩
    · rw [if_neg he] at h; cases h

/-- The ids of the group are all that the second may change. -/
theorem second_step {s : Site} {c c1 : Cred} {gid : Nat} {P : Prop} [Decidable P]
    (h : Took s c (if P ∧ gid ≠ c.rgid then some (.setgid gid) else none) c1) :
    (¬ (P ∧ gid ≠ c.rgid) ∧ c1 = c)
    ∨ (P ∧ gid ≠ c.rgid ∧ c.effective = .all ∧ c1 = { c with rgid := gid, egid := gid, sgid := gid })
    ∨ (P ∧ gid ≠ c.rgid ∧ c.effective ≠ .all ∧ gid = c.sgid ∧ c1 = { c with egid := gid }) := by
  rcases took_if h with ⟨h, rfl⟩ | ⟨hp, h⟩
  · exact Or.inl ⟨h, rfl⟩
  · simp only [call] at h
    by_cases he : c.effective = .all
    · rw [if_pos he] at h; injection h with h; exact Or.inr (Or.inl ⟨hp.1, hp.2, he, h.symm⟩)
    · rw [if_neg he] at h
      by_cases hg : gid = c.rgid ∨ gid = c.sgid
      · rw [if_pos hg] at h; injection h with h
        exact Or.inr (Or.inr ⟨hp.1, hp.2, he, hg.resolve_left hp.2, h.symm⟩)
      · rw [if_neg hg] at h; cases h

/-- Giving up root. -/
theorem setuid_root {c d : Cred} {u : Nat} (hr : Root c) (hu : u ≠ 0)
    (h : call c (.setuid u) = some d) :
    d = { c with ruid := u, euid := u, suid := u, permitted := .none, effective := .none } := by
  obtain ⟨h1, h2, h3, h4, h5, h6⟩ := hr
  simp [call, h5, fixCaps, h1, h2, h3, h6, hu] at h
  rw [h6]
  exact h.symm

theorem setuid_powerless {c d : Cred} {u v : Nat} (hv : v ≠ 0) (hc : UserIs c v)
    (hp : c.effective ≠ .all) (h : call c (.setuid u) = some d) : u = v ∧ d = c := by
  obtain ⟨h1, h2, h3⟩ := hc
  by_cases hu : u = v
  · subst hu
    refine ⟨rfl, ?_⟩
    simp [call, hp, h1, h3, fixCaps, h2, hv] at h
    rw [← h]; cases c; simp_all
  · exfalso
    simp [call, hp, h1, h3, hu] at h

theorem root_groups {c : Cred} (hr : Root c) (gs : List Nat) : Root { c with groups := gs } := hr

theorem root_gid {c : Cred} (hr : Root c) (g : Nat) :
    Root { c with rgid := g, egid := g, sgid := g } := hr

/-- After the two steps for the groups root is still root. -/
theorem root_two {s : Site} {c c1 c2 : Cred} {gid : Nat} {gs : List Nat} {P : Prop} [Decidable P]
    (hr : Root c)
    (h1 : Took s c (if gid ≠ c.rgid then some (.setgroups gs) else none) c1)
    (h2 : Took s c1 (if P ∧ gid ≠ c1.rgid then some (.setgid gid) else none) c2) :
    Root c1 ∧ Root c2
    ∧ c2.groups = (if gid ≠ c.rgid then gs else c.groups)
    ∧ c2.rgid = (if P then gid else c.rgid)
    ∧ (GroupIs c c.rgid → GroupIs c2 c2.rgid) := by
  have hr1 : Root c1 ∧ c1.groups = (if gid ≠ c.rgid then gs else c.groups) ∧ c1.rgid = c.rgid
      ∧ c1.egid = c.egid ∧ c1.sgid = c.sgid := by
    rcases first_step h1 with ⟨hg, rfl⟩ | ⟨hg, _, rfl⟩
    · exact ⟨hr, by rw [if_neg (fun h => h hg)], rfl, rfl, rfl⟩
    · exact ⟨hr, by rw [if_pos hg], rfl, rfl, rfl⟩
  obtain ⟨hr1, hgs, hrg, heg, hsg⟩ := hr1
  refine ⟨hr1, ?_⟩
  rcases second_step h2 with ⟨hn, rfl⟩ | ⟨hp, _, _, rfl⟩ | ⟨_, _, he, _⟩
  · refine ⟨hr1, hgs, ?_, ?_⟩
    · by_cases hp : P
      · rw [if_pos hp]
        by_cases hg : gid = c2.rgid
        · exact hg.symm
        · exact absurd ⟨hp, hg⟩ hn
      · rw [if_neg hp, hrg]
    · rintro ⟨_, h2, h3⟩
      refine ⟨rfl, ?_, ?_⟩
      · rw [heg, hrg]; exact h2
      · rw [hsg, hrg]; exact h3
  · exact ⟨hr1, hgs, by rw [if_pos hp], fun _ => ⟨rfl, rfl, rfl⟩⟩
  · exact absurd hr1.2.2.2.2.1 he

/-- What root becomes, without `readall`. -/
theorem root_plain {s : Site} {u g : Option Str} {p : Passwd} {gid : Nat} {c d : Cred}
    (hr : Root c) (h : runSteps s c (steps s ⟨u, g, false⟩ p gid) = (true, d)) :
    d.groups = (if gid ≠ c.rgid then gid :: s.memberOf p.name else c.groups)
    ∧ d.rgid = (if g.isSome then gid else c.rgid)
    ∧ (GroupIs c c.rgid → GroupIs d d.rgid)
    ∧ (p.uid ≠ 0 → UserIs d p.uid ∧ Powerless d)
    ∧ (p.uid = 0 → Root d) := by
  obtain ⟨c1, c2, h1, h2, h3⟩ := steps_plain h
  obtain ⟨_, hr2, hgs, hrg, hgi⟩ := root_two hr h1 h2
  have h0 : c2.ruid = 0 := hr2.1
  rcases took_if h3 with ⟨hn, rfl⟩ | ⟨hp, hc⟩
  · have : p.uid = 0 := by rw [h0] at hn; exact Decidable.not_not.1 hn
    exact ⟨hgs, hrg, hgi, fun h => absurd this h, fun _ => hr2⟩
  · rw [h0] at hp
    have := setuid_root hr2 hp hc
    subst this
    exact ⟨hgs, hrg, hgi, fun _ => ⟨⟨rfl, rfl, rfl⟩, rfl, rfl⟩, fun h => absurd h hp⟩

theorem setreuid_root {c d e : Cred} {u : Nat} (hr : Root c) (hu : u ≠ 0)
    (h : call c .keepCaps = some d) (h' : call d (.setreuid u u) = some e) :
    e = { c with ruid := u, euid := u, suid := u, effective := .none, keep := true } := by
  obtain ⟨h1, h2, h3, h4, h5, h6⟩ := hr
  simp only [call] at h
  injection h with h
  subst h
  simp [call, h5, fixCaps, h2, hu] at h'
  exact h'.symm

/-- What root becomes with `readall`. -/
theorem root_read {s : Site} {u g : Option Str} {p : Passwd} {gid : Nat} {c d : Cred}
    (hr : Root c) (h : runSteps s c (steps s ⟨u, g, true⟩ p gid) = (true, d)) :
    d.groups = (if gid ≠ c.rgid then gid :: s.memberOf p.name else c.groups)
    ∧ d.rgid = (if g.isSome then gid else c.rgid)
    ∧ (GroupIs c c.rgid → GroupIs d d.rgid)
    ∧ (p.uid ≠ 0 → UserIs d p.uid ∧ d.permitted = .read ∧ d.effective = .read) := by
  obtain ⟨c1, c2, c3, c4, h1, h2, h3, h4, h5⟩ := steps_read h
  obtain ⟨_, hr2, hgs, hrg, hgi⟩ := root_two hr h1 h2
  have h3 := took_some h3
  have h4 := took_some h4
  have h5 := took_some h5
  have hd : d = { c4 with permitted := .read, effective := .read } := by
    simp only [call] at h5
    split at h5
    · injection h5 with h5; exact h5.symm
    · cases h5
  have hc3 : c3 = { c2 with keep := true } := by
    simp only [call] at h3; injection h3 with h3; exact h3.symm
  have hc4 : c4.groups = c2.groups ∧ c4.rgid = c2.rgid ∧ c4.egid = c2.egid ∧ c4.sgid = c2.sgid := by
    simp only [call] at h4
    split at h4
    · injection h4 with h4
      rw [← h4, hc3]
      unfold fixCaps
      refine ⟨?_, ?_, ?_, ?_⟩ <;> (dsimp only; repeat' split) <;> rfl
    · cases h4
  refine ⟨?_, ?_, ?_, ?_⟩
  · rw [hd]; exact hc4.1.trans hgs
  · rw [hd]; exact hc4.2.1.trans hrg
  · intro hg
    obtain ⟨_, g2, g3⟩ := hgi hg
    rw [hd]
    refine ⟨rfl, ?_, ?_⟩
    · exact hc4.2.2.1.trans (g2.trans hc4.2.1.symm)
    · exact hc4.2.2.2.trans (g3.trans hc4.2.1.symm)
  · intro hu
    have := setreuid_root hr2 hu h3 h4
    subst this
    subst hd
    exact ⟨⟨rfl, rfl, rfl⟩, rfl, rfl⟩

/-- A process that has no power over ids and runs as one user that is not root. -/
def Settled (u : Nat) (c : Cred) : Prop :=
  UserIs c u ∧ c.permitted ≠ .all ∧ c.effective ≠ .all

theorem settled_call {u : Nat} (hu : u ≠ 0) {c d : Cred} {k : Call} (hs : Settled u c)
    (h : call c k = some d) : Settled u d ∧ SameIds c d := by
  obtain ⟨⟨h1, h2, h3⟩, h4, h5⟩ := hs
  cases k with
  | setgroups gs => simp [call, h5] at h
  | setgid g =>
    simp only [call, if_neg h5] at h
    split at h
    · next hg =>
      injection h with h
      subst h
      refine ⟨⟨⟨h1, h2, h3⟩, h4, h5⟩, rfl, rfl, rfl, rfl, rfl, ?_, rfl⟩
      rcases hg with hg | hg
      · exact Or.inl hg
      · exact Or.inr (Or.inl hg)
    · cases h
  | setuid v =>
    obtain ⟨rfl, rfl⟩ := setuid_powerless hu ⟨h1, h2, h3⟩ h5 h
    exact ⟨⟨⟨h1, h2, h3⟩, h4, h5⟩, rfl, rfl, rfl, rfl, rfl, Or.inr (Or.inr rfl), rfl⟩
  | setreuid r e =>
    simp only [call] at h
    split at h
    · next hg =>
      have hg := hg.resolve_left h5
      have hre : r = u ∧ e = u := by
        rw [h1, h2, h3] at hg
        refine ⟨?_, ?_⟩
        · rcases hg.1 with h | h <;> exact h
        · rcases hg.2 with h | h | h <;> exact h
      obtain ⟨rfl, rfl⟩ := hre
      simp [fixCaps, h1, h2, h3, hu] at h
      subst h
      exact ⟨⟨⟨rfl, rfl, rfl⟩, h4, h5⟩, h1.symm, h2.symm, h3.symm, rfl, rfl,
        Or.inr (Or.inr rfl), rfl⟩
    · cases h
  | keepCaps =>
    simp only [call] at h
    injection h with h
    subst h
    exact ⟨⟨⟨h1, h2, h3⟩, h4, h5⟩, rfl, rfl, rfl, rfl, rfl, Or.inr (Or.inr rfl), rfl⟩
  | capset cs =>
    simp only [call] at h
    split at h
    · next hw =>
      injection h with h
      subst h
      have : cs ≠ .all := by
        rintro rfl
        cases hp : c.permitted with
        | none => rw [hp] at hw; cases hw
        | read => rw [hp] at hw; cases hw
        | all => exact h4 hp
      exact ⟨⟨⟨h1, h2, h3⟩, this, this⟩, rfl, rfl, rfl, rfl, rfl, Or.inr (Or.inr rfl), rfl⟩
    · cases h

theorem sameIds_trans {c d e : Cred} (h : SameIds c d) (h' : SameIds d e) : SameIds c e := by
  obtain ⟨a1, a2, a3, a4, a5, a6, a7⟩ := h
  obtain ⟨b1, b2, b3, b4, b5, b6, b7⟩ := h'
  refine ⟨b1.trans a1, b2.trans a2, b3.trans a3, b4.trans a4, b5.trans a5, ?_, b7.trans a7⟩
  rcases b6 with b | b | b
  · exact Or.inl (b.trans a4)
  · exact Or.inr (Or.inl (b.trans a5))
  · rw [b]; exact a6

theorem settled_later {u : Nat} (hu : u ≠ 0) (ks : List Call) : ∀ {c : Cred}, Settled u c →
    Settled u (later c ks) ∧ SameIds c (later c ks) := by
  induction ks with
  | nil => intro c hs; exact ⟨hs, rfl, rfl, rfl, rfl, rfl, Or.inr (Or.inr rfl), rfl⟩
  | cons k ks ih =>
    intro c hs
    rw [later]
    cases hk : call c k with
    | none => exact ih hs
    | some d =>
      obtain ⟨h1, h2⟩ := settled_call hu hs hk
      obtain ⟨h3, h4⟩ := ih h1
      exact ⟨h3, sameIds_trans h2 h4⟩

/-- A settled process can change to nobody else. -/
theorem settled_change {s : Site} {u : Nat} (hu : u ≠ 0) {ou og : Option Str} {p : Passwd}
    {gid : Nat} {c d : Cred} (hs : Settled u c)
    (h : runSteps s c (steps s ⟨ou, og, false⟩ p gid) = (true, d)) :
    p.uid = u ∧ gid = c.rgid ∧ d = c := by
  obtain ⟨c1, c2, h1, h2, h3⟩ := steps_plain h
  rcases first_step h1 with ⟨hg, rfl⟩ | ⟨_, he, _⟩
  · rcases second_step h2 with ⟨_, rfl⟩ | ⟨_, hn, _⟩ | ⟨_, hn, _⟩
    · rcases took_if h3 with ⟨hn, rfl⟩ | ⟨hn, hc⟩
      · exact ⟨(Decidable.not_not.1 hn).trans hs.1.1, hg, rfl⟩
      · obtain ⟨he, hd⟩ := setuid_powerless hu hs.1 hs.2.2 hc
        exact ⟨he, hg, hd⟩
    · exact absurd hg hn
    · exact absurd hg hn
  · exact absurd he hs.2.2

theorem child_some {s : Site} {su sg cu cg : Option Str} {c d : Cred}
    (h : child s su sg cu cg c = some d) :
    ((again su (inherited su cu) || again sg (inherited sg cg)) = false ∧ d = c) ∨
    ((again su (inherited su cu) || again sg (inherited sg cg)) = true
      ∧ change s ⟨inherited su cu, inherited sg cg, false⟩ c = (true, d)) := by
  simp only [child] at h
  by_cases ha : (again su (inherited su cu) || again sg (inherited sg cg)) = true
  · rw [if_pos ha] at h
    exact Or.inr ⟨ha, start_some h⟩
  · rw [if_neg ha] at h
    injection h with h
    exact Or.inl ⟨by simpa using ha, h.symm⟩

theorem serve_some {s : Site} {su sg cu cg : Option Str} {c d : Cred}
    (h : serve s su sg cu cg c = some d) :
    ∃ m, start s ⟨su, sg, false⟩ c = some m ∧ child s su sg cu cg m = some d := by
  unfold serve at h
  cases hm : start s ⟨su, sg, false⟩ c with
  | none => rw [hm] at h; cases h
  | some m => rw [hm] at h; exact ⟨m, rfl, h⟩

end Verif.Privs
