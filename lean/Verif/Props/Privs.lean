import Verif.Lemmas.Privs

/-!
# C113: burp runs as the user and the group that it is told to run as, or not at all
-/

namespace Verif
open Privs

/-- Started by root and told to run as a user, burp goes on as that user with no capability left, or does
not go on. -/
theorem C113_user (s : Site) (c d : Cred) (u : Str) (g : Option Str) (p : Passwd)
    (hr : Root c) (hu : s.pwnam u = some p) (h0 : p.uid ≠ 0)
    (h : start s ⟨some u, g, false⟩ c = some d) : UserIs d p.uid ∧ Powerless d := by
  rcases change_cases (start_some h) with ⟨h1, _⟩ | ⟨_, q, gid, h1, h2, h3⟩
  · cases h1
  · have hq : q.uid = p.uid := by
      simp [lookupUser, askedUser, hu] at h1
      rw [← h1]
    rw [← hq]
    exact (root_plain hr h3).2.2.2.1 (by rw [hq]; exact h0)

/-- Started by root and told to run as a group, burp goes on with that group, or does not go on. -/
theorem C113_group (s : Site) (c d : Cred) (a : Ask) (g : Str) (gid : Nat)
    (hr : Root c) (hc : GroupIs c c.rgid) (ha : a.group = some g) (hg : s.grnam g = some gid)
    (h : start s a c = some d) : GroupIs d gid := by
  obtain ⟨u, ag, ra⟩ := a
  simp only at ha
  subst ha
  rcases change_cases (start_some h) with ⟨_, h1, _⟩ | ⟨_, q, gid', h1, h2, h3⟩
  · cases h1
  · have hq : gid' = gid := by
      simp only [lookupGroup] at h2
      rw [hg] at h2
      injection h2 with h2
      exact h2.symm
    subst hq
    cases ra with
    | false =>
      obtain ⟨_, hrg, hgi, _⟩ := root_plain hr h3
      have := hgi hc
      rw [hrg] at this
      exact this
    | true =>
      obtain ⟨_, hrg, hgi, _⟩ := root_read hr h3
      have := hgi hc
      rw [hrg] at this
      exact this

/-- Started by root and told a user and a group, burp runs as that user with that group and the groups that
the user is a member of, and nothing else; provided that the group is not the one that it was started with.
Missing: that group (`C113_groups_kept_violated`), a user without a group
(`C113_user_only_violated`). -/
theorem C113_runs_partial (s : Site) (c d : Cred) (u g : Str) (p : Passwd) (gid : Nat)
    (hr : Root c) (hc : GroupIs c c.rgid) (hu : s.pwnam u = some p) (h0 : p.uid ≠ 0)
    (hg : s.grnam g = some gid) (hn : gid ≠ c.rgid)
    (h : start s ⟨some u, some g, false⟩ c = some d) : RunsAs s d u p.uid gid := by
  obtain ⟨h1, h2⟩ := C113_user s c d u (some g) p hr hu h0 h
  have h3 := C113_group s c d ⟨some u, some g, false⟩ g gid hr hc rfl hg h
  refine ⟨h1, h3, h2, ?_⟩
  rcases change_cases (start_some h) with ⟨h1, _⟩ | ⟨_, q, gid', hq, hq', hst⟩
  · cases h1
  · have hgg : gid' = gid := by
      simp only [lookupGroup] at hq'
      rw [hg] at hq'
      injection hq' with h2
      exact h2.symm
    subst hgg
    have hqn : q.name = u := by
      simp [lookupUser, askedUser, hu] at hq
      rw [← hq]
    intro x
    rw [(root_plain hr hst).1, if_pos hn, hqn, List.mem_cons]

/-- With `readall` the client runs as the user, or as nobody if none is set, and has no capability but that
to read everything. -/
theorem C113_readall (s : Site) (c d : Cred) (u g : Option Str) (p : Passwd)
    (hr : Root c) (hu : s.pwnam (u.getD (bytes "nobody")) = some p) (h0 : p.uid ≠ 0)
    (h : start s ⟨u, g, true⟩ c = some d) :
    UserIs d p.uid ∧ d.permitted = .read ∧ d.effective = .read := by
  have hask : askedUser ⟨u, g, true⟩ = some (u.getD (bytes "nobody")) := by
    cases u <;> rfl
  rcases change_cases (start_some h) with ⟨h1, _⟩ | ⟨_, q, gid, h1, h2, h3⟩
  · rw [hask] at h1; cases h1
  · rw [hask] at h1
    have hq : q.uid = p.uid := by
      simp only [lookupUser, hu] at h1
      injection h1 with h1
      rw [← h1]
    rw [← hq]
    exact (root_read hr h3).2.2.2 (by rw [hq]; exact h0)

/-- There is no way back: whatever calls the process makes afterwards, its user, its group and its groups
stay what they are. -/
theorem C113_no_return (s : Site) (c d : Cred) (a : Ask) (u : Str) (p : Passwd) (ks : List Call)
    (hr : Root c) (ha : a.user = some u) (hu : s.pwnam u = some p) (h0 : p.uid ≠ 0)
    (h : start s a c = some d) : SameIds d (later d ks) ∧ (later d ks).effective ≠ .all := by
  obtain ⟨au, g, ra⟩ := a
  simp only at ha
  subst ha
  have hs : Settled p.uid d := by
    cases ra with
    | false =>
      obtain ⟨h1, h2, h3⟩ := C113_user s c d u g p hr hu h0 h
      exact ⟨h1, by rw [h2]; exact (by decide), by rw [h3]; exact (by decide)⟩
    | true =>
      obtain ⟨h1, h2, h3⟩ := C113_readall s c d (some u) g p hr hu h0 h
      exact ⟨h1, by rw [h2]; exact (by decide), by rw [h3]; exact (by decide)⟩
  obtain ⟨h1, h2⟩ := settled_later h0 ks hs
  exact ⟨h2, h1.2.2⟩

/-- Told nothing, burp changes nothing. -/
theorem C113_not_asked (s : Site) (c : Cred) : start s ⟨none, none, false⟩ c = some c := rfl

/-- Burp does not go on if there is no such user or no such group, and nothing has changed then. -/
theorem C113_unknown (s : Site) (c : Cred) (a : Ask)
    (h : (∃ u, a.user = some u ∧ s.pwnam u = none) ∨ (∃ g, a.group = some g ∧ s.grnam g = none)) :
    start s a c = none ∧ (change s a c).2 = c := by
  have hne : ¬ (((askedUser a).isNone && a.group.isNone) = true) := by
    rcases h with ⟨u, h1, _⟩ | ⟨g, h1, _⟩
    · simp [askedUser, h1]
    · simp [h1]
  have key : change s a c = (false, c) := by
    unfold change
    rw [if_neg hne]
    cases hl : lookupUser s (askedUser a) c with
    | none => rfl
    | some p =>
      simp only
      rcases h with ⟨u, h1, h2⟩ | ⟨g, h1, h2⟩
      · simp [lookupUser, askedUser, h1, h2] at hl
      · simp only [lookupGroup, h1, h2]
  constructor
  · unfold start; rw [key]; rfl
  · rw [key]

/-- A client of an ordinary user is not refused what the user has already, and cannot be told to run as
anybody else. -/
theorem C113_ordinary (s : Site) (c d : Cred) (u g : Option Str)
    (h0 : c.ruid ≠ 0) (hc : UserIs c c.ruid) (hp : Powerless c)
    (h : start s ⟨u, g, false⟩ c = some d) :
    d = c ∧ (∀ n p, u = some n → s.pwnam n = some p → p.uid = c.ruid)
      ∧ (∀ n gid, g = some n → s.grnam n = some gid → gid = c.rgid) := by
  have hs : Settled c.ruid c := ⟨hc, by rw [hp.1]; exact (by decide), by rw [hp.2]; exact (by decide)⟩
  rcases change_cases (start_some h) with ⟨h1, h2, h3⟩ | ⟨_, q, gid, h1, h2, h3⟩
  · simp [askedUser] at h1
    simp only at h2
    subst h1 h2
    exact ⟨h3, (fun _ _ h => by cases h), (fun _ _ h => by cases h)⟩
  · obtain ⟨e1, e2, e3⟩ := settled_change h0 hs h3
    refine ⟨e3, ?_, ?_⟩
    · rintro n p rfl hn
      simp [lookupUser, askedUser, hn] at h1
      rw [← e1, ← h1]
    · rintro n x rfl hn
      simp only [lookupGroup, hn] at h2
      injection h2 with h2
      exact h2.trans e2

/-- An ordinary user who names themselves and their own group is served. -/
theorem C113_ordinary_served (s : Site) (c : Cred) (u g : Str) (p : Passwd)
    (hu : s.pwnam u = some p) (hp : p.uid = c.ruid) (hg : s.grnam g = some c.rgid) :
    start s ⟨some u, some g, false⟩ c = some c := by
  have : change s ⟨some u, some g, false⟩ c = (true, c) := by
    simp [change, askedUser, lookupUser, lookupGroup, hu, hg, steps, runSteps, hp]
  unfold start
  rw [this]
  rfl

/-- The process for a client runs as the user of that client, which is the one of the server if it has none
of its own, or the client is refused. -/
theorem C113_child_user (s : Site) (c d : Cred) (su sg cu cg : Option Str) (u : Str) (p : Passwd)
    (hr : Root c) (hi : (if cu.isSome then cu else su) = some u) (hu : s.pwnam u = some p)
    (h0 : p.uid ≠ 0) (h : serve s su sg cu cg c = some d) : UserIs d p.uid ∧ Powerless d := by
  obtain ⟨m, hm, hch⟩ := serve_some h
  have hi' : inherited su cu = some u := hi
  -- what the main process is
  have hmain : Root m ∨ ∃ v, v ≠ 0 ∧ UserIs m v ∧ Powerless m := by
    rcases change_cases (start_some hm) with ⟨_, _, h3⟩ | ⟨_, q, gid, h1, h2, h3⟩
    · left; rw [h3]; exact hr
    · obtain ⟨_, _, _, e4, e5⟩ := root_plain hr h3
      by_cases hq : q.uid = 0
      · exact Or.inl (e5 hq)
      · exact Or.inr ⟨q.uid, hq, e4 hq⟩
  rcases child_some hch with ⟨ha, rfl⟩ | ⟨ha, hc⟩
  · -- the server already runs as this user
    have hsu : su = some u := by
      rw [hi'] at ha
      simp [again] at ha
      cases su with
      | none => simp at ha
      | some v => simpa using ha.1
    subst hsu
    exact C113_user s c d u sg p hr hu h0 hm
  · rcases hmain with hroot | ⟨v, hv, hvu, hvp⟩
    · refine C113_user s m d u (inherited sg cg) p hroot hu h0 ?_
      rw [hi'] at hc
      unfold start
      rw [hc]
      rfl
    · rcases change_cases hc with ⟨h1, _⟩ | ⟨_, q, gid, h1, h2, h3⟩
      · rw [hi'] at h1; cases h1
      · have hs : Settled v m :=
          ⟨hvu, by rw [hvp.1]; exact (by decide), by rw [hvp.2]; exact (by decide)⟩
        obtain ⟨e1, _, e3⟩ := settled_change hv hs h3
        rw [hi'] at h1
        simp [lookupUser, askedUser, hu] at h1
        have : p.uid = v := by rw [← e1, ← h1]
        rw [e3, this]
        exact ⟨hvu, hvp⟩

/-- If the server has a user and a group and the client none of its own, the process for the client is left
as the server is. -/
theorem C113_child_same (s : Site) (c : Cred) (u g : Str) :
    serve s (some u) (some g) none none c = start s ⟨some u, some g, false⟩ c := by
  unfold serve
  cases start s ⟨some u, some g, false⟩ c with
  | none => rfl
  | some m => simp [child, inherited, again]

/-- If the server has neither, and the client has a user and a group, the process for the client runs as
that user and group. Missing: as in `C113_runs_partial`; and a server that has given up root
(`C113_override_violated`). -/
theorem C113_child_own_partial (s : Site) (c d : Cred) (u g : Str) (p : Passwd) (gid : Nat)
    (hr : Root c) (hc : GroupIs c c.rgid) (hu : s.pwnam u = some p) (h0 : p.uid ≠ 0)
    (hg : s.grnam g = some gid) (hn : gid ≠ c.rgid)
    (h : serve s none none (some u) (some g) c = some d) : RunsAs s d u p.uid gid := by
  refine C113_runs_partial s c d u g p gid hr hc hu h0 hg hn ?_
  rw [← h]
  rfl

/-- C113 fails for a user without a group: burp goes on as the user with the group it was started with,
that of root, although the user has a group. -/
theorem C113_user_only_violated (s : Site) (c d : Cred) (u : Str)
    (hr : Root c) (hc : GroupIs c 0) (h : start s ⟨some u, none, false⟩ c = some d) :
    GroupIs d 0 := by
  rcases change_cases (start_some h) with ⟨h1, _⟩ | ⟨_, q, gid, h1, h2, h3⟩
  · cases h1
  · obtain ⟨_, hrg, hgi, _⟩ := root_plain hr h3
    have h0 : c.rgid = 0 := hc.1
    have := hgi (by rw [h0]; exact hc)
    rw [hrg] at this
    simp only [Option.isSome_none, Bool.false_eq_true, if_false, h0] at this
    exact this

/-- C113 fails on a server with a user and no group: every client without settings of its own is refused,
because its process asks again for the groups, now without the right to. -/
theorem C113_user_only_server_violated (s : Site) (c : Cred) (u : Str) (p : Passwd)
    (hr : Root c) (hu : s.pwnam u = some p) (h0 : p.uid ≠ 0) (hg : p.gid ≠ c.rgid) :
    serve s (some u) none none none c = none := by
  cases hsv : serve s (some u) none none none c with
  | none => rfl
  | some d =>
    exfalso
    obtain ⟨m, hm, hch⟩ := serve_some hsv
    obtain ⟨hmu, hmp⟩ := C113_user s c m u none p hr hu h0 hm
    have hs : Settled p.uid m :=
      ⟨hmu, by rw [hmp.1]; exact (by decide), by rw [hmp.2]; exact (by decide)⟩
    have hmg : m.rgid = c.rgid := by
      rcases change_cases (start_some hm) with ⟨h1, _⟩ | ⟨_, q, gid, _, _, h3⟩
      · cases h1
      · have := (root_plain hr h3).2.1
        simpa using this
    rcases child_some hch with ⟨ha, _⟩ | ⟨_, hc⟩
    · simp [again, inherited] at ha
    · rcases change_cases hc with ⟨h1, _⟩ | ⟨_, q, gid, h1, h2, h3⟩
      · cases h1
      · obtain ⟨_, e2, _⟩ := settled_change h0 hs h3
        simp [lookupUser, askedUser, inherited, hu] at h1
        have h2' : (if s.grgid q.gid then some q.gid else none) = some gid := h2
        split at h2'
        · injection h2' with h2'
          apply hg
          rw [← hmg, ← e2, ← h2', ← h1]
        · cases h2'

/-- C113 fails if the group is the one that burp was started with: burp goes on as the user and still is in
all the groups of root. -/
theorem C113_groups_kept_violated (s : Site) (c d : Cred) (u g : Str)
    (hr : Root c) (hg : s.grnam g = some c.rgid)
    (h : start s ⟨some u, some g, false⟩ c = some d) : d.groups = c.groups := by
  rcases change_cases (start_some h) with ⟨h1, _⟩ | ⟨_, q, gid, h1, h2, h3⟩
  · cases h1
  · have := (root_plain hr h3).1
    simp only [lookupGroup, hg] at h2
    injection h2 with h2
    rw [this, if_neg (fun hn => hn h2.symm)]

/-- C113 fails for a client with a user of its own on a server with a group: the process for the client
takes the user and keeps the groups of root. -/
theorem C113_child_groups_violated (s : Site) (c d m : Cred) (u g : Str) (gid : Nat)
    (hr : Root c) (hc : GroupIs c c.rgid) (hg : s.grnam g = some gid)
    (hroot : ∀ p, s.pwuid 0 = some p → p.uid = 0)
    (hm : start s ⟨none, some g, false⟩ c = some m)
    (h : serve s none (some g) (some u) none c = some d) : d.groups = m.groups := by
  obtain ⟨m', hm', hch⟩ := serve_some h
  rw [hm] at hm'
  injection hm' with hm'
  subst hm'
  have hmr : Root m := by
    rcases change_cases (start_some hm) with ⟨_, h1, _⟩ | ⟨_, q, gid', h1, _, h3⟩
    · cases h1
    · refine (root_plain hr h3).2.2.2.2 (hroot q ?_)
      simp only [lookupUser, askedUser] at h1
      simpa [hr.1] using h1
  have hmg := C113_group s c m ⟨none, some g, false⟩ g gid hr hc rfl hg hm
  refine C113_groups_kept_violated s m d u g hmr (by rw [hmg.1]; exact hg) ?_
  simp only [child, inherited, again, Option.isSome_some, Option.isSome_none, Option.isNone_none,
    Bool.true_or, if_true, Bool.false_eq_true, if_false] at hch
  exact hch

/-- C113 fails for a client whose user differs from that of the server, which the manual says can be
overridden: once the server has given up root every such client is refused. -/
theorem C113_override_violated (s : Site) (c : Cred) (u v : Str) (sg cg : Option Str) (p q : Passwd)
    (hr : Root c) (hu : s.pwnam u = some p) (h0 : p.uid ≠ 0) (hv : s.pwnam v = some q)
    (hn : q.uid ≠ p.uid) :
    serve s (some u) sg (some v) cg c = none := by
  cases hsv : serve s (some u) sg (some v) cg c with
  | none => rfl
  | some d =>
    exfalso
    obtain ⟨m, hm, hch⟩ := serve_some hsv
    obtain ⟨hmu, hmp⟩ := C113_user s c m u sg p hr hu h0 hm
    have hs : Settled p.uid m :=
      ⟨hmu, by rw [hmp.1]; exact (by decide), by rw [hmp.2]; exact (by decide)⟩
    have huv : u ≠ v := by
      rintro rfl
      rw [hu] at hv
      injection hv with hv
      exact hn (by rw [hv])
    rcases child_some hch with ⟨ha, _⟩ | ⟨_, hc⟩
    · simp [again, inherited, huv] at ha
    · rcases change_cases hc with ⟨h1, _⟩ | ⟨_, r, gid, h1, h2, h3⟩
      · cases h1
      · obtain ⟨e1, _⟩ := settled_change h0 hs h3
        simp [lookupUser, askedUser, inherited, hv] at h1
        apply hn
        rw [← e1, ← h1]

/-- C113 fails for a program with the rights of another user: only the real ids are looked at, so a user
who runs it with the rights of root and is the user of the configuration keeps them. -/
theorem C113_effective_violated (s : Site) (c : Cred) (u g : Str) (p : Passwd)
    (hu : s.pwnam u = some p) (hp : p.uid = c.ruid) (hg : s.grnam g = some c.rgid)
    (he : c.euid = 0) :
    ∃ d, start s ⟨some u, some g, false⟩ c = some d ∧ d.euid = 0 :=
  ⟨c, C113_ordinary_served s c u g p hu hp hg, he⟩

/-! ## A site -/

/-- Two users and their groups; the disk group (6) is one of those of root. -/
def privSite : Site where
  pwnam n :=
    if n = bytes "burp" then some ⟨bytes "burp", 109, 115⟩
    else if n = bytes "alice" then some ⟨bytes "alice", 1000, 1000⟩
    else if n = bytes "nobody" then some ⟨bytes "nobody", 65534, 65534⟩
    else if n = bytes "root" then some ⟨bytes "root", 0, 0⟩
    else none
  pwuid n := if n = 0 then some ⟨bytes "root", 0, 0⟩ else none
  grnam n :=
    if n = bytes "burp" then some 115
    else if n = bytes "staff" then some 50
    else if n = bytes "root" then some 0
    else none
  grgid _ := true
  memberOf n := if n = bytes "burp" then [26] else if n = bytes "root" then [6] else []
  canKeep := true
  fails _ := false

/-- A process of root. -/
def privRoot : Cred := ⟨0, 0, 0, 0, 0, 0, [0, 6], .all, .all, false⟩

example : Root privRoot ∧ GroupIs privRoot privRoot.rgid := by decide

/-- Both given: all is given up. -/
example : start privSite ⟨some (bytes "burp"), some (bytes "burp"), false⟩ privRoot
    = some ⟨109, 109, 109, 115, 115, 115, [115, 26], .none, .none, false⟩ := by decide

/-- With `readall` alone. -/
example : start privSite ⟨none, some (bytes "burp"), true⟩ privRoot
    = some ⟨65534, 65534, 65534, 115, 115, 115, [115], .read, .read, true⟩ := by decide

/-- There is no way back from either. -/
example : later ⟨109, 109, 109, 115, 115, 115, [115, 26], .none, .none, false⟩
    [.setuid 0, .setreuid 0 0, .capset .all, .setgid 0, .setgroups [0]]
    = ⟨109, 109, 109, 115, 115, 115, [115, 26], .none, .none, false⟩ := by decide

/-- A user alone: the group of root is kept. -/
example : start privSite ⟨some (bytes "burp"), none, false⟩ privRoot
    = some ⟨109, 109, 109, 0, 0, 0, [115, 26], .none, .none, false⟩ := by decide

/-- ... and no client is served. -/
example : serve privSite (some (bytes "burp")) none none none privRoot = none := by decide

/-- The group of root: the disk group is kept. -/
example : start privSite ⟨some (bytes "burp"), some (bytes "root"), false⟩ privRoot
    = some ⟨109, 109, 109, 0, 0, 0, [0, 6], .none, .none, false⟩ := by decide

/-- A server with a group and a client with a user: the disk group is kept. -/
example : start privSite ⟨none, some (bytes "staff"), false⟩ privRoot
      = some ⟨0, 0, 0, 50, 50, 50, [50, 6], .all, .all, false⟩
    ∧ serve privSite none (some (bytes "staff")) (some (bytes "alice")) none privRoot
      = some ⟨1000, 1000, 1000, 50, 50, 50, [50, 6], .none, .none, false⟩ := by decide

/-- A client of a server that is root. -/
example : serve privSite none none (some (bytes "burp")) (some (bytes "burp")) privRoot
    = some ⟨109, 109, 109, 115, 115, 115, [115, 26], .none, .none, false⟩ := by decide

/-- Another user than that of the server. -/
example : serve privSite (some (bytes "burp")) (some (bytes "burp")) (some (bytes "alice")) none privRoot
    = none := by decide

/-- A user who is not root, with themselves and with another. -/
example : start privSite ⟨some (bytes "alice"), none, false⟩
      ⟨1000, 1000, 1000, 1000, 1000, 1000, [], .none, .none, false⟩
      = some ⟨1000, 1000, 1000, 1000, 1000, 1000, [], .none, .none, false⟩
    ∧ start privSite ⟨some (bytes "burp"), none, false⟩
      ⟨1000, 1000, 1000, 1000, 1000, 1000, [], .none, .none, false⟩ = none := by decide

/-- A program that is made to run with the rights of root. -/
example : start privSite ⟨some (bytes "burp"), some (bytes "burp"), false⟩
    ⟨109, 0, 0, 115, 115, 115, [], .all, .all, false⟩
    = some ⟨109, 0, 0, 115, 115, 115, [], .all, .all, false⟩ := by decide

/-- No such user, no such group. -/
example : start privSite ⟨some (bytes "bob"), none, false⟩ privRoot = none
    ∧ start privSite ⟨some (bytes "burp"), some (bytes "nil"), false⟩ privRoot = none := by decide

end Verif
