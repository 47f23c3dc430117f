import Verif.Spec.Children

/-!
# C72: no more clients and backups at the same time than are allowed
-/

namespace Verif
open Verif.Children

namespace Children

theorem len_le {α : Type} [DecidableEq α] (l m : List α) (h : l.Pairwise (· ≠ ·)) (hs : ∀ x ∈ l, x ∈ m) :
    l.length ≤ m.length := by
  induction l generalizing m with
  | nil => simp
  | cons a l ih =>
    rw [List.pairwise_cons] at h
    have ha : a ∈ m := hs a (by simp)
    have h1 := ih (m.erase a) h.2 (by
      intro x hx
      exact (List.mem_erase_of_ne (fun e => h.1 x hx e.symm)).2 (hs x (by simp [hx])))
    rw [List.length_erase_of_mem ha] at h1
    have := List.length_pos_of_mem ha
    simp only [List.length_cons]
    omega

theorem filter_and_lt {α : Type} (p q : α → Bool) (l : List α) (x : α) (hx : x ∈ l) (hp : p x = true) (hq : q x = false) :
    (l.filter (fun y => p y && q y)).length + 1 ≤ (l.filter p).length := by
  have mono : ∀ l : List α, (l.filter (fun y => p y && q y)).length ≤ (l.filter p).length := by
    intro l
    induction l with
    | nil => simp
    | cons y l ih =>
      rw [List.filter_cons, List.filter_cons]
      cases hy : p y <;> cases hz : q y <;> simp <;> omega
  induction l with
  | nil => simp at hx
  | cons y l ih =>
    rw [List.filter_cons, List.filter_cons]
    rcases List.mem_cons.1 hx with rfl | hx
    · have := mono l
      simp [hp, hq]; omega
    · have := ih hx
      cases hy : p y <;> cases hz : q y <;> simp <;> omega

/-- The entries of an address that belong to children. -/
def childFds (s : St) (a : Str) : List Fd := s.fds.filter (fun f => decide (f.listen = a) && f.pid.isSome)

/-- What holds in every state without a reload. -/
structure Inv (c : Conf) (s : St) : Prop where
  conf : s.conf = c
  listen : ∀ x ∈ c.listen, ∃ f ∈ s.fds, f.listen = x.1 ∧ f.pid = none
  bound : ∀ a max, findListen c a = some max → (childFds s a).length ≤ max
  known : ∀ p ∈ s.procs, ∃ f ∈ s.fds, f.pid = some p.pid ∧ f.listen = p.listen
  pids : s.procs.Pairwise (fun p q => p.pid ≠ q.pid)

theorem findListen_mem {c : Conf} {a : Str} (h : c.listen.any (fun x => x.1 = a) = true) :
    ∃ max, findListen c a = some max := by
  unfold findListen
  cases hf : c.listen.find? (fun x => x.1 = a) with
  | none =>
    rw [List.find?_eq_none] at hf
    obtain ⟨x, hx, e⟩ := List.any_eq_true.1 h
    exact absurd e (hf x hx)
  | some x => exact ⟨x.2, rfl⟩

theorem mem_of_findListen {c : Conf} {a : Str} {max : Nat} (h : findListen c a = some max) :
    ∃ x ∈ c.listen, x.1 = a := by
  unfold findListen at h
  rw [Option.map_eq_some_iff] at h
  obtain ⟨x, hx, -⟩ := h
  exact ⟨x, List.mem_of_find?_eq_some hx, by simpa using List.find?_some hx⟩

theorem inv_start (c : Conf) : Inv c (start c) := by
  refine ⟨rfl, ?_, ?_, by simp [start], by simp [start]⟩
  · intro x hx
    exact ⟨⟨x.1, none, false⟩, List.mem_map.2 ⟨x, hx, rfl⟩, rfl, rfl⟩
  · intro a max _
    have : childFds (start c) a = [] := by
      unfold childFds
      rw [List.filter_eq_nil_iff]
      intro f hf
      obtain ⟨x, -, rfl⟩ := List.mem_map.1 hf
      simp
    simp [this]

theorem connect_eq (s : St) (a : Str) (pid : Nat) :
    (connect s a pid).conf = s.conf ∧
    ((checkCounts s a = true ∧ (connect s a pid).fds = s.fds ++ [⟨a, some pid, false⟩] ∧
      (connect s a pid).procs = s.procs ++
        [⟨pid, a, if s.conf.maxParallel ≠ 0 then getWorking s else s.working, .deciding⟩]) ∨
     (checkCounts s a = false ∧ (connect s a pid).fds = s.fds ∧ (connect s a pid).procs = s.procs)) := by
  unfold connect
  by_cases h : s.conf.maxParallel ≠ 0
  · simp only [if_pos h]
    have e : checkCounts { s with working := getWorking s } a = checkCounts s a := rfl
    rw [e]
    cases hc : checkCounts s a
    · exact ⟨rfl, Or.inr ⟨rfl, rfl, rfl⟩⟩
    · exact ⟨rfl, Or.inl ⟨rfl, rfl, rfl⟩⟩
  · simp only [if_neg h]
    cases hc : checkCounts s a
    · exact ⟨rfl, Or.inr ⟨rfl, rfl, rfl⟩⟩
    · exact ⟨rfl, Or.inl ⟨rfl, rfl, rfl⟩⟩

/-- Changing processes without changing who they are keeps the invariant. -/
theorem inv_procs {c : Conf} {s : St} (h : Inv c s) (f : Proc → Proc)
    (hf : ∀ p, (f p).pid = p.pid ∧ (f p).listen = p.listen) : Inv c { s with procs := s.procs.map f } := by
  refine ⟨h.conf, h.listen, h.bound, ?_, ?_⟩
  · intro p hp
    obtain ⟨q, hq, rfl⟩ := List.mem_map.1 hp
    rw [(hf q).1, (hf q).2]
    exact h.known q hq
  · rw [List.pairwise_map]
    refine h.pids.imp ?_
    intro p q hpq
    rw [(hf p).1, (hf q).1]
    exact hpq

theorem decideBackup_same (c : Conf) (p : Proc) :
    (decideBackup c p).pid = p.pid ∧ (decideBackup c p).listen = p.listen ∧ (decideBackup c p).seen = p.seen := by
  unfold decideBackup
  split <;> exact ⟨rfl, rfl, rfl⟩

theorem inv_step {c : Conf} {s s' : St} {e : Event} (h : Inv c s) (he : ∀ c', e ≠ .reload c') (hs : step s e = some s') :
    Inv c s' := by
  cases e with
  | connect a pid =>
    simp only [step] at hs
    split at hs
    · cases hs
    rename_i hfresh
    split at hs
    · rename_i ha
      cases hs
      simp only [Bool.or_eq_true, not_or, Bool.not_eq_true, List.any_eq_false, decide_eq_true_eq] at hfresh
      obtain ⟨e0, ⟨e1, e2, e3⟩ | ⟨e1, e2, e3⟩⟩ := connect_eq s a pid
      · refine ⟨e0.trans h.conf, ?_, ?_, ?_, ?_⟩
        · intro x hx
          obtain ⟨f, hf, h1⟩ := h.listen x hx
          exact ⟨f, by rw [e2]; exact List.mem_append_left _ hf, h1⟩
        · intro b max hb
          unfold childFds
          rw [e2, List.filter_append, List.length_append]
          by_cases hab : b = a
          · subst hab
            unfold checkCounts at e1
            rw [h.conf, hb] at e1
            simp only [decide_eq_true_eq] at e1
            obtain ⟨x, hx, ex⟩ := mem_of_findListen hb
            obtain ⟨f, hf, h1, h2⟩ := h.listen x hx
            have := filter_and_lt (fun f : Fd => decide (f.listen = b)) (fun f => f.pid.isSome) s.fds f hf
              (by simp [h1, ex]) (by simp [h2])
            have h3 : (List.filter (fun f : Fd => decide (f.listen = b) && f.pid.isSome)
                [⟨b, some pid, false⟩]).length = 1 := by simp
            rw [h3]
            omega
          · have h3 : (List.filter (fun f : Fd => decide (f.listen = b) && f.pid.isSome)
                [⟨a, some pid, false⟩]).length = 0 := by simp [Ne.symm hab]
            rw [h3]
            exact h.bound b max hb
        · intro p hp
          rw [e3] at hp
          rw [e2]
          rcases List.mem_append.1 hp with hp | hp
          · obtain ⟨f, hf, h1⟩ := h.known p hp
            exact ⟨f, List.mem_append_left _ hf, h1⟩
          · rw [List.mem_singleton.1 hp]
            exact ⟨_, List.mem_append_right _ (List.mem_singleton.2 rfl), rfl, rfl⟩
        · rw [e3, List.pairwise_append]
          refine ⟨h.pids, by simp, ?_⟩
          intro p hp q hq
          rw [List.mem_singleton.1 hq]
          exact hfresh.1 p hp
      · refine ⟨e0.trans h.conf, ?_, ?_, ?_, ?_⟩
        · rw [e2]; exact h.listen
        · intro b max hb; unfold childFds; rw [e2]; exact h.bound b max hb
        · rw [e2, e3]; exact h.known
        · rw [e3]; exact h.pids
    · cases hs
  | backup pid =>
    cases hs
    refine inv_procs h _ ?_
    intro p
    split
    · exact ⟨(decideBackup_same _ p).1, (decideBackup_same _ p).2.1⟩
    · exact ⟨rfl, rfl⟩
  | other pid =>
    cases hs
    refine inv_procs h _ ?_
    intro p
    split <;> exact ⟨rfl, rfl⟩
  | report pid =>
    cases hs
    have hm : ∀ f ∈ s.fds, ∃ g ∈ s.fds.map (fun f => if f.pid = some pid then
        { f with working := s.procs.any (fun p => p.pid = pid && p.doing = .backup) } else f),
        g.pid = f.pid ∧ g.listen = f.listen := by
      intro f hf
      refine ⟨_, List.mem_map.2 ⟨f, hf, rfl⟩, ?_⟩
      split <;> exact ⟨rfl, rfl⟩
    refine ⟨h.conf, ?_, ?_, ?_, h.pids⟩
    · intro x hx
      obtain ⟨f, hf, h1, h2⟩ := h.listen x hx
      obtain ⟨g, hg, h3, h4⟩ := hm f hf
      exact ⟨g, hg, h4.trans h1, h3.trans h2⟩
    · intro b max hb
      refine Nat.le_trans (Nat.le_of_eq ?_) (h.bound b max hb)
      unfold childFds
      rw [List.filter_map, List.length_map]
      congr 1
      refine List.filter_congr ?_
      intro f _
      simp only [Function.comp]
      split <;> rfl
    · intro p hp
      obtain ⟨f, hf, h1, h2⟩ := h.known p hp
      obtain ⟨g, hg, h3, h4⟩ := hm f hf
      exact ⟨g, hg, h3.trans h1, h4.trans h2⟩
  | exit pid =>
    cases hs
    exact ⟨h.conf, h.listen, h.bound, fun p hp => h.known p (List.mem_filter.1 hp).1,
      h.pids.sublist List.filter_sublist⟩
  | reap =>
    cases hs
    refine ⟨h.conf, ?_, ?_, ?_, h.pids⟩
    · intro x hx
      obtain ⟨f, hf, h1, h2⟩ := h.listen x hx
      exact ⟨f, List.mem_filter.2 ⟨hf, by simp [h2]⟩, h1, h2⟩
    · intro b max hb
      refine Nat.le_trans ?_ (h.bound b max hb)
      exact ((List.filter_sublist (l := s.fds)).filter _).length_le
    · intro p hp
      obtain ⟨f, hf, h1, h2⟩ := h.known p hp
      refine ⟨f, List.mem_filter.2 ⟨hf, ?_⟩, h1, h2⟩
      simp only [h1]
      exact List.any_eq_true.2 ⟨p, hp, by simp⟩
  | reload c' => exact absurd rfl (he c')

theorem inv_run {c : Conf} {s s' : St} {es : List Event} (h : Inv c s) (hn : NoReload es) (hs : run s es = some s') :
    Inv c s' := by
  induction es generalizing s with
  | nil => cases hs; exact h
  | cons e es ih =>
    rw [run, Option.bind_eq_some_iff] at hs
    obtain ⟨t, h1, h2⟩ := hs
    exact ih (inv_step h (fun c' hc => hn c' (by simp [hc])) h1) (fun c' hc => hn c' (by simp [hc])) h2

/-- What holds about backups. -/
structure BInv (c : Conf) (s : St) : Prop where
  conf : s.conf = c
  pids : s.procs.Pairwise (fun p q => p.pid ≠ q.pid)
  one : s.procs.Pairwise (fun p q => p.doing = .deciding → q.doing ≠ .deciding)
  seen : ∀ p ∈ s.procs, p.doing = .deciding → backups s ≤ p.seen
  bound : backups s ≤ c.maxParallel

theorem settled_working {s : St} (h : Settled s) (hp : s.procs.Pairwise (fun p q => p.pid ≠ q.pid)) :
    backups s ≤ getWorking s := by
  have := len_le (((s.procs.filter (fun p => p.doing = .backup)).map (fun p => some p.pid)))
    ((s.fds.filter (fun f => f.working)).map Fd.pid) (by
      rw [List.pairwise_map]
      refine (hp.sublist List.filter_sublist).imp ?_
      intro p q hpq e
      exact hpq (Option.some.inj e)) (by
      intro x hx
      obtain ⟨p, hp, rfl⟩ := List.mem_map.1 hx
      obtain ⟨h1, h2⟩ := List.mem_filter.1 hp
      obtain ⟨f, hf, h3, h4⟩ := (h p h1).2 (by simpa using h2)
      exact List.mem_map.2 ⟨f, List.mem_filter.2 ⟨hf, h4⟩, h3⟩)
  simpa [backups, getWorking] using this

end Children

/-- C72, as far as it goes: while the server is not told to reload its configuration, no more clients are served at
the same time on an address than its `max_children` (or `max_status_children`). -/
theorem C72_children_partial (c : Conf) (es : List Event) (s : St) (hn : NoReload es) (hs : run (start c) es = some s)
    (a : Str) (max : Nat) (ha : findListen c a = some max) : served s a ≤ max := by
  have h := inv_run (inv_start c) hn hs
  refine Nat.le_trans ?_ (h.bound a max ha)
  have := len_le ((s.procs.filter (fun p => p.listen = a)).map (fun p => some p.pid))
    ((childFds s a).map Fd.pid) (by
      rw [List.pairwise_map]
      refine (h.pids.sublist List.filter_sublist).imp ?_
      intro p q hpq e
      exact hpq (Option.some.inj e)) (by
      intro x hx
      obtain ⟨p, hp, rfl⟩ := List.mem_map.1 hx
      obtain ⟨h1, h2⟩ := List.mem_filter.1 hp
      obtain ⟨f, hf, h3, h4⟩ := h.known p h1
      refine List.mem_map.2 ⟨f, List.mem_filter.2 ⟨hf, ?_⟩, h3⟩
      simp only [decide_eq_true_eq] at h2
      simp [h3, h4, h2])
  simpa [served] using this

namespace Children

/-- More that holds in every state, if no address is configured twice. -/
structure Tight (c : Conf) (s : St) : Prop where
  inv : Inv c s
  lone : ∀ a, (s.fds.filter (fun f => decide (f.listen = a) && f.pid.isNone)).length ≤ 1
  fpids : s.fds.Pairwise (fun f g => f.pid = none ∨ f.pid ≠ g.pid)
  same : ∀ f ∈ s.fds, ∀ p ∈ s.procs, f.pid = some p.pid → f.listen = p.listen

theorem tight_start (c : Conf) (hc : (c.listen.map Prod.fst).Nodup) : Tight c (start c) := by
  refine ⟨inv_start c, ?_, ?_, by simp [start]⟩
  · intro a
    simp only [start, listening, List.filter_map, List.length_map]
    have h1 := (List.pairwise_map.1 (List.nodup_iff_pairwise_ne.1 hc)).sublist
      (List.filter_sublist (p := (fun f : Fd => decide (f.listen = a) && f.pid.isNone) ∘ fun x : Str × Nat => ⟨x.1, none, false⟩))
    match hl : List.filter ((fun f : Fd => decide (f.listen = a) && f.pid.isNone) ∘ fun x : Str × Nat => ⟨x.1, none, false⟩)
        c.listen with
    | [] => simp
    | [_] => simp
    | x :: y :: l =>
      rw [hl] at h1
      have hx : x ∈ List.filter ((fun f : Fd => decide (f.listen = a) && f.pid.isNone) ∘ fun x : Str × Nat => ⟨x.1, none, false⟩)
        c.listen := by rw [hl]; simp
      have hy : y ∈ List.filter ((fun f : Fd => decide (f.listen = a) && f.pid.isNone) ∘ fun x : Str × Nat => ⟨x.1, none, false⟩)
        c.listen := by rw [hl]; simp
      have ex := (List.mem_filter.1 hx).2
      have ey := (List.mem_filter.1 hy).2
      simp at ex ey
      exact absurd (ex.trans ey.symm) ((List.pairwise_cons.1 h1).1 y (by simp))
  · simp only [start, listening]
    rw [List.pairwise_map]
    exact List.pairwise_of_forall (fun _ _ => Or.inl rfl)

theorem tight_procs {c : Conf} {s : St} (h : Tight c s) (f : Proc → Proc)
    (hf : ∀ p, (f p).pid = p.pid ∧ (f p).listen = p.listen) : Tight c { s with procs := s.procs.map f } := by
  refine ⟨inv_procs h.inv f hf, h.lone, h.fpids, ?_⟩
  intro g hg p hp e
  obtain ⟨q, hq, rfl⟩ := List.mem_map.1 hp
  rw [(hf q).1] at e
  rw [(hf q).2]
  exact h.same g hg q hq e

theorem tight_step {c : Conf} {s s' : St} {e : Event} (h : Tight c s) (he : ∀ c', e ≠ .reload c')
    (hs : step s e = some s') : Tight c s' := by
  have hi := inv_step h.inv he hs
  cases e with
  | connect a pid =>
    simp only [step] at hs
    split at hs
    · cases hs
    rename_i hfresh
    split at hs
    · cases hs
      simp only [Bool.or_eq_true, not_or, Bool.not_eq_true, List.any_eq_false, decide_eq_true_eq] at hfresh
      obtain ⟨e0, ⟨e1, e2, e3⟩ | ⟨e1, e2, e3⟩⟩ := connect_eq s a pid
      · refine ⟨hi, ?_, ?_, ?_⟩
        · intro b
          rw [e2, List.filter_append]
          simpa using h.lone b
        · rw [e2, List.pairwise_append]
          refine ⟨h.fpids, by simp, ?_⟩
          intro f hf g hg
          rw [List.mem_singleton.1 hg]
          exact Or.inr (hfresh.2 f hf)
        · rw [e2, e3]
          intro f hf p hp e
          rcases List.mem_append.1 hf with hf | hf <;> rcases List.mem_append.1 hp with hp | hp
          · exact h.same f hf p hp e
          · rw [List.mem_singleton.1 hp] at e
            exact absurd e (hfresh.2 f hf)
          · rw [List.mem_singleton.1 hf] at e
            exact absurd (Option.some.inj e).symm (hfresh.1 p hp)
          · rw [List.mem_singleton.1 hp, List.mem_singleton.1 hf]
      · refine ⟨hi, by rw [e2]; exact h.lone, by rw [e2]; exact h.fpids, by rw [e2, e3]; exact h.same⟩
    · cases hs
  | backup pid =>
    cases hs
    refine tight_procs h _ ?_
    intro p
    split
    · exact ⟨(decideBackup_same _ p).1, (decideBackup_same _ p).2.1⟩
    · exact ⟨rfl, rfl⟩
  | other pid =>
    cases hs
    refine tight_procs h _ ?_
    intro p
    split <;> exact ⟨rfl, rfl⟩
  | report pid =>
    cases hs
    refine ⟨hi, ?_, ?_, ?_⟩
    · intro a
      refine Nat.le_trans (Nat.le_of_eq ?_) (h.lone a)
      rw [List.filter_map, List.length_map]
      congr 1
      refine List.filter_congr ?_
      intro f _
      simp only [Function.comp]
      split <;> rfl
    · rw [List.pairwise_map]
      refine h.fpids.imp ?_
      intro f g hfg
      have e1 : ∀ f : Fd, (if f.pid = some pid then
        { f with working := s.procs.any (fun p => p.pid = pid && p.doing = .backup) } else f).pid = f.pid := by
        intro f; split <;> rfl
      rw [e1, e1]
      exact hfg
    · intro g hg p hp e
      obtain ⟨f, hf, rfl⟩ := List.mem_map.1 hg
      have e1 : ∀ f : Fd, (if f.pid = some pid then
        { f with working := s.procs.any (fun p => p.pid = pid && p.doing = .backup) } else f).pid = f.pid ∧
        (if f.pid = some pid then
        { f with working := s.procs.any (fun p => p.pid = pid && p.doing = .backup) } else f).listen = f.listen := by
        intro f; split <;> exact ⟨rfl, rfl⟩
      rw [(e1 f).1] at e
      rw [(e1 f).2]
      exact h.same f hf p hp e
  | exit pid =>
    cases hs
    exact ⟨hi, h.lone, h.fpids, fun f hf p hp e => h.same f hf p (List.mem_filter.1 hp).1 e⟩
  | reap =>
    cases hs
    refine ⟨hi, ?_, h.fpids.sublist List.filter_sublist, fun f hf p hp e => h.same f (List.mem_filter.1 hf).1 p hp e⟩
    intro a
    exact Nat.le_trans ((List.filter_sublist (l := s.fds)).filter _).length_le (h.lone a)
  | reload c' => exact absurd rfl (he c')

theorem tight_run {c : Conf} {s s' : St} {es : List Event} (h : Tight c s) (hn : NoReload es) (hs : run s es = some s') :
    Tight c s' := by
  induction es generalizing s with
  | nil => cases hs; exact h
  | cons e es ih =>
    rw [run, Option.bind_eq_some_iff] at hs
    obtain ⟨t, h1, h2⟩ := hs
    exact ih (tight_step h (fun c' hc => hn c' (by simp [hc])) h1) (fun c' hc => hn c' (by simp [hc])) h2

theorem filter_split {α : Type} (p q : α → Bool) (l : List α) :
    (l.filter p).length = (l.filter (fun y => p y && q y)).length + (l.filter (fun y => p y && !q y)).length := by
  induction l with
  | nil => simp
  | cons y l ih =>
    rw [List.filter_cons, List.filter_cons, List.filter_cons]
    cases hy : p y <;> cases hz : q y <;> simp <;> omega

end Children

/-- C72: a client is not turned away while there is room: when the server has taken note of the children that have
ended, a connection to a configured address gets a child of its own exactly if fewer than the allowed number are
being served there. -/
theorem C72_room (c : Conf) (hc : (c.listen.map Prod.fst).Nodup) (es : List Event) (s t : St) (hn : NoReload es)
    (hs : run (start c) (es ++ [.reap]) = some s) (a : Str) (max pid : Nat) (ha : findListen c a = some max)
    (ht : step s (.connect a pid) = some t) :
    served t a = if served s a < max then served s a + 1 else served s a := by
  have hn' : NoReload (es ++ [.reap]) := by
    intro c' h
    rcases List.mem_append.1 h with h | h
    · exact hn c' h
    · simp at h
  have h := tight_run (tight_start c hc) hn' hs
  -- the entries of children are those of running processes
  have hlive : ∀ f ∈ s.fds, ∀ q, f.pid = some q → ∃ p ∈ s.procs, p.pid = q := by
    have key : ∀ (es : List Event) (u : St), run u (es ++ [.reap]) = some s →
        ∀ f ∈ s.fds, ∀ q, f.pid = some q → ∃ p ∈ s.procs, p.pid = q := by
      intro es
      induction es with
      | nil =>
        intro u hu f hf q hq
        simp only [List.nil_append, run, step, Option.bind_some] at hu
        cases hu
        have := (List.mem_filter.1 hf).2
        simp only [hq] at this
        obtain ⟨p, hp, e⟩ := List.any_eq_true.1 this
        exact ⟨p, hp, by simpa using e⟩
      | cons e es ih =>
        intro u hu
        rw [List.cons_append, run, Option.bind_eq_some_iff] at hu
        obtain ⟨v, -, h2⟩ := hu
        exact ih v h2
    exact key es _ hs
  have hcount : (childFds s a).length = served s a := by
    apply Nat.le_antisymm
    · have := len_le ((childFds s a).map Fd.pid)
        ((s.procs.filter (fun p => p.listen = a)).map (fun p => some p.pid)) (by
          rw [List.pairwise_map]
          have h1 := h.fpids.sublist (List.filter_sublist (p := fun f : Fd => decide (f.listen = a) && f.pid.isSome))
          refine List.Pairwise.imp_of_mem ?_ h1
          intro f g hf hg hfg
          rcases hfg with e | e
          · have := (List.mem_filter.1 hf).2
            simp [e] at this
          · exact e) (by
          intro x hx
          obtain ⟨f, hf, rfl⟩ := List.mem_map.1 hx
          obtain ⟨h1, h2⟩ := List.mem_filter.1 hf
          simp only [Bool.and_eq_true, decide_eq_true_eq] at h2
          obtain ⟨q, hq⟩ := Option.isSome_iff_exists.1 h2.2
          obtain ⟨p, hp, e⟩ := hlive f h1 q hq
          refine List.mem_map.2 ⟨p, List.mem_filter.2 ⟨hp, ?_⟩, by rw [hq, e]⟩
          have := h.same f h1 p hp (by rw [hq, e])
          simp [← this, h2.1])
      simpa [served] using this
    · have := len_le ((s.procs.filter (fun p => p.listen = a)).map (fun p => some p.pid))
        ((childFds s a).map Fd.pid) (by
          rw [List.pairwise_map]
          refine (h.inv.pids.sublist List.filter_sublist).imp ?_
          intro p q hpq e
          exact hpq (Option.some.inj e)) (by
          intro x hx
          obtain ⟨p, hp, rfl⟩ := List.mem_map.1 hx
          obtain ⟨h1, h2⟩ := List.mem_filter.1 hp
          obtain ⟨f, hf, h3, h4⟩ := h.inv.known p h1
          refine List.mem_map.2 ⟨f, List.mem_filter.2 ⟨hf, ?_⟩, h3⟩
          simp only [decide_eq_true_eq] at h2
          simp [h3, h4, h2])
      simpa [served] using this
  have hall : (s.fds.filter (fun f => decide (f.listen = a))).length = served s a + 1 := by
    rw [filter_split _ (fun f => f.pid.isSome), ← hcount]
    have h1 := h.lone a
    obtain ⟨x, hx, ex⟩ := mem_of_findListen ha
    obtain ⟨f, hf, h2, h3⟩ := h.inv.listen x hx
    have h4 : 0 < (s.fds.filter (fun f => decide (f.listen = a) && !f.pid.isSome)).length :=
      List.length_pos_of_mem (List.mem_filter.2 ⟨hf, by simp [h2, ex, h3]⟩)
    have h5 : (s.fds.filter (fun f => decide (f.listen = a) && !f.pid.isSome)).length ≤ 1 := by
      refine Nat.le_trans (Nat.le_of_eq ?_) h1
      congr 1
      refine List.filter_congr ?_
      intro f _
      cases f.pid <;> rfl
    unfold childFds
    omega
  have hcheck : checkCounts s a = decide (served s a < max) := by
    unfold checkCounts
    rw [h.inv.conf, ha]
    simp only
    rw [hall]
    congr 1
    apply propext
    omega
  simp only [step] at ht
  split at ht
  · cases ht
  split at ht
  · cases ht
    obtain ⟨e0, ⟨e1, e2, e3⟩ | ⟨e1, e2, e3⟩⟩ := connect_eq s a pid
    · rw [hcheck, decide_eq_true_eq] at e1
      rw [if_pos e1]
      unfold served
      rw [e3, List.filter_append]
      simp
    · rw [hcheck, decide_eq_false_iff_not] at e1
      rw [if_neg e1]
      unfold served
      rw [e3]
  · cases ht

namespace Children

theorem decide_one {c : Conf} {u : St} (hu : BInv c u) (pid : Nat) (g : Proc → Proc)
    (hg : ∀ p, (g p).pid = p.pid ∧ (g p).doing ≠ .deciding)
    (hb : ∀ p ∈ u.procs, p.doing = .deciding → (g p).doing = .backup → p.seen < c.maxParallel) :
    BInv c { u with procs := u.procs.map (fun p => if p.pid = pid && p.doing = .deciding then g p else p) } := by
  by_cases hex : ∃ p ∈ u.procs, p.pid = pid ∧ p.doing = .deciding
  · obtain ⟨p, hp, hp1, hp2⟩ := hex
    obtain ⟨l1, l2, hl⟩ := List.append_of_mem hp
    have hone := hu.one
    have hpids := hu.pids
    rw [hl, List.pairwise_append, List.pairwise_cons] at hone hpids
    have n1 : ∀ q ∈ l1, q.doing ≠ .deciding := fun q hq e => hone.2.2 q hq p (by simp) e hp2
    have n2 : ∀ q ∈ l2, q.doing ≠ .deciding := fun q hq => hone.2.1.1 q hq hp2
    have m : ∀ l : List Proc, (∀ q ∈ l, q.doing ≠ .deciding) →
        l.map (fun p => if p.pid = pid && p.doing = .deciding then g p else p) = l := by
      intro l h
      refine Eq.trans (List.map_congr_left ?_) (List.map_id l)
      intro q hq
      rw [if_neg (by simp [h q hq])]
      rfl
    have e : u.procs.map (fun p => if p.pid = pid && p.doing = .deciding then g p else p) = l1 ++ g p :: l2 := by
      rw [hl, List.map_append, List.map_cons, m l1 n1, m l2 n2, if_pos (by simp [hp1, hp2])]
    have hnone : ∀ q ∈ l1 ++ g p :: l2, q.doing ≠ .deciding := by
      intro q hq
      rcases List.mem_append.1 hq with hq | hq
      · exact n1 q hq
      rcases List.mem_cons.1 hq with hq | hq
      · rw [hq]; exact (hg p).2
      · exact n2 q hq
    have hcnt : backups u = (l1.filter (fun p => p.doing = .backup)).length + (l2.filter (fun p => p.doing = .backup)).length := by
      unfold backups
      rw [hl, List.filter_append, List.filter_cons, if_neg (by simp [hp2]), List.length_append]
    rw [e]
    refine ⟨hu.conf, ?_, ?_, ?_, ?_⟩
    · simp only
      rw [List.pairwise_append, List.pairwise_cons]
      refine ⟨hpids.1, ⟨fun q hq => by rw [(hg p).1]; exact hpids.2.1.1 q hq, hpids.2.1.2⟩, ?_⟩
      intro q hq r hr
      rcases List.mem_cons.1 hr with hr | hr
      · rw [hr, (hg p).1]; exact hpids.2.2 q hq p (by simp)
      · exact hpids.2.2 q hq r (by simp [hr])
    · refine List.Pairwise.imp_of_mem ?_ (List.pairwise_of_forall (R := fun _ _ => True) (fun _ _ => trivial))
      intro q r hq _ _ hd
      exact absurd hd (hnone q hq)
    · intro q hq hd
      exact absurd hd (hnone q hq)
    · have hs := hu.seen p hp hp2
      have hbd := hu.bound
      by_cases hgb : (g p).doing = .backup
      · have := hb p hp hp2 hgb
        unfold backups
        rw [List.filter_append, List.filter_cons, if_pos (by simp [hgb]), List.length_append, List.length_cons]
        omega
      · unfold backups
        rw [List.filter_append, List.filter_cons, if_neg (by simp [hgb]), List.length_append]
        omega
  · have e : u.procs.map (fun p => if p.pid = pid && p.doing = .deciding then g p else p) = u.procs := by
      refine Eq.trans (List.map_congr_left ?_) (List.map_id u.procs)
      intro q hq
      rw [if_neg (by
        simp only [Bool.and_eq_true, decide_eq_true_eq]
        exact fun h => hex ⟨q, hq, h⟩)]
      rfl
    rw [e]
    exact hu

end Children

/-- C72, as far as it goes: no more backups run at the same time than `max_parallel_backups`, if clients connect
only when all earlier ones have made up their minds and the server has heard of the backups that run. -/
theorem C72_backups_partial (c : Conf) (es : List Event) (s : St) (hm : c.maxParallel ≠ 0) (hn : NoReload es)
    (hq : Quiet (start c) es) (hs : run (start c) es = some s) : backups s ≤ c.maxParallel := by
  have key : ∀ (es : List Event) (u : St), BInv c u → NoReload es → Quiet u es → run u es = some s → BInv c s := by
    intro es
    induction es with
    | nil => intro u hu _ _ hr; cases hr; exact hu
    | cons e es ih =>
      intro u hu hn hq hr
      rw [run, Option.bind_eq_some_iff] at hr
      obtain ⟨t, h1, h2⟩ := hr
      refine ih t ?_ (fun c' hc => hn c' (by simp [hc])) (hq.2 t h1) h2
      have hset := hq.1
      cases e with
      | connect a pid =>
        have hset := hset ⟨a, pid, rfl⟩
        simp only [step] at h1
        split at h1
        · cases h1
        rename_i hfresh
        split at h1
        · cases h1
          simp only [Bool.or_eq_true, not_or, Bool.not_eq_true, List.any_eq_false, decide_eq_true_eq] at hfresh
          obtain ⟨e0, ⟨e1, e2, e3⟩ | ⟨e1, e2, e3⟩⟩ := connect_eq u a pid
          · rw [if_pos (by rw [hu.conf]; exact hm)] at e3
            have hb : backups (connect u a pid) = backups u := by
              unfold backups
              rw [e3, List.filter_append]
              simp
            refine ⟨e0.trans hu.conf, ?_, ?_, ?_, by rw [hb]; exact hu.bound⟩
            · rw [e3, List.pairwise_append]
              refine ⟨hu.pids, by simp, ?_⟩
              intro p hp q hq
              rw [List.mem_singleton.1 hq]
              exact hfresh.1 p hp
            · rw [e3, List.pairwise_append]
              refine ⟨hu.one, by simp, ?_⟩
              intro p hp q hq e
              exact absurd e (hset p hp).1
            · intro p hp hd
              rw [e3] at hp
              rw [hb]
              rcases List.mem_append.1 hp with hp | hp
              · exact hu.seen p hp hd
              · rw [List.mem_singleton.1 hp]
                exact settled_working hset hu.pids
          · have hb : backups (connect u a pid) = backups u := by unfold backups; rw [e3]
            exact ⟨e0.trans hu.conf, by rw [e3]; exact hu.pids, by rw [e3]; exact hu.one,
              by rw [e3, hb]; exact hu.seen, by rw [hb]; exact hu.bound⟩
        · cases h1
      | backup pid =>
        cases h1
        refine decide_one hu pid (decideBackup u.conf) ?_ ?_
        · intro p
          refine ⟨(decideBackup_same _ p).1, ?_⟩
          unfold decideBackup
          split <;> simp
        · intro p _ _ hb
          unfold decideBackup at hb
          split at hb
          · simp at hb
          · rename_i h
            rw [hu.conf] at h
            simp [hm] at h
            exact h
      | other pid =>
        cases h1
        exact decide_one hu pid (fun p => { p with doing := .other }) (fun p => ⟨rfl, by simp⟩)
          (fun p _ _ hb => by simp at hb)
      | report pid => cases h1; exact ⟨hu.conf, hu.pids, hu.one, hu.seen, hu.bound⟩
      | exit pid =>
        cases h1
        have hle : backups { u with procs := u.procs.filter (fun p => p.pid ≠ pid) } ≤ backups u :=
          ((List.filter_sublist (l := u.procs)).filter _).length_le
        exact ⟨hu.conf, hu.pids.sublist List.filter_sublist, hu.one.sublist List.filter_sublist,
          fun p hp hd => Nat.le_trans hle (hu.seen p (List.mem_filter.1 hp).1 hd), Nat.le_trans hle hu.bound⟩
      | reap => cases h1; exact ⟨hu.conf, hu.pids, hu.one, hu.seen, hu.bound⟩
      | reload c' => exact absurd (by simp) (hn c')
  exact (key es (start c) ⟨rfl, by simp [start], by simp [start], by simp [start], by simp [start, backups]⟩ hn hq hs).bound

/-! ### Where it fails, and examples -/

/-- C72 fails after `SIGHUP`: the children that still run are not counted any more. With one child allowed, two run. -/
theorem C72_reload_violated :
    ∃ s, run (start ⟨[(bytes ":4971", 1)], 0⟩)
      [.connect (bytes ":4971") 1, .reload ⟨[(bytes ":4971", 1)], 0⟩, .connect (bytes ":4971") 2] = some s ∧
      served s (bytes ":4971") = 2 := by
  refine ⟨_, rfl, ?_⟩
  decide +kernel

/-- C72 fails for backups that start at about the same time: each child goes by what the server knew when it was
forked. With one backup allowed, two run. -/
theorem C72_parallel_violated :
    ∃ s, run (start ⟨[(bytes ":4971", 5)], 1⟩)
      [.connect (bytes ":4971") 1, .connect (bytes ":4971") 2, .backup 1, .report 1, .backup 2] = some s ∧
      backups s = 2 := by
  refine ⟨_, rfl, ?_⟩
  decide +kernel

/-- Two clients on an address for two, a third is refused; one leaves, and there is room for another. -/
def exEvents : List Event :=
  [.connect (bytes ":4971") 1, .backup 1, .report 1, .connect (bytes ":4971") 2, .other 2, .connect (bytes ":4971") 3,
   .exit 1, .reap, .connect (bytes ":4971") 4, .backup 4]

example : ∃ s, run (start ⟨[(bytes ":4971", 2), (bytes ":4972", 1)], 1⟩) exEvents = some s ∧
    s.procs.map Proc.pid = [2, 4] ∧ served s (bytes ":4971") = 2 ∧ backups s = 1 ∧ NoReload exEvents := by
  refine ⟨_, rfl, by decide +kernel, by decide +kernel, by decide +kernel, ?_⟩
  intro c h
  simp [exEvents] at h

example : Quiet (start ⟨[(bytes ":4971", 2)], 1⟩) [.connect (bytes ":4971") 1, .backup 1, .report 1, .connect (bytes ":4971") 2] := by
  refine ⟨?_, ?_⟩
  · rintro -
    intro p hp
    simp [start] at hp
  intro s hs
  cases hs
  refine ⟨by simp, ?_⟩
  intro s hs
  cases hs
  refine ⟨by simp, ?_⟩
  intro s hs
  cases hs
  refine ⟨?_, fun _ _ => trivial⟩
  rintro -
  intro p hp
  have : p = ⟨1, bytes ":4971", 0, .backup⟩ := by
    revert p
    decide +kernel
  subst this
  exact ⟨by decide, fun _ => ⟨⟨bytes ":4971", some 1, true⟩, by decide +kernel, rfl, rfl⟩⟩

end Verif
