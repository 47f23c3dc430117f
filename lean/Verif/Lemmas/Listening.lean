import Verif.Spec.Listening

/-! Helper lemmas for `Verif/Props/Listening.lean`. -/

namespace Verif.Listening
open Verif Verif.Ipacl

theorem takeWhile_append_all {α : Type} (f : α → Bool) : ∀ (l r : List α), (∀ x ∈ l, f x = true) →
    (l ++ r).takeWhile f = l ++ r.takeWhile f
  | [], _, _ => rfl
  | x :: l, r, h => by
    rw [List.cons_append, List.takeWhile_cons_of_pos (h x (List.mem_cons_self ..)),
      takeWhile_append_all f l r (fun y hy => h y (List.mem_cons_of_mem _ hy))]
    rfl

theorem last_port {host port : Str} (hp : (58 : Byte) ∉ port) :
    ((host ++ 58 :: port).reverse.takeWhile (fun b => b ≠ 58)).reverse = port := by
  have h1 : (host ++ 58 :: port).reverse = port.reverse ++ (58 :: host.reverse) := by simp
  have h2 : ∀ x ∈ port.reverse, (decide (x ≠ (58 : Byte))) = true := by
    intro x hx
    simp only [ne_eq, decide_not, Bool.not_eq_true', decide_eq_false_iff_not]
    intro h
    subst h
    exact hp (List.mem_reverse.1 hx)
  rw [h1, takeWhile_append_all _ _ _ h2, List.takeWhile_cons_of_neg (by decide)]
  simp

theorem split_of {a host port : Str} (h : IsHostPort a host port) : splitAddr a = some (host, port) := by
  obtain ⟨rfl, hp⟩ := h
  unfold splitAddr
  rw [if_pos (by simp)]
  simp only
  rw [last_port hp]
  congr 2
  have : (host ++ 58 :: port).length - port.length - 1 = host.length := by
    simp only [List.length_append, List.length_cons]; omega
  rw [this]
  simp

theorem exists_split {a : Str} (h : (58 : Byte) ∈ a) : ∃ host port, IsHostPort a host port := by
  induction a with
  | nil => cases h
  | cons c cs ih =>
    by_cases hc : (58 : Byte) ∈ cs
    · obtain ⟨host, port, h1, h2⟩ := ih hc
      exact ⟨c :: host, port, by rw [h1]; rfl, h2⟩
    · rcases List.mem_cons.1 h with h | h
      · exact ⟨[], cs, by rw [← h]; rfl, hc⟩
      · exact absurd h hc

theorem of_split {a host port : Str} (h : splitAddr a = some (host, port)) : IsHostPort a host port := by
  have hm : (58 : Byte) ∈ a := by
    unfold splitAddr at h
    split at h
    · next hc => simpa using hc
    · cases h
  obtain ⟨host', port', h'⟩ := exists_split hm
  rw [split_of h'] at h
  injection h with h
  injection h with h1 h2
  rw [← h1, ← h2]
  exact h'

theorem listenOn_some {w : World} {k : Kind} {allow : List Str} {socks r : List Sock} {a : Str}
    (h : listenOn w k allow socks a = some r) :
    ∃ host port, IsHostPort a host port ∧ w.opens socks host port = true
      ∧ ((w.watches a = false ∧ r = socks) ∨ (w.watches a = true ∧ ∃ acl, appendAll w.pton [] allow = some acl
        ∧ r = socks ++ [⟨k, a, .inl (host, port), acl⟩])) := by
  unfold listenOn at h
  cases hs : splitAddr a with
  | none => rw [hs] at h; cases h
  | some x =>
    obtain ⟨host, port⟩ := x
    rw [hs] at h
    simp only at h
    by_cases ho : w.opens socks host port = true
    · rw [if_pos ho] at h
      refine ⟨host, port, of_split hs, ho, ?_⟩
      by_cases hw : w.watches a = true
      · rw [if_pos hw] at h
        cases ha : appendAll w.pton [] allow with
        | none => rw [ha] at h; cases h
        | some acl =>
          rw [ha] at h
          injection h with h
          exact .inr ⟨hw, acl, rfl, h.symm⟩
      · rw [if_neg hw] at h
        injection h with h
        exact .inl ⟨by simpa using hw, h.symm⟩
    · rw [if_neg ho] at h; cases h

theorem listenOn_fine {w : World} {k : Kind} {allow : List Str} {socks : List Sock} {a host port : Str}
    (h1 : IsHostPort a host port) (h2 : w.opens socks host port = true)
    (h3 : (appendAll w.pton [] allow).isSome = true) : ∃ r, listenOn w k allow socks a = some r := by
  obtain ⟨acl, h3⟩ := Option.isSome_iff_exists.1 h3
  unfold listenOn
  rw [split_of h1]
  simp only
  rw [if_pos h2, h3]
  by_cases hw : w.watches a = true
  · rw [if_pos hw]; exact ⟨_, rfl⟩
  · rw [if_neg hw]; exact ⟨_, rfl⟩

/-- A socket as it was asked for, with these there before. -/
def Fits (w : World) (k : Kind) (allow : List Str) (before : List Sock) (s : Sock) : Prop :=
  s.kind = k ∧ (∃ host port, IsHostPort s.addr host port ∧ s.place = .inl (host, port)
    ∧ w.opens before host port = true) ∧ appendAll w.pton [] allow = some s.acl

theorem listenAll_some {w : World} {k : Kind} {allow : List Str} : ∀ {as : List Str} {socks r : List Sock},
    listenAll w k allow socks as = some r →
    ∃ new, r = socks ++ new ∧ new.map Sock.addr = as.filter w.watches
      ∧ ∀ pre s post, new = pre ++ s :: post → Fits w k allow (socks ++ pre) s
  | [], socks, r, h => by
    injection h with h
    exact ⟨[], by rw [← h]; simp, rfl, fun pre s post hs => by simp at hs⟩
  | a :: as, socks, r, h => by
    unfold listenAll at h
    cases hl : listenOn w k allow socks a with
    | none => rw [hl] at h; cases h
    | some socks' =>
      rw [hl] at h
      obtain ⟨host, port, h1, h2, h3⟩ := listenOn_some hl
      obtain ⟨new, h4, h5, h6⟩ := listenAll_some h
      rcases h3 with ⟨hw, rfl⟩ | ⟨hw, acl, h3, rfl⟩
      · exact ⟨new, h4, by rw [h5, List.filter_cons_of_neg (by simp [hw])], h6⟩
      · refine ⟨⟨k, a, .inl (host, port), acl⟩ :: new, by rw [h4]; simp,
          by rw [List.filter_cons_of_pos hw, ← h5]; rfl, ?_⟩
        intro pre s post hs
        cases pre with
        | nil =>
          simp only [List.nil_append, List.cons.injEq] at hs
          obtain ⟨rfl, _⟩ := hs
          exact ⟨rfl, ⟨host, port, h1, rfl, by simpa using h2⟩, h3⟩
        | cons p pre =>
          simp only [List.cons_append, List.cons.injEq] at hs
          obtain ⟨rfl, hs⟩ := hs
          have := h6 pre s post hs
          simpa using this

theorem listenAll_fine {w : World} {k : Kind} {allow : List Str} : ∀ {as : List Str} (socks : List Sock),
    (∀ a ∈ as, (∃ host port, IsHostPort a host port ∧ ∀ socks, w.opens socks host port = true)
      ∧ (appendAll w.pton [] allow).isSome = true) →
    ∃ r, listenAll w k allow socks as = some r
  | [], socks, _ => ⟨socks, rfl⟩
  | a :: as, socks, h => by
    obtain ⟨⟨host, port, h1, h2⟩, h3⟩ := h a (List.mem_cons_self ..)
    obtain ⟨r, hr⟩ := listenOn_fine (k := k) h1 (h2 socks) h3
    unfold listenAll
    rw [hr]
    exact listenAll_fine _ (fun b hb => h b (List.mem_cons_of_mem _ hb))

theorem listenAll_bad {w : World} {k : Kind} {allow : List Str} {a : Str}
    (hb : ∀ host port, IsHostPort a host port → ∀ socks, w.opens socks host port = false) :
    ∀ {as : List Str} (socks : List Sock), a ∈ as → listenAll w k allow socks as = none
  | [], _, h => by cases h
  | b :: bs, socks, h => by
    unfold listenAll
    cases hl : listenOn w k allow socks b with
    | none => rfl
    | some r =>
      rcases List.mem_cons.1 h with rfl | h
      · obtain ⟨host, port, h1, h2, _⟩ := listenOn_some hl
        rw [hb host port h1 socks] at h2
        cases h2
      · exact listenAll_bad hb r h

theorem openAll_some {c : Conf} {w : World} {r : List Sock} (h : openAll c w = some r) :
    ∃ new new', r = new ++ new' ∧ new.map Sock.addr = c.listen.filter w.watches
      ∧ new'.map Sock.addr = c.listenStatus.filter w.watches
      ∧ (∀ pre s post, new = pre ++ s :: post → Fits w .main c.allow pre s)
      ∧ ∀ pre s post, new' = pre ++ s :: post → Fits w .status c.allowStatus (new ++ pre) s := by
  unfold openAll at h
  cases hl : listenAll w .main c.allow [] c.listen with
  | none => rw [hl] at h; cases h
  | some socks =>
    rw [hl] at h
    obtain ⟨new, h1, h2, h3⟩ := listenAll_some hl
    obtain ⟨new', h4, h5, h6⟩ := listenAll_some h
    simp only [List.nil_append] at h1 h3
    subst h1
    exact ⟨socks, new', h4, h2, h5, h3, h6⟩

/-- Every socket of the whole is as asked for. -/
theorem openAll_fits {c : Conf} {w : World} {r : List Sock} (h : openAll c w = some r) :
    r.map (fun s => (s.kind, s.addr)) = (asked c).filter (fun x => w.watches x.2)
    ∧ ∀ pre s post, r = pre ++ s :: post → Fits w s.kind (c.allowOf s.kind) pre s := by
  obtain ⟨new, new', rfl, h1, h2, h3, h4⟩ := openAll_some h
  have k1 : ∀ s ∈ new, s.kind = .main := fun s hs => by
    obtain ⟨pre, post, he⟩ := List.append_of_mem hs
    exact (h3 pre s post he).1
  have k2 : ∀ s ∈ new', s.kind = .status := fun s hs => by
    obtain ⟨pre, post, he⟩ := List.append_of_mem hs
    exact (h4 pre s post he).1
  constructor
  · have e1 : new.map (fun s => (s.kind, s.addr)) = (new.map Sock.addr).map (fun a => (Kind.main, a)) := by
      rw [List.map_map]
      exact List.map_congr_left (fun s hs => by simp [k1 s hs])
    have e2 : new'.map (fun s => (s.kind, s.addr)) = (new'.map Sock.addr).map (fun a => (Kind.status, a)) := by
      rw [List.map_map]
      exact List.map_congr_left (fun s hs => by simp [k2 s hs])
    rw [List.map_append, e1, e2, h1, h2]
    simp only [asked, List.filter_append, List.filter_map]
    rfl
  · intro pre s post he
    rcases List.append_eq_append_iff.1 he with ⟨t, h5, h6⟩ | ⟨t, h5, h6⟩
    · subst h5
      have hs := h4 t s post h6
      have hk := hs.1
      rw [hk]
      exact hs
    · cases t with
      | nil =>
        simp only [List.append_nil] at h5
        simp only [List.nil_append] at h6
        have hs := h4 [] s post h6.symm
        have hk := hs.1
        rw [hk, ← h5]
        simpa [Conf.allowOf] using hs
      | cons y t =>
        simp only [List.cons_append, List.cons.injEq] at h6
        obtain ⟨rfl, _⟩ := h6
        have hs := h3 pre s t h5
        have hk := hs.1
        rw [hk]
        exact hs

theorem addrFor_some {w : World} {fd : Nat} {a : Str} : ∀ {as : List Str}, addrFor w fd as = some a →
    a ∈ as ∧ ∃ host port, IsHostPort a host port ∧ w.isInet fd (BackupNumber.strtoul port) ≠ 0
  | [], h => by cases h
  | b :: bs, h => by
    unfold addrFor at h
    cases hs : splitAddr b with
    | none => rw [hs] at h; cases h
    | some x =>
      obtain ⟨host, port⟩ := x
      rw [hs] at h
      simp only at h
      split at h
      · next hi =>
        injection h with h
        subst h
        exact ⟨List.mem_cons_self .., host, port, of_split hs, hi⟩
      · obtain ⟨h1, h2⟩ := addrFor_some h
        exact ⟨List.mem_cons_of_mem _ h1, h2⟩

theorem addrFor_none {w : World} {fd : Nat} : ∀ {as : List Str}, (∀ a ∈ as, (58 : Byte) ∈ a) →
    addrFor w fd as = none → ∀ a ∈ as, ∀ host port, IsHostPort a host port →
      w.isInet fd (BackupNumber.strtoul port) = 0
  | [], _, _, a, ha => by cases ha
  | b :: bs, hc, h, a, ha => by
    intro host port hap
    obtain ⟨hb, pb, hbp⟩ := exists_split (hc b (List.mem_cons_self ..))
    unfold addrFor at h
    rw [split_of hbp] at h
    simp only at h
    split at h
    · cases h
    · next hi =>
      rcases List.mem_cons.1 ha with rfl | ha
      · have := split_of hap
        rw [split_of hbp] at this
        injection this with this
        injection this with _ h2
        rw [← h2]
        exact Decidable.not_not.1 hi
      · exact addrFor_none (fun x hx => hc x (List.mem_cons_of_mem _ hx)) h a ha host port hap

theorem adopt_some {c : Conf} {w : World} {fd : Nat} {s : Sock} (h : adopt c w fd = some s) :
    s.place = .inr fd ∧ s.acl = [] ∧ (s.kind, s.addr) ∈ asked c
    ∧ (∃ host port, IsHostPort s.addr host port ∧ w.isInet fd (BackupNumber.strtoul port) ≠ 0)
    ∧ (s.kind = .status → addrFor w fd c.listen = none) := by
  unfold adopt at h
  cases hm : addrFor w fd c.listen with
  | some a =>
    rw [hm] at h
    simp only at h
    split at h
    case isFalse => cases h
    injection h with h
    subst h
    obtain ⟨h1, h2⟩ := addrFor_some hm
    exact ⟨rfl, rfl, List.mem_append_left _ (List.mem_map.2 ⟨a, h1, rfl⟩), h2, fun h => by cases h⟩
  | none =>
    rw [hm] at h
    simp only at h
    cases hs : addrFor w fd c.listenStatus with
    | none => rw [hs] at h; cases h
    | some a =>
      rw [hs] at h
      simp only at h
      split at h
      case isFalse => cases h
      injection h with h
      subst h
      obtain ⟨h1, h2⟩ := addrFor_some hs
      exact ⟨rfl, rfl, List.mem_append_right _ (List.mem_map.2 ⟨a, h1, rfl⟩), h2, fun _ => rfl⟩

theorem adoptAll_some {c : Conf} {w : World} : ∀ {fds : List Nat} {r : List Sock},
    adoptAll c w fds = some r →
    r.map Sock.place = fds.map Sum.inr ∧ ∀ s ∈ r, ∃ fd ∈ fds, adopt c w fd = some s
  | [], r, h => by injection h with h; subst h; exact ⟨rfl, fun s hs => by cases hs⟩
  | fd :: fds, r, h => by
    unfold adoptAll at h
    cases ha : adopt c w fd with
    | none => rw [ha] at h; cases h
    | some s =>
      rw [ha] at h
      simp only at h
      cases hr : adoptAll c w fds with
      | none => rw [hr] at h; cases h
      | some r' =>
        rw [hr] at h
        injection h with h
        subst h
        obtain ⟨h1, h2⟩ := adoptAll_some hr
        refine ⟨by simp [h1, (adopt_some ha).1], ?_⟩
        intro x hx
        rcases List.mem_cons.1 hx with rfl | hx
        · exact ⟨fd, List.mem_cons_self .., ha⟩
        · obtain ⟨f, hf, hf'⟩ := h2 x hx
          exact ⟨f, List.mem_cons_of_mem _ hf, hf'⟩

theorem adoptAll_none {c : Conf} {w : World} {fd : Nat} (h : adopt c w fd = none) :
    ∀ {fds : List Nat}, fd ∈ fds → adoptAll c w fds = none
  | [], hm => by cases hm
  | f :: fds, hm => by
    unfold adoptAll
    cases ha : adopt c w f with
    | none => rfl
    | some s =>
      rcases List.mem_cons.1 hm with rfl | hm
      · rw [h] at ha; cases ha
      · simp only [adoptAll_none h hm, Option.map_none]

theorem mem_asked {c : Conf} {k : Kind} {a : Str} (h : (k, a) ∈ asked c) :
    (k = .main ∧ a ∈ c.listen) ∨ (k = .status ∧ a ∈ c.listenStatus) := by
  rcases List.mem_append.1 h with h | h
  · obtain ⟨b, hb, e⟩ := List.mem_map.1 h
    injection e with e1 e2
    exact .inl ⟨e1.symm, e2 ▸ hb⟩
  · obtain ⟨b, hb, e⟩ := List.mem_map.1 h
    injection e with e1 e2
    exact .inr ⟨e1.symm, e2 ▸ hb⟩

end Verif.Listening
