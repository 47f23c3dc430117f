import Verif.Lemmas.Listening

/-!
# C117: the server listens where it is told, or does not start
-/

namespace Verif
open Listening

/-- **C117.** An address that the settings let through is a host and a port, parted at the last colon; neither is
empty, and the port is one that there can be. -/
theorem C117_split (a : Str) (h : Confs.listenOk a = true) :
    ∃ host port, splitAddr a = some (host, port) ∧ IsHostPort a host port ∧ host ≠ [] ∧ port ≠ []
      ∧ 0 < Cntr.atoi port ∧ Cntr.atoi port ≤ 65535 := by
  simp only [Confs.listenOk, Bool.and_eq_true, decide_eq_true_eq] at h
  obtain ⟨⟨_, hm⟩, ⟨h1, h2⟩, h3⟩ := h
  have hm : (58 : Byte) ∈ a := by simpa using hm
  obtain ⟨host, port, hap⟩ := exists_split hm
  have hl : (a.reverse.takeWhile (fun b => b ≠ 58)).reverse = port := by
    rw [hap.1]; exact last_port hap.2
  rw [hl] at h1 h2 h3
  refine ⟨host, port, split_of hap, hap, ?_, ?_, h3.1, h3.2⟩
  · rintro rfl
    rw [hap.1] at h1
    simp at h1
  · rintro rfl
    simp at h2

/-- **C117.** Addresses with more than one colon are parted at the last one, whatever is before it. -/
theorem C117_parted (host port : Str) (h : (58 : Byte) ∉ port) :
    splitAddr (host ++ 58 :: port) = some (host, port) := split_of ⟨rfl, h⟩

/-- **C117.** A server that has started listens at every address of the settings, and nowhere else: first at those
of `listen`, for clients, then at those of `listen_status`, for monitors; each with the rules of its own kind.
What is missing: that every socket can be watched; see `C117_unwatched_violated`. -/
theorem C117_listens_partial (c : Listening.Conf) (w : Listening.World) (r : List Sock)
    (hg : w.given = some 0) (hw : ∀ k a, (k, a) ∈ asked c → w.watches a = true) (h : Listening.start c w = some r) :
    r.map (fun s => (s.kind, s.addr)) = asked c
    ∧ ∀ pre s post, r = pre ++ s :: post →
        (∃ host port, IsHostPort s.addr host port ∧ s.place = .inl (host, port) ∧ w.opens pre host port = true)
        ∧ Ipacl.appendAll w.pton [] (c.allowOf s.kind) = some s.acl := by
  unfold Listening.start at h
  rw [hg] at h
  obtain ⟨h1, h2⟩ := openAll_fits h
  refine ⟨?_, fun pre s post he => (h2 pre s post he).2⟩
  rw [h1, List.filter_eq_self]
  intro x hx
  exact hw x.1 x.2 hx

/-- **C117.** Whatever can be watched: it listens nowhere but at the addresses of the settings, in their order and
for what they are. -/
theorem C117_nowhere_else (c : Listening.Conf) (w : Listening.World) (r : List Sock)
    (hg : w.given = some 0) (h : Listening.start c w = some r) :
    r.map (fun s => (s.kind, s.addr)) = (asked c).filter (fun x => w.watches x.2) := by
  unfold Listening.start at h
  rw [hg] at h
  exact (openAll_fits h).1

/-- **C117.** A server all of whose addresses can be listened on, and whose networks can be read, starts. -/
theorem C117_starts (c : Listening.Conf) (w : Listening.World) (hg : w.given = some 0) (h : AllFine c w) :
    ∃ r, Listening.start c w = some r := by
  unfold Listening.start
  rw [hg]
  obtain ⟨r, hr⟩ := listenAll_fine (w := w) (k := .main) (allow := c.allow) (as := c.listen) []
    (fun a ha => h .main a (List.mem_append_left _ (List.mem_map.2 ⟨a, ha, rfl⟩)))
  show ∃ r, openAll c w = some r
  unfold openAll
  rw [hr]
  exact listenAll_fine r (fun a ha => h .status a (List.mem_append_right _ (List.mem_map.2 ⟨a, ha, rfl⟩)))

/-- **C117.** If any one of the addresses cannot be listened on, or is none, the server does not start: it does not
go on with the others. -/
theorem C117_one_bad (c : Listening.Conf) (w : Listening.World) (k : Kind) (a : Str) (hg : w.given = some 0)
    (ha : (k, a) ∈ asked c)
    (hb : ∀ host port, IsHostPort a host port → ∀ socks, w.opens socks host port = false) :
    Listening.start c w = none := by
  unfold Listening.start
  rw [hg]
  show openAll c w = none
  unfold openAll
  rcases mem_asked ha with ⟨_, ha⟩ | ⟨_, ha⟩
  · rw [listenAll_bad hb [] ha]
  · cases listenAll w .main c.allow [] c.listen with
    | none => rfl
    | some r => exact listenAll_bad hb r ha

/-- **C117.** A connection is closed at once if and only if the networks of its kind do not have it: those of
`network_allow_status` do not count for clients, nor the other way round. -/
theorem C117_admits (c : Listening.Conf) (w : Listening.World) (r : List Sock) (s : Sock) (from_ : Ipacl.Addr)
    (hg : w.given = some 0) (h : Listening.start c w = some r) (hs : s ∈ r) :
    admits s from_ = Ipacl.allowed w.pton (c.allowOf s.kind) from_ := by
  unfold Listening.start at h
  rw [hg] at h
  obtain ⟨pre, post, he⟩ := List.append_of_mem hs
  have := ((openAll_fits h).2 pre s post he).2.2
  unfold admits Ipacl.allowed
  rw [this]

/-- **C117.** With networks that cannot be read for one of its kinds, the server does not start with a socket of
that kind. -/
theorem C117_unreadable (c : Listening.Conf) (w : Listening.World) (r : List Sock) (k : Kind)
    (hg : w.given = some 0) (hn : Ipacl.appendAll w.pton [] (c.allowOf k) = none)
    (h : Listening.start c w = some r) : ∀ s ∈ r, s.kind ≠ k := by
  intro s hs hk
  unfold Listening.start at h
  rw [hg] at h
  obtain ⟨pre, post, he⟩ := List.append_of_mem hs
  have := ((openAll_fits h).2 pre s post he).2.2
  rw [hk, hn] at this
  cases this

/-- **C117.** A server that systemd gives sockets takes all of them, in order, and opens none itself. Each goes by
an address of the settings whose port is that of the socket, as far as systemd tells. -/
theorem C117_activated (c : Listening.Conf) (w : Listening.World) (r : List Sock) (n : Nat)
    (hg : w.given = some (n + 1)) (h : Listening.start c w = some r) :
    r.map Sock.place = (List.range (n + 1)).map (fun i => .inr (i + 3))
    ∧ ∀ s ∈ r, (s.kind, s.addr) ∈ asked c ∧ ∃ fd host port, s.place = .inr fd ∧ IsHostPort s.addr host port
        ∧ w.isInet fd (BackupNumber.strtoul port) ≠ 0 := by
  unfold Listening.start at h
  rw [hg] at h
  obtain ⟨h1, h2⟩ := adoptAll_some h
  refine ⟨by rw [h1, List.map_map]; rfl, ?_⟩
  intro s hs
  obtain ⟨fd, _, ha⟩ := h2 s hs
  obtain ⟨a1, _, a3, ⟨host, port, a4, a5⟩, _⟩ := adopt_some ha
  exact ⟨a3, fd, host, port, a1, a4, a5⟩

/-- **C117.** With a socket from systemd that has the port of none of the addresses, or with an error from systemd,
the server does not start. -/
theorem C117_strange (c : Listening.Conf) (w : Listening.World)
    (h : w.given = none ∨ ∃ n fd, w.given = some n ∧ 3 ≤ fd ∧ fd < n + 3
      ∧ ∀ k a host port, (k, a) ∈ asked c → IsHostPort a host port →
          w.isInet fd (BackupNumber.strtoul port) = 0) : Listening.start c w = none := by
  unfold Listening.start
  rcases h with h | ⟨n, fd, h, h3, hn, hi⟩
  · rw [h]
  · rw [h]
    cases n with
    | zero => omega
    | succ n =>
      have ha : adopt c w fd = none := by
        cases ha : adopt c w fd with
        | none => rfl
        | some s =>
          obtain ⟨_, _, a3, ⟨host, port, a4, a5⟩, _⟩ := adopt_some ha
          exact absurd (hi s.kind s.addr host port a3 a4) a5
      exact adoptAll_none ha (List.mem_map.2 ⟨fd - 3, List.mem_range.2 (by omega), by omega⟩)

/-- **C117.** If systemd tells the ports, and no port is both for clients and for monitors, then each socket is for
what its port is for. What is missing: addresses that differ in the host only; errors of systemd. See
`C117_same_port_violated` and `C117_no_socket_violated`. -/
theorem C117_activated_kind_partial (c : Listening.Conf) (w : Listening.World) (r : List Sock) (n : Nat)
    (portOf : Nat → Nat) (hg : w.given = some (n + 1)) (hp : PortsApart c) (ht : TellsPorts w portOf)
    (h : Listening.start c w = some r) (s : Sock) (hs : s ∈ r) (fd : Nat) (hf : s.place = .inr fd)
    (k : Kind) (a host port : Str) (ha : (k, a) ∈ asked c) (hap : IsHostPort a host port)
    (he : BackupNumber.strtoul port = portOf fd) : s.kind = k := by
  obtain ⟨_, h2⟩ := C117_activated c w r n hg h
  obtain ⟨h3, fd', host', port', h4, h5, h6⟩ := h2 s hs
  rw [hf] at h4
  injection h4 with h4
  subst h4
  have h6 := (ht fd _).1 h6
  rcases mem_asked h3 with ⟨h3, h7⟩ | ⟨h3, h7⟩ <;> rcases mem_asked ha with ⟨h8, h9⟩ | ⟨h8, h9⟩
  · rw [h3, h8]
  · exact absurd (h6.trans he.symm) (hp _ h7 _ h9 _ _ _ _ h5 hap)
  · exact absurd (he.trans h6.symm) (hp _ h9 _ h7 _ _ _ _ hap h5)
  · rw [h3, h8]

/-! ## A case -/

/-- Settings with an address of each kind, and a network for clients. -/
def lstConf : Listening.Conf :=
  ⟨[bytes "0.0.0.0:4971", bytes "::1:4973"], [bytes "127.0.0.1:4972"], [bytes "10.0.0.1"], []⟩

/-- A system that knows one address, lets all be opened, and gives `n` sockets. -/
def lstWorld (given : Option Nat) (isInet : Nat → Nat → Int) : Listening.World :=
  ⟨⟨fun t => if t = bytes "10.0.0.1" then some 0x0A000001 else none, fun _ => none⟩,
    fun _ _ _ => true, fun _ => true, given, isInet⟩

/-- Two sockets, the first for the port of the clients, the second for that of the monitors. -/
def lstTwo : Nat → Nat → Int := fun fd p => if (fd, p) = (3, 4971) ∨ (fd, p) = (4, 4972) then 1 else 0

example : Confs.listenOk (bytes "0.0.0.0:4971") = true ∧ Confs.listenOk (bytes "::1:4973") = true := by decide

example : (Listening.start lstConf (lstWorld (some 0) lstTwo)).map (·.map (fun s => (s.kind, s.place)))
    = some [(.main, .inl (bytes "0.0.0.0", bytes "4971")), (.main, .inl (bytes "::1", bytes "4973")),
      (.status, .inl (bytes "127.0.0.1", bytes "4972"))] := by decide +kernel

example : Listening.start lstConf (lstWorld (some 2) lstTwo)
    = some [⟨.main, bytes "0.0.0.0:4971", .inr 3, []⟩, ⟨.status, bytes "127.0.0.1:4972", .inr 4, []⟩] := by
  decide +kernel

example : Listening.start lstConf (lstWorld (some 3) lstTwo) = none := by decide +kernel

/-- The case meets what `C117_starts` asks for. -/
example : AllFine lstConf (lstWorld (some 0) lstTwo) := by
  intro k a h
  have h : (k, a) = (Kind.main, bytes "0.0.0.0:4971") ∨ (k, a) = (Kind.main, bytes "::1:4973")
      ∨ (k, a) = (Kind.status, bytes "127.0.0.1:4972") := by simpa [asked, lstConf] using h
  rcases h with h | h | h <;> injection h with h1 h2 <;> subst h1 <;> subst h2
  · exact ⟨⟨bytes "0.0.0.0", bytes "4971", ⟨by decide, by decide⟩, fun _ => rfl⟩, by decide +kernel⟩
  · exact ⟨⟨bytes "::1", bytes "4973", ⟨by decide, by decide⟩, fun _ => rfl⟩, by decide +kernel⟩
  · exact ⟨⟨bytes "127.0.0.1", bytes "4972", ⟨by decide, by decide⟩, fun _ => rfl⟩, by decide +kernel⟩

/-- And what `C117_activated_kind_partial` asks for. -/
example : PortsApart lstConf ∧ TellsPorts (lstWorld (some 2) (fun fd p => if p = fd + 4968 then 1 else 0)) (· + 4968)
    ∧ (Listening.start lstConf (lstWorld (some 2) (fun fd p => if p = fd + 4968 then 1 else 0))).isSome = true := by
  refine ⟨?_, ?_, by decide +kernel⟩
  · intro a ha b hb h p h' p' h1 h2
    have ha : a = bytes "0.0.0.0:4971" ∨ a = bytes "::1:4973" := by simpa [lstConf] using ha
    have hb : b = bytes "127.0.0.1:4972" := by simpa [lstConf] using hb
    subst hb
    have e2 := split_of h2
    rw [show splitAddr (bytes "127.0.0.1:4972") = some (bytes "127.0.0.1", bytes "4972") by decide +kernel] at e2
    injection e2 with e2
    injection e2 with _ e2
    subst e2
    rcases ha with rfl | rfl
    · have e1 := split_of h1
      rw [show splitAddr (bytes "0.0.0.0:4971") = some (bytes "0.0.0.0", bytes "4971") by decide +kernel] at e1
      injection e1 with e1
      injection e1 with _ e1
      subst e1
      decide +kernel
    · have e1 := split_of h1
      rw [show splitAddr (bytes "::1:4973") = some (bytes "::1", bytes "4973") by decide +kernel] at e1
      injection e1 with e1
      injection e1 with _ e1
      subst e1
      decide +kernel
  · intro fd p
    show (if p = fd + 4968 then (1 : Int) else 0) ≠ 0 ↔ p = fd + 4968
    by_cases h : p = fd + 4968 <;> simp [h]

/-! ## What does not hold -/

/-- C117 fails for a socket that cannot be watched (`setup_asfd` fails): the server starts all the same, without
that address, because `init_listen_socket` goes to `end` and not to `error`. -/
theorem C117_unwatched_violated : ∃ (c : Listening.Conf) (w : Listening.World) (r : List Sock),
    w.given = some 0 ∧ AllFine c w ∧ Listening.start c w = some r
    ∧ ∃ k a, (k, a) ∈ asked c ∧ (k, a) ∉ r.map (fun s => (s.kind, s.addr)) := by
  refine ⟨⟨[bytes "a:1"], [], [], []⟩, { lstWorld (some 0) lstTwo with watches := fun _ => false }, [], rfl, ?_,
    by decide +kernel, .main, bytes "a:1", by decide, by decide⟩
  intro k a h
  have h : (k, a) = (Kind.main, bytes "a:1") := by simpa [asked] using h
  injection h with h1 h2
  subst h1; subst h2
  exact ⟨⟨bytes "a", bytes "1", ⟨by decide, by decide⟩, fun _ => rfl⟩, by decide⟩

/-- C117 fails for the networks of the settings when systemd gives the sockets: `network_allow` and
`network_allow_status` are not put on them, so no connection is closed at once, from anywhere. -/
theorem C117_networks_violated : ∃ (c : Listening.Conf) (w : Listening.World) (s : Sock) (from_ : Ipacl.Addr),
    w.given = some 1 ∧ Listening.start c w = some [s] ∧ s.kind = .main
    ∧ admits s from_ = true ∧ Ipacl.allowed w.pton c.allow from_ = false :=
  ⟨lstConf, lstWorld (some 1) lstTwo, ⟨.main, bytes "0.0.0.0:4971", .inr 3, []⟩, .v4 0x0A000002, rfl,
    by decide +kernel, rfl, by decide, by decide +kernel⟩

/-- C117 fails for sockets from systemd if `listen` and `listen_status` have the same port on different addresses:
only the port is compared, and the socket for monitors is taken for one for clients. -/
theorem C117_same_port_violated : ∃ (c : Listening.Conf) (w : Listening.World) (portOf : Nat → Nat) (r : List Sock),
    w.given = some 2 ∧ (c.listen ++ c.listenStatus).Nodup ∧ TellsPorts w portOf
    ∧ (c.listen ++ c.listenStatus).all Confs.listenOk = true
    ∧ Listening.start c w = some r ∧ c.listenStatus ≠ [] ∧ ∀ s ∈ r, s.kind = .main := by
  refine ⟨⟨[bytes "10.0.0.1:4971"], [bytes "127.0.0.1:4971"], [], []⟩,
    lstWorld (some 2) (fun _ p => if p = 4971 then 1 else 0), fun _ => 4971,
    [⟨.main, bytes "10.0.0.1:4971", .inr 3, []⟩, ⟨.main, bytes "10.0.0.1:4971", .inr 4, []⟩],
    rfl, by decide, ?_, by decide, by decide +kernel, by decide, by decide⟩
  intro fd p
  show (if p = 4971 then (1 : Int) else 0) ≠ 0 ↔ p = 4971
  by_cases h : p = 4971 <;> simp [h]

/-- C117 fails for something from systemd that cannot be asked for its port: the error of `sd_is_socket_inet` is
less than 0, and that is taken for a yes. -/
theorem C117_no_socket_violated : ∃ (c : Listening.Conf) (w : Listening.World) (r : List Sock),
    w.given = some 1 ∧ (∀ fd p, w.isInet fd p < 0) ∧ Listening.start c w = some r ∧ r ≠ [] :=
  ⟨lstConf, lstWorld (some 1) (fun _ _ => -9), [⟨.main, bytes "0.0.0.0:4971", .inr 3, []⟩], rfl,
    fun _ _ => (by decide : (-9 : Int) < 0), by decide +kernel, by decide⟩

end Verif
