import Verif.Lemmas.ConfineSteps

/-!
# C49: a restore writes only under the directory it was told to restore to
-/

namespace Verif
open Confine

/-! ## For every list of entries -/

/-- Whatever the server sends, in whatever order, and whatever is there already: nothing is made, removed or
written to that is not below the restore directory, and what is elsewhere stays as it was. Not for sockets,
and not for metadata of directories with a path with `.` or `..` or two slashes in it. -/
theorem C49_names_partial (o : Options) (D : List Name) (fs : FS) (next : Nat) (es : List Entry)
    (hfs : GoodFS fs) (hD : RealDir fs D) (hnul : ∀ e ∈ es, NoNul e.path)
    (hh : ∀ e ∈ es, ∀ e', stripped o e = some e' → Harmless e') :
    (∀ p, ¬ Below D p → (restore o D fs next es).fs p = fs p) ∧
    (∀ p, .name p ∈ (restore o D fs next es).effs → Below D p) ∧
    (∀ p i, .data p i ∈ (restore o D fs next es).effs → Below D p) := by
  have h := restore_inv (H := True) (Hm := True) (Hd := True) (o := o) (next := next) hfs hD hnul
    (fun e he e' h => ⟨hh e he e' h, fun _ => trivial, fun _ => trivial, fun _ => trivial⟩)
  exact ⟨h.outside, fun p hp => h.effs _ hp, fun p i hp => (h.effs _ hp).1⟩

/-- If no entry with data has the mode of a directory, data are only written to files that the restore itself
has made, never to one that was there, under whatever name. -/
theorem C49_fresh_partial (o : Options) (D : List Name) (fs : FS) (next : Nat) (es : List Entry)
    (hfs : GoodFS fs) (hD : RealDir fs D) (hnext : ∀ p i, fs p = some (.file i) → i < next)
    (hnul : ∀ e ∈ es, NoNul e.path)
    (hh : ∀ e ∈ es, ∀ e', stripped o e = some e' → Harmless e' ∧ ¬ DataDir e') (p : List Name) (i : Nat)
    (hp : .data p i ∈ (restore o D fs next es).effs) : ∀ q, fs q ≠ some (.file i) := by
  have h := restore_inv (H := True) (Hm := True) (Hd := False) (o := o) (next := next) hfs hD hnul
    (fun e he e' h => ⟨(hh e he e' h).1, fun _ => trivial, fun _ => trivial, fun hd => (hh e he e' h).2 hd⟩)
  intro q hq
  rcases (h.effs _ hp).2 with hn | hn
  · exact absurd (hnext q i hq) (Nat.not_lt.mpr hn)
  · exact hn

/-- If no path ends with `..`, owners and times are only changed of names at or below the restore
directory. -/
theorem C49_owners_partial (o : Options) (D : List Name) (fs : FS) (next : Nat) (es : List Entry)
    (hfs : GoodFS fs) (hD : RealDir fs D) (hnul : ∀ e ∈ es, NoNul e.path)
    (hh : ∀ e ∈ es, ∀ e', stripped o e = some e' → Harmless e' ∧ ¬ EndsUp e') (p : List Name)
    (hp : .own p ∈ (restore o D fs next es).effs) : D <+: p := by
  have h := restore_inv (H := False) (Hm := True) (Hd := True) (o := o) (next := next) hfs hD hnul
    (fun e he e' h => ⟨(hh e he e' h).1, fun hu => (hh e he e' h).2 hu, fun _ => trivial, fun _ => trivial⟩)
  rcases h.effs _ hp with hn | hn
  · exact hn
  · exact hn.2.elim

/-- If moreover links have the mode of a link, and there are no special files and no access control lists,
modes are only changed of what is at or below the restore directory. -/
theorem C49_modes_partial (o : Options) (D : List Name) (fs : FS) (next : Nat) (es : List Entry)
    (hfs : GoodFS fs) (hD : RealDir fs D) (hnul : ∀ e ∈ es, NoNul e.path)
    (hh : ∀ e ∈ es, ∀ e', stripped o e = some e' → Harmless e' ∧ ¬ EndsUp e' ∧ ¬ ThroughLink e')
    (p : List Name) (hp : .mode p ∈ (restore o D fs next es).effs) : D <+: p := by
  have h := restore_inv (H := False) (Hm := False) (Hd := True) (o := o) (next := next) hfs hD hnul
    (fun e he e' h => ⟨(hh e he e' h).1, fun hu => (hh e he e' h).2.1 hu, fun hu => (hh e he e' h).2.2 hu,
      fun _ => trivial⟩)
  rcases h.effs _ hp with hn | hn | hn
  · exact hn
  · exact hn.2.elim
  · exact hn.elim

/-! ## A file system and some entries -/

namespace Confine

/-- A file system from a list of what is there. -/
def ofList (l : List (List Name × Node)) : FS := fun p => l.lookup p

/-- `/a/r`, where things are restored to, and `/etc` with a file. -/
def world : FS := ofList [([], .dir), ([bytes "a"], .dir), ([bytes "a", bytes "r"], .dir), ([bytes "etc"], .dir),
  ([bytes "etc", bytes "pw"], .file 1)]
def room : List Name := [bytes "a", bytes "r"]
def opts : Options := ⟨0, none, false⟩

/-- An ordinary restore. -/
def ordinary : List Entry :=
  [⟨.directory, bytes "/home", [], false, .dir, false⟩,
   ⟨.file, bytes "/home/x", [], false, .other, false⟩,
   ⟨.softLink, bytes "/home/l", bytes "/etc", false, .lnk, false⟩,
   ⟨.metadata, bytes "/home/new/deep", [], false, .dir, false⟩,
   ⟨.hardLink, bytes "/home/h", bytes "/home/x", true, .lnk, false⟩]

/-- A link out of the restore directory, and then a file through it. -/
def through : List Entry :=
  [⟨.softLink, bytes "l", bytes "/etc", false, .lnk, false⟩,
   ⟨.file, bytes "l/pw", [], false, .other, false⟩,
   ⟨.file, bytes "l/no/such", [], false, .other, false⟩,
   ⟨.file, bytes "../../etc/pw", [], false, .other, false⟩,
   ⟨.file, bytes "new/../../../etc/pw2", [], false, .other, false⟩]

theorem lookup_mem {α β : Type} [BEq α] [LawfulBEq α] {l : List (α × β)} {a : α} {b : β}
    (h : l.lookup a = some b) : (a, b) ∈ l := by
  induction l with
  | nil => simp at h
  | cons x l ih =>
    obtain ⟨k, v⟩ := x
    rw [List.lookup_cons] at h
    split at h
    · rename_i e
      injection h with h
      rw [← h, LawfulBEq.eq_of_beq e]; simp
    · exact List.mem_cons_of_mem _ (ih h)

theorem world_good : GoodFS world := by
  have hm : ∀ p, world p ≠ none → p ∈ [[], [bytes "a"], [bytes "a", bytes "r"], [bytes "etc"],
      [bytes "etc", bytes "pw"]] := by
    intro p hp
    rcases h : world p with _ | n
    · exact absurd h hp
    · have := lookup_mem h
      simp only [List.mem_cons, Prod.mk.injEq, List.not_mem_nil, or_false] at this ⊢
      rcases this with h | h | h | h | h
      · exact .inl h.1
      · exact .inr (.inl h.1)
      · exact .inr (.inr (.inl h.1))
      · exact .inr (.inr (.inr (.inl h.1)))
      · exact .inr (.inr (.inr (.inr h.1)))
  refine ⟨by decide, ?_, ?_⟩
  · intro p c h
    have := hm _ h
    have e : p = (p ++ [c]).dropLast := by simp
    have key : ∀ q ∈ [[], [bytes "a"], [bytes "a", bytes "r"], [bytes "etc"],
      [bytes "etc", bytes "pw"]], world q.dropLast = some .dir := by decide
    rw [e]; exact key _ this
  · intro p h c hc
    have key : ∀ q ∈ [[], [bytes "a"], [bytes "a", bytes "r"], [bytes "etc"],
      [bytes "etc", bytes "pw"]], ∀ c ∈ q, c ≠ [] ∧ slash ∉ c ∧ (0 : Byte) ∉ c := by decide
    exact key _ (hm p h) c hc

theorem realDir_take {fs : FS} {d : List Name} (h : ∀ k ∈ List.range (d.length + 1), fs (d.take k) = some .dir)
    (hp : ∀ c ∈ d, isStay c = false ∧ isUp c = false) : RealDir fs d := by
  refine ⟨fun q hq => ?_, hp⟩
  rw [List.prefix_iff_eq_take.mp hq]
  exact h _ (List.mem_range.mpr (Nat.lt_succ_of_le hq.length_le))

theorem room_real : RealDir world room := realDir_take (by decide +kernel) (by decide +kernel)

/-- The hypotheses are met by ordinary restores and by attacks. -/
theorem hypotheses_met :
    (∀ es ∈ [ordinary, through], (∀ e ∈ es, NoNul e.path) ∧
      ∀ e ∈ es, ∀ e', stripped opts e = some e' →
        Harmless e' ∧ ¬ EndsUp e' ∧ ¬ ThroughLink e' ∧ ¬ DataDir e') ∧
    (∀ p i, world p = some (.file i) → i < 2) := by
  refine ⟨?_, ?_⟩
  · intro es hes
    have hs : ∀ e, stripped opts e = some e := fun e => rfl
    refine ⟨fun e he => ?_, fun e he e' h => ?_⟩
    · have : ∀ es ∈ [ordinary, through], ∀ e ∈ es, (0 : Byte) ∉ e.path := by decide +kernel
      exact this es hes e he
    · rw [hs] at h
      injection h with h
      subst h
      have : ∀ es ∈ [ordinary, through], ∀ e ∈ es,
        Harmless e ∧ ¬ EndsUp e ∧ ¬ ThroughLink e ∧ ¬ DataDir e := by decide +kernel
      exact this es hes e he
  · intro p i h
    have := lookup_mem h
    simp only [List.mem_cons, Prod.mk.injEq, List.not_mem_nil, or_false, Node.file.injEq, reduceCtorEq,
      and_false, false_or] at this
    omega

end Confine

/-- The ordinary restore does its work. -/
example : (restore opts room world 2 ordinary).fs (room ++ [bytes "home", bytes "x"]) = some (.file 2) ∧
    (restore opts room world 2 ordinary).fs (room ++ [bytes "home", bytes "h"]) = some (.file 2) ∧
    (restore opts room world 2 ordinary).fs (room ++ [bytes "home", bytes "l"]) = some (.lnk (bytes "/etc")) ∧
    (restore opts room world 2 ordinary).fs (room ++ [bytes "home", bytes "new", bytes "deep"]) = some .dir ∧
    .data (room ++ [bytes "home", bytes "x"]) 2 ∈ (restore opts room world 2 ordinary).effs := by
  decide +kernel

/-- The attack makes the link and nothing else. -/
example : (restore opts room world 2 through).effs.filter (fun e => match e with | .name _ => true | _ => false)
    = [.name (room ++ [bytes "new"]), .name (room ++ [bytes "l"])] ∧
    (restore opts room world 2 through).fs [bytes "etc", bytes "pw"] = some (.file 1) := by
  decide +kernel

/-! ## Where the property does not hold -/

/-- A directory entry with the path `..` changes owner and mode of the directory above the restore
directory. -/
theorem C49_dotdot_violated : ∃ es : List Entry, (∀ e ∈ es, Harmless e) ∧
    .own [bytes "a"] ∈ (restore opts room world 2 es).effs ∧
    .mode [bytes "a"] ∈ (restore opts room world 2 es).effs ∧ ¬ room <+: [bytes "a"] :=
  ⟨[⟨.directory, bytes "..", [], false, .dir, false⟩], by decide +kernel⟩

/-- A symbolic link that is said to have the mode of a file: the mode is set on what the link points to. -/
theorem C49_chmod_violated : ∃ es : List Entry, (∀ e ∈ es, Harmless e ∧ ¬ EndsUp e) ∧
    .mode [bytes "etc", bytes "pw"] ∈ (restore opts room world 2 es).effs ∧
    ¬ room <+: [bytes "etc", bytes "pw"] :=
  ⟨[⟨.softLink, bytes "x", bytes "/etc/pw", false, .other, false⟩], by decide +kernel⟩

/-- An access control list is set on what a link points to. -/
theorem C49_acl_violated : ∃ es : List Entry, (∀ e ∈ es, Harmless e ∧ ¬ EndsUp e) ∧
    .mode [bytes "etc", bytes "pw"] ∈ (restore opts room world 2 es).effs ∧
    ¬ room <+: [bytes "etc", bytes "pw"] :=
  ⟨[⟨.softLink, bytes "x", bytes "/etc/pw", false, .lnk, false⟩,
    ⟨.metadata, bytes "x", [], false, .other, true⟩], by decide +kernel⟩

/-- The target of a hard link is not checked: a file from outside gets a name in the restore directory, and
its owner is changed. -/
theorem C49_hard_link_violated : ∃ es : List Entry, (∀ e ∈ es, Harmless e ∧ ¬ EndsUp e) ∧
    world [bytes "etc", bytes "pw"] = some (.file 1) ∧
    (restore opts room world 2 es).fs (room ++ [bytes "x"]) = some (.file 1) ∧
    .own (room ++ [bytes "x"]) ∈ (restore opts room world 2 es).effs :=
  ⟨[⟨.hardLink, bytes "x", bytes "../../etc/pw", true, .lnk, false⟩], by decide +kernel⟩

/-- After that an entry with data that is said to be a directory is written into the file from outside, even
if overwriting is not allowed. -/
theorem C49_in_place_violated : ∃ es : List Entry, (∀ e ∈ es, Harmless e ∧ ¬ EndsUp e) ∧
    opts.overwrite = false ∧ world [bytes "etc", bytes "pw"] = some (.file 1) ∧
    .data (room ++ [bytes "x"]) 1 ∈ (restore opts room world 2 es).effs :=
  ⟨[⟨.hardLink, bytes "x", bytes "../../etc/pw", true, .lnk, false⟩,
    ⟨.file, bytes "x", [], false, .dir, false⟩], by decide +kernel⟩

/-- The metadata of a directory: after `mkpath` has failed on `..` in the first attempt, it succeeds in the
second, and makes directories anywhere. -/
theorem C49_metadata_violated : ∃ es : List Entry, (∀ e ∈ es, ¬ EndsUp e ∧ e.cmd = .metadata) ∧
    world [bytes "etc", bytes "y"] = none ∧
    (restore opts room world 2 es).fs [bytes "etc", bytes "y"] = some .dir ∧
    ¬ Below room [bytes "etc", bytes "y"] :=
  ⟨[⟨.metadata, bytes "n/../../../etc/y/x", [], false, .dir, false⟩], by decide +kernel, by decide +kernel,
    by decide +kernel, fun h => absurd h.1 (by decide +kernel)⟩

/-- The path of a socket is cut after 107 bytes. If the name of the restore directory is that long, the
socket is made next to the restore directory, or further up. -/
theorem C49_socket_violated : ∃ (fs : FS) (D : List Name) (es : List Entry) (p : List Name),
    RealDir fs D ∧ es.length = 1 ∧ (∀ e ∈ es, e.path = bytes "s") ∧
    fs p = none ∧ (restore opts D fs 2 es).fs p = some (.file 2) ∧ ¬ D <+: p := by
  exact ⟨ofList [([], .dir), ([List.replicate 110 97], .dir)], [List.replicate 110 97],
    [⟨.special, bytes "s", [], false, .sock, false⟩], [List.replicate 106 97],
    realDir_take (by decide +kernel) (by decide +kernel),
    by decide +kernel, by decide +kernel, by decide +kernel, by decide +kernel, by decide +kernel⟩

end Verif
