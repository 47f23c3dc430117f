import Verif.Lemmas.DataPath

/-!
# C103: the data of every new file is kept at a place of its own
-/

namespace Verif
open Verif.DataPath Verif.Confine Verif.Dpth

/-- C103: whether the data of an entry is put into the tree: it is the content of a file, and neither its
path nor a name in it is longer than the limits that the server has worked out. -/
theorem C103_tree (lim : Limits) (treeLen : Nat) (f : New) (names : List Name) (h : ClientPath f.path names)
    (h2 : 2 ≤ lim.name) :
    treedata lim treeLen f = true ↔
      IsFile f ∧ treeLen + f.path.length + 1 ≤ lim.full ∧ ∀ n ∈ names, n.length ≤ lim.name := by
  constructor
  · intro ht
    have hi := treedata_isFile ht
    refine ⟨hi, ?_⟩
    unfold treedata at ht
    rw [hi.2] at ht
    simp only [Bool.false_eq_true, if_false] at ht
    split at ht
    · cases ht
    · rw [← pathTooLong_client h h2]
      simpa using ht
  · rintro ⟨hi, hl⟩
    rw [← pathTooLong_client h h2] at hl
    unfold treedata
    rw [hi.2, hl]
    simp only [Bool.false_eq_true, if_false, Bool.not_false, ite_eq_right_iff]
    rintro ⟨a, b, c⟩
    rcases hi.1 with h | h | h
    · exact absurd h a
    · exact absurd h b
    · exact absurd h c

/-- C103: the data path of a file in the tree is that of the file on the client, below `t`; any other is made
of numbers, and is compressed if its name says so. -/
theorem C103_where (tree : Bool) (lim : Limits) (treeLen : Nat) (d : Dpth) (hd : d.Ok) (f : New)
    (names : List Name) (h : ClientPath f.path names) :
    (tree = true ∧ treedata lim treeLen f = true →
      newDatapth tree lim treeLen d f = (bytes "t" ++ names.flatMap (fun n => slash :: n), true)) ∧
    (¬ (tree = true ∧ treedata lim treeLen f = true) →
      ∃ p, newDatapth tree lim treeLen d f = (p, false) ∧
        parts p = [Iobuf.hex04 d.a, Iobuf.hex04 d.b,
          Iobuf.hex04 d.c ++ (if f.gz = true ∧ f.cmd ≠ .efsFile then bytes ".gz" else [])]) := by
  constructor
  · rintro ⟨h1, h2⟩
    unfold newDatapth
    rw [h1, h2, treeDatapth_client h]
    rfl
  · intro hn
    have : (tree && treedata lim treeLen f) = false := by
      rw [Bool.and_eq_false_iff]
      cases tree
      · exact Or.inl rfl
      · cases ht : treedata lim treeLen f
        · exact Or.inr rfl
        · exact absurd ⟨rfl, ht⟩ hn
    refine ⟨dpthMk d (f.gz && decide (f.cmd ≠ .efsFile)), by unfold newDatapth; rw [this]; rfl, ?_⟩
    rw [parts_mk hd]
    simp only [Bool.and_eq_true, decide_eq_true_eq]

/-- C103: the new files of a client's backup, received into a new directory: every one is stored, at a data
path of its own, and at the end what is there is what the client sent. This holds as long as the counter does
not run out, and if the operating system accepts names as long as the server takes it to accept, and all the
paths. -/
theorem C103_stored_partial (e : Env) (d : Dpth) (hd : d.Ok) (fs : List New) (hc : OneClient fs)
    (hk : ∀ k, k + 1 < fs.length → (dpthIncr e.maxSub (after e.maxSub d k)).2 = true)
    (hl : 2 ≤ e.lim.name) (hname : e.lim.name ≤ e.kernel.nameMax) (h7 : 7 ≤ e.kernel.nameMax)
    (hpath : ∀ f ∈ fs, e.base + 3 + f.path.length < e.kernel.pathMax) (hnum : e.base + 18 < e.kernel.pathMax) :
    ∃ ps s, receiveAll e ⟨emptyDisk, d⟩ fs = some (ps, s) ∧ ps.length = fs.length ∧ ps.Nodup ∧
      ∀ x ∈ ps.zip fs, s.disk (parts x.1) = some (.file x.2.content) := by
  have hap := assign_apart e fs d hd hc hk
  have hfit : ∀ p ∈ assign e d fs, Fits e.kernel e.base (parts p) ∧ parts p ≠ [] := by
    intro p hp
    refine ⟨?_, parts_ne_nil p⟩
    rcases assign_mem e fs d hd hk p hp with ⟨f, hf, rfl, ht⟩ | ⟨d', gz, h1, h2, rfl⟩
    · obtain ⟨names, hn⟩ := hc.1 f hf
      obtain ⟨_, _, hlen⟩ := (C103_tree e.lim e.treeLen f names hn hl).1 ht
      rw [parts_tree hn]
      constructor
      · have := hpath f hf
        have := (textLen_tree hn e.base).2
        omega
      · intro n hn'
        rcases List.mem_cons.1 hn' with rfl | hn'
        · have ht : Seed.treeDir.length = 1 := by decide
          omega
        · have := hlen n hn'
          omega
    · rw [parts_mk h1]
      have l1 := hex04_len h1.1
      have l2 := hex04_len h1.2.1
      have l3 := hex04_len h1.2.2
      have l4 : (if gz = true then bytes ".gz" else []).length ≤ 3 := by cases gz <;> decide
      constructor
      · simp only [textLen, List.map_cons, List.map_nil, List.sum_cons, List.sum_nil, List.length_append]
        omega
      · intro n hn
        simp only [List.mem_cons, List.not_mem_nil, or_false] at hn
        rcases hn with rfl | rfl | rfl
        · omega
        · omega
        · rw [List.length_append]; omega
  obtain ⟨s', h1, h2⟩ := receiveAll_ok e fs ⟨emptyDisk, d⟩ [] holds_empty
    (fun f hf => no_dot (hc.1 f hf).choose_spec) hfit hap (by simp)
  have hlen : ∀ (fs : List New) (d : Dpth), (assign e d fs).length = fs.length := by
    intro fs
    induction fs with
    | nil => intro d; rfl
    | cons f fs ih => intro d; simp [assign, ih]
  refine ⟨_, s', h1, hlen fs d, ?_, ?_⟩
  · refine List.Pairwise.imp ?_ hap
    intro p q h e
    exact h.1 (by rw [e]; exact List.prefix_rfl)
  · intro x hx
    apply h2.files (parts x.1, x.2.content)
    rw [List.nil_append, List.zip_map]
    exact List.mem_map.2 ⟨x, hx, rfl⟩

/-- C103: the limits that the server works out from what the operating system tells: names as long as it
allows, if that is 255 or more. -/
theorem C103_limits (p n : Nat) (hp : 1024 ≤ p) (hn : 255 ≤ n) (h : p + n < 4294967296) :
    initFsMax p n = ⟨n, p + n⟩ := by
  have h1 : ((p : Int) % 4294967296).toNat = p := by omega
  have h2 : ((n : Int) % 4294967296).toNat = n := by omega
  unfold initFsMax initMax
  rw [h1, h2]
  simp only
  rw [if_neg (by omega), if_neg (by omega), Nat.mod_eq_of_lt h]

example : initFsMax 4096 255 = ⟨255, 4351⟩ := C103_limits 4096 255 (by decide) (by decide) (by decide)

/-- A file whose path in the directory is too long for the operating system cannot be received. -/
theorem C103_refused (e : Env) (s : St) (f : New) (names : List Name) (h : ClientPath f.path names)
    (ht : e.tree = true) (htd : treedata e.lim e.treeLen f = true)
    (hf : ¬ Fits e.kernel e.base (bytes "t" :: names)) : receive e s f = none := by
  unfold receive newDatapth
  rw [no_dot h, ht, htd]
  simp only [Bool.false_eq_true, if_false, Bool.and_self, if_true, parts_tree h]
  cases mkpath e.kernel e.base s.disk (Seed.treeDir :: names).reverse with
  | none => rfl
  | some d =>
    have : openWrite e.kernel e.base d (Seed.treeDir :: names) f.content = none := by
      unfold openWrite
      rw [if_neg (fun h => hf h.1)]
    simp only [this]

/-- The names of a file deep in a tree of a client: 16 of them, with 254 characters each. -/
def deep : List Name := List.replicate 16 (List.replicate 254 97)

theorem deep_path : ClientPath (deep.flatMap (fun n => slash :: n)) deep := by
  apply ClientPath.unix
  · decide +kernel
  · intro n hn
    obtain rfl := (List.mem_replicate.1 hn).2
    unfold GoodName
    decide +kernel

theorem deep_length : (deep.flatMap (fun n => slash :: n)).length = 4080 := by
  rw [flat_length]
  decide +kernel

theorem deep_short : ∀ n ∈ deep, n.length ≤ 255 := by
  intro n hn
  rw [(List.mem_replicate.1 hn).2, List.length_replicate]
  decide

/-- C103 fails: the limit for a path is taken to be that of the operating system plus that of a name. A file
whose path has 4080 characters, which a client can open, is not found to be too long, so that it is to be put
into the tree; there it cannot be made, and the backup ends with an error, every time. -/
theorem C103_long_path_violated : ∃ (e : Env) (f : New),
    -- Linux; the storage directory of the client is `/var/spool/burp/c`
    e.kernel = ⟨4096, 255⟩ ∧ e.lim = initFsMax 4096 255 ∧ e.tree = true ∧
    e.base = (bytes "/var/spool/burp/c/working/data.tmp").length ∧
    e.treeLen = (bytes "/var/spool/burp/c/0000001 2026-01-01 00:00:00/data/t").length ∧
    OneClient [f] ∧ f.path.length < e.kernel.pathMax ∧ treedata e.lim e.treeLen f = true ∧
    ∀ s, receive e s f = none := by
  refine ⟨⟨⟨4096, 255⟩, true, initFsMax 4096 255, 52, 34, 30000⟩,
    ⟨deep.flatMap (fun n => slash :: n), .file, false, false, []⟩, rfl, rfl, rfl, by decide +kernel,
    by decide +kernel, ⟨?_, by simp⟩, ?_, ?_⟩
  · intro f hf
    obtain rfl := List.mem_singleton.1 hf
    exact ⟨_, deep_path⟩
  · exact Nat.lt_of_le_of_lt (Nat.le_of_eq deep_length) (by decide)
  · have ht : treedata (initFsMax 4096 255) 52
        ⟨deep.flatMap (fun n => slash :: n), .file, false, false, []⟩ = true := by
      rw [C103_tree _ _ _ _ deep_path (by decide)]
      refine ⟨⟨Or.inl rfl, rfl⟩, ?_, deep_short⟩
      exact Nat.le_trans (Nat.le_of_eq (congrArg (fun x => 52 + x + 1) deep_length)) (by decide)
    refine ⟨ht, fun s => C103_refused _ _ _ _ deep_path rfl ht ?_⟩
    intro hf
    have h2 := (textLen_tree deep_path 34).1
    rw [deep_length] at h2
    have h4 : textLen 34 (Seed.treeDir :: deep) < 4096 := hf.1
    omega

/-- C103 fails: the limit for a name is never taken to be less than 255. Where the server keeps its backups on
a file system that allows less, such as 143 for one that encrypts names, a file with a longer name is not kept
out of the tree; it cannot be made there, and the backup ends with an error. -/
theorem C103_short_names_violated : ∃ (e : Env) (f : New),
    e.kernel = ⟨4096, 143⟩ ∧ e.lim = initFsMax 4096 143 ∧ e.tree = true ∧
    OneClient [f] ∧ f.path.length = 201 ∧ treedata e.lim e.treeLen f = true ∧ ∀ s, receive e s f = none := by
  have hp : ClientPath (slash :: List.replicate 200 97) [List.replicate 200 97] := by
    have := ClientPath.unix (names := [List.replicate 200 97]) (by simp)
      (by intro n hn; obtain rfl := List.mem_singleton.1 hn; unfold GoodName; decide +kernel)
    simpa only [List.flatMap_cons, List.flatMap_nil, List.append_nil] using this
  have ht : treedata (initFsMax 4096 143) 52 ⟨slash :: List.replicate 200 97, .file, false, false, []⟩ = true := by
    rw [C103_tree _ _ _ _ hp (by decide)]
    refine ⟨⟨Or.inl rfl, rfl⟩, by decide +kernel, by decide +kernel⟩
  refine ⟨⟨⟨4096, 143⟩, true, initFsMax 4096 143, 52, 34, 30000⟩,
    ⟨slash :: List.replicate 200 97, .file, false, false, []⟩, rfl, rfl, rfl, ⟨?_, by simp⟩, by decide +kernel,
    ht, fun s => C103_refused _ _ _ _ hp rfl ht ?_⟩
  · intro f hf
    obtain rfl := List.mem_singleton.1 hf
    exact ⟨_, hp⟩
  · decide +kernel

/-- Two files and the metadata of one of them: the hypotheses of `C103_stored_partial` are met, and this is
what comes out. -/
def sampleFiles : List New :=
  [⟨bytes "/a/b", .file, false, true, bytes "one"⟩, ⟨bytes "/a/b", .metadata, false, true, bytes "two"⟩,
   ⟨bytes "/a/c", .file, false, false, bytes "three"⟩, ⟨bytes "C:/d", .file, true, false, bytes "four"⟩]

def sampleEnv : Env := ⟨⟨4096, 255⟩, true, initFsMax 4096 255, 52, 34, 30000⟩

theorem sample_client : OneClient sampleFiles := by
  have e1 : bytes "/a/b" = [bytes "a", bytes "b"].flatMap (fun n => slash :: n) := by decide
  have e2 : bytes "/a/c" = [bytes "a", bytes "c"].flatMap (fun n => slash :: n) := by decide
  have e3 : bytes "C:/d" = bytes "C:" ++ [bytes "d"].flatMap (fun n => slash :: n) := by decide
  have p1 : ClientPath (bytes "/a/b") [bytes "a", bytes "b"] := by
    rw [e1]; exact .unix (by simp) (by unfold GoodName; decide)
  have p2 : ClientPath (bytes "/a/c") [bytes "a", bytes "c"] := by
    rw [e2]; exact .unix (by simp) (by unfold GoodName; decide)
  have p3 : ClientPath (bytes "C:/d") [bytes "C:", bytes "d"] := by
    rw [e3]; exact .windows rfl (by simp) (by unfold GoodName; decide)
  have u1 : ∀ p, ClientPath (bytes "/a/b") p → p = [bytes "a", bytes "b"] := by
    intro p hp
    have := (parts_tree hp).symm.trans (parts_tree p1)
    exact (List.cons.inj this).2
  have u2 : ∀ p, ClientPath (bytes "/a/c") p → p = [bytes "a", bytes "c"] := by
    intro p hp
    have := (parts_tree hp).symm.trans (parts_tree p2)
    exact (List.cons.inj this).2
  constructor
  · intro f hf
    simp only [sampleFiles, List.mem_cons, List.not_mem_nil, or_false] at hf
    rcases hf with rfl | rfl | rfl | rfl
    · exact ⟨_, p1⟩
    · exact ⟨_, p1⟩
    · exact ⟨_, p2⟩
    · exact ⟨_, p3⟩
  · simp only [sampleFiles, List.pairwise_cons, List.mem_cons, List.not_mem_nil, or_false, forall_eq_or_imp,
      forall_eq, IsFile, reduceCtorEq, or_self, false_implies, true_and,
      Bool.true_eq_false, and_false, implies_true, and_true, List.Pairwise.nil]
    intro _ _ p q hp hq
    rw [u1 p hp, u2 q hq]
    unfold Apart
    decide

example : ∃ ps s, receiveAll sampleEnv ⟨emptyDisk, ⟨0, 0, 1⟩⟩ sampleFiles = some (ps, s) ∧ ps.length = 4 ∧
    ps.Nodup ∧ ∀ x ∈ ps.zip sampleFiles, s.disk (parts x.1) = some (.file x.2.content) :=
  C103_stored_partial _ _ (by decide) _ sample_client
    (fun k hk => by
      have : k = 0 ∨ k = 1 ∨ k = 2 := by simp only [sampleFiles, List.length_cons, List.length_nil] at hk; omega
      rcases this with rfl | rfl | rfl <;> decide)
    (by decide) (by decide) (by decide) (by decide) (by decide)

end Verif
