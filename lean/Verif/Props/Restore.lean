import Verif.Spec.Restore
import Verif.Lemmas.PathCmp
import Verif.Props.PathCmp
import Verif.Props.Find

/-!
# C31-C33: what is restored, and in which order
-/

namespace Verif
open Verif.PathCmp Verif.Restore Verif.Find

theorem within_prefix {d p : Str} (h : Within d p) : d <+: p := by
  rcases h with (rfl | ⟨y, rfl⟩) | ⟨_, y, _, rfl⟩
  · exact List.prefix_refl _
  · exact List.prefix_append _ _
  · exact List.prefix_append _ _

theorem within_self (d : Str) : Within d d := .inl (.inl rfl)

theorem within_antisymm {a b : Str} (h1 : Within a b) (h2 : Within b a) : a = b :=
  (within_prefix h1).eq_of_length_le (within_prefix h2).length_le

theorem within_iff (d p : Str) :
    Within d p ↔ if d.getLast? = some slash then d <+: p else Under d p := by
  split
  · next h =>
    constructor
    · exact within_prefix
    · rintro ⟨y, rfl⟩
      by_cases hy : y = []
      · subst hy; rw [List.append_nil]; exact within_self _
      · exact .inr ⟨h, y, hy, rfl⟩
  · next h =>
    constructor
    · rintro (h1 | ⟨h1, _⟩)
      · exact h1
      · exact absurd h1 h
    · exact .inl

theorem within_trans {a b c : Str} (h1 : Within a b) (h2 : Within b c) : Within a c := by
  rw [within_iff] at h1 ⊢
  split
  · next h => rw [if_pos h] at h1; exact h1.trans (within_prefix h2)
  · next h =>
    rw [if_neg h] at h1
    rcases h1 with rfl | ⟨y, rfl⟩
    · rcases h2 with h2 | ⟨h2, _⟩
      · exact h2
      · exact absurd h2 h
    · obtain ⟨z, rfl⟩ := within_prefix h2
      exact .inr ⟨y ++ z, by simp⟩

/-- What is between two strings with a common beginning has that beginning. -/
theorem prefix_between : ∀ {d p q r : Str}, d <+: p → d <+: r → pathcmp p q ≤ 0 → pathcmp q r ≤ 0 → d <+: q
  | [], _, _, _, _, _, _, _ => List.nil_prefix
  | c :: d, p, q, r, h1, h2, h3, h4 => by
    obtain ⟨y, rfl⟩ := h1
    obtain ⟨z, rfl⟩ := h2
    cases q with
    | nil => simp [pathcmp] at h3
    | cons x q =>
      have hx : c = x := by
        rw [List.cons_append, pathcmp_cons] at h3
        rw [List.cons_append, pathcmp_cons] at h4
        by_cases hcx : rank c = rank x
        · exact rank_inj hcx
        · rw [if_neg hcx] at h3
          rw [if_neg (fun h => hcx h.symm)] at h4
          by_cases hr : rank c < rank x
          · rw [if_neg (by omega)] at h4; omega
          · rw [if_neg hr] at h3; omega
      subst hx
      rw [List.cons_append, pathcmp] at h3 h4
      simp only [if_true] at h3 h4
      obtain ⟨w, hw⟩ := prefix_between (List.prefix_append d y) (List.prefix_append d z) h3 h4
      exact ⟨w, by rw [List.cons_append, hw]⟩

theorem within_between {d p q r : Str} (h1 : Within d p) (h2 : Within d r) (h3 : pathcmp p q ≤ 0)
    (h4 : pathcmp q r ≤ 0) : Within d q := by
  rw [within_iff] at *
  split
  · next h => rw [if_pos h] at h1 h2; exact prefix_between h1 h2 h3 h4
  · next h => rw [if_neg h] at h1 h2; exact C04_directory_contiguous d p q r h1 h2 h3 h4

/-- In the list of directories that wait, each is in the next. -/
def Nest (dirs : List Ent) : Prop := dirs.Pairwise (fun a b => Within b.path a.path)

/-- `b` may come after `a`: if `a` is a directory, `b` is not something inside, nor something else that
belongs to the directory. -/
def MayFollow (a b : Ent) : Prop :=
  IsDirectory a → Within a.path b.path → IsDirectory b ∧ b.path = a.path

theorem isSubdir_within {d p : Str} (hd : NoNul d) (hp : NoNul p) : isSubdir d p ≠ 0 ↔ Within d p :=
  C06_is_subdir_exact d p hd hp

theorem popDirs_spec (path : Str) (hp : NoNul path) : ∀ (dirs : List Ent), (∀ x ∈ dirs, NoNul x.path) → Nest dirs →
    dirs = (popDirs path dirs).1 ++ (popDirs path dirs).2 ∧
    (∀ x ∈ (popDirs path dirs).1, ¬ Within x.path path) ∧
    (∀ x ∈ (popDirs path dirs).2, Within x.path path)
  | [], _, _ => ⟨rfl, by simp [popDirs], by simp [popDirs]⟩
  | x :: xs, hn, hs => by
    rw [Nest, List.pairwise_cons] at hs
    by_cases h : isSubdir x.path path ≠ 0
    · have hw := (isSubdir_within (hn x (by simp)) hp).1 h
      rw [popDirs, if_pos h]
      refine ⟨rfl, by simp, ?_⟩
      intro y hy
      rcases List.mem_cons.1 hy with rfl | hy
      · exact hw
      · exact within_trans (hs.1 y hy) hw
    · have hw := (not_congr (isSubdir_within (hn x (by simp)) hp)).1 h
      obtain ⟨h1, h2, h3⟩ := popDirs_spec path hp xs (fun y hy => hn y (by simp [hy])) hs.2
      rw [popDirs, if_neg h]
      refine ⟨by rw [List.cons_append, ← h1], ?_, h3⟩
      intro y hy
      rcases List.mem_cons.1 hy with rfl | hy
      · exact hw
      · exact h2 y hy

theorem nest_mayFollow {dirs : List Ent} (hd : ∀ x ∈ dirs, IsDirectory x) (hn : Nest dirs) :
    dirs.Pairwise MayFollow :=
  List.Pairwise.imp_of_mem (fun _ hb h _ h3 => ⟨hd _ hb, (within_antisymm h3 h).symm⟩) hn

theorem stream_spec (manifest : List Ent) : ∀ (es : List (Ent × Bool)) (hash : LinkHash) (dirs : List Ent),
    (∀ x ∈ dirs, NoNul x.path ∧ IsDirectory x) → (∀ e ∈ es, NoNul e.1.path) → Nest dirs →
    PathOrdered (es.map Prod.fst) → (∀ x ∈ dirs, ∀ e ∈ es, pathcmp x.path e.1.path ≤ 0) →
    ((stream manifest hash dirs es).map Prod.fst).Perm (dirs ++ (es.filter Prod.snd).map Prod.fst) ∧
    ((stream manifest hash dirs es).map Prod.fst).Pairwise MayFollow
  | [], hash, dirs, hd, he, hn, ho, hb => by
    have e : (stream manifest hash dirs []).map Prod.fst = dirs := by simp [stream, Function.comp_def]
    rw [e]
    refine ⟨by simp, ?_⟩
    exact nest_mayFollow (fun x hx => (hd x hx).2) hn
  | (e, false) :: es, hash, dirs, hd, he, hn, ho, hb => by
    have := stream_spec manifest es (skipEnt hash e) dirs hd (fun x hx => he x (by simp [hx])) hn
      (List.Pairwise.of_cons ho) (fun x hx y hy => hb x hx y (by simp [hy]))
    simpa [stream] using this
  | (e, true) :: es, hash, dirs, hd, he, hn, ho, hb => by
    obtain ⟨h1, h2, h3⟩ := popDirs_spec e.path (he (e, true) (by simp)) dirs (fun x hx => (hd x hx).1) hn
    generalize hpop : (popDirs e.path dirs).1 = popped at *
    generalize hrest : (popDirs e.path dirs).2 = rest at *
    have hno : NoNul e.path := he (e, true) (by simp)
    rw [PathOrdered, List.map_cons, List.pairwise_cons] at ho
    have hle : ∀ b ∈ es, pathcmp e.path b.1.path ≤ 0 := fun b hb' => ho.1 b.1 (List.mem_map_of_mem hb')
    have hnrest : Nest rest := by rw [h1] at hn; exact (List.pairwise_append.1 hn).2.1
    have hnpop : Nest popped := by rw [h1] at hn; exact (List.pairwise_append.1 hn).1
    have hcross : ∀ a ∈ popped, ∀ b ∈ rest, Within b.path a.path := by
      rw [h1] at hn; exact (List.pairwise_append.1 hn).2.2
    have hmemp : ∀ x ∈ popped, x ∈ dirs := fun x hx => by rw [h1]; simp [hx]
    have hmemr : ∀ x ∈ rest, x ∈ dirs := fun x hx => by rw [h1]; simp [hx]
    have hpp : popped.Pairwise MayFollow := nest_mayFollow (fun x hx => (hd x (hmemp x hx)).2) hnpop
    have hlater : ∀ a ∈ popped, ∀ b ∈ es, MayFollow a b.1 := by
      intro a ha b hb' _ hw
      exact absurd (within_between (within_self a.path) hw (hb a (hmemp a ha) (e, true) (by simp)) (hle b hb'))
        (h2 a ha)
    have hr : ∀ a ∈ popped, ∀ b ∈ rest, MayFollow a b := by
      intro a ha b hb' _ hw
      exact absurd (within_trans hw (h3 b hb')) (h2 a ha)
    have hthis : ∀ a ∈ popped, MayFollow a e := fun a ha _ hw => absurd hw (h2 a ha)
    by_cases hdir : (e.isDir && !e.cmd.isMetadata) = true
    · have hid : IsDirectory e := by simpa [IsDirectory] using hdir
      have ih := stream_spec manifest es hash (e :: rest)
        (by intro x hx
            rcases List.mem_cons.1 hx with rfl | hx
            · exact ⟨hno, hid⟩
            · exact hd x (hmemr x hx))
        (fun x hx => he x (by simp [hx])) (List.pairwise_cons.2 ⟨h3, hnrest⟩) ho.2
        (by intro x hx b hb'
            rcases List.mem_cons.1 hx with rfl | hx
            · exact hle b hb'
            · exact hb x (hmemr x hx) b (by simp [hb']))
      have hst : (stream manifest hash dirs ((e, true) :: es)).map Prod.fst =
          popped ++ (stream manifest hash (e :: rest) es).map Prod.fst := by
        simp [stream, restoreEnt, hdir, hpop, hrest, Function.comp_def]
      rw [hst]
      constructor
      · have := ih.1.append_left popped
        refine this.trans ?_
        rw [h1]
        simp only [List.filter_cons, if_true, List.map_cons, List.cons_append, List.append_assoc]
        exact (List.perm_middle (l₁ := rest)).symm.append_left popped
      · refine List.pairwise_append.2 ⟨hpp, ih.2, ?_⟩
        intro a ha b hb'
        have := ih.1.mem_iff.1 hb'
        simp only [List.cons_append, List.mem_cons, List.mem_append, List.mem_map, List.mem_filter] at this
        rcases this with rfl | hb' | ⟨c, ⟨hc, _⟩, rfl⟩
        · exact hthis a ha
        · exact hr a ha b hb'
        · exact hlater a ha c hc
    · have hid : ¬ IsDirectory e := by simpa [IsDirectory] using hdir
      have ih := stream_spec manifest es hash rest (fun x hx => hd x (hmemr x hx))
        (fun x hx => he x (by simp [hx])) hnrest ho.2
        (fun x hx b hb' => hb x (hmemr x hx) b (by simp [hb']))
      have hst : (stream manifest hash dirs ((e, true) :: es)).map Prod.fst =
          popped ++ e :: (stream manifest hash rest es).map Prod.fst := by
        simp [stream, restoreEnt, hdir, hpop, hrest, Function.comp_def]
      rw [hst]
      constructor
      · have := (ih.1.cons e).append_left popped
        refine this.trans ?_
        rw [h1]
        simp only [List.filter_cons, if_true, List.map_cons, List.append_assoc]
        exact (List.perm_middle (l₁ := rest)).symm.append_left popped
      · refine List.pairwise_append.2 ⟨hpp, List.pairwise_cons.2 ⟨fun b _ h => absurd h hid, ih.2⟩, ?_⟩
        intro a ha b hb'
        rcases List.mem_cons.1 hb' with rfl | hb'
        · exact hthis a ha
        have := ih.1.mem_iff.1 hb'
        simp only [List.mem_append, List.mem_map, List.mem_filter] at this
        rcases this with hb' | ⟨c, ⟨hc, _⟩, rfl⟩
        · exact hr a ha b hb'
        · exact hlater a ha c hc

theorem restoreListCheck_spec (path : Str) : ∀ (rl : List Str), rl.Pairwise (fun a b => pathcmp a b < 0) →
    ((restoreListCheck false path rl).1 ≠ 0 ↔ path ∈ rl) ∧
    (restoreListCheck false path rl).2.Pairwise (fun a b => pathcmp a b < 0) ∧
    ∀ p, pathcmp path p ≤ 0 → (p ∈ (restoreListCheck false path rl).2 ↔ p ∈ rl)
  | [], _ => by simp [restoreListCheck]
  | r :: rs, hs => by
    have hs' := List.pairwise_cons.1 hs
    rw [restoreListCheck]
    by_cases h0 : pathcmp r path = 0
    · rw [if_pos h0, pathcmp_eq_zero.1 h0]
      rw [pathcmp_eq_zero.1 h0] at hs
      exact ⟨by simp, hs, fun p _ => Iff.rfl⟩
    · rw [if_neg h0]
      by_cases h1 : pathcmp r path = 1
      · rw [if_pos h1]
        refine ⟨?_, hs, fun p _ => Iff.rfl⟩
        simp only [ne_eq, not_true_eq_false, List.mem_cons, false_iff, not_or]
        refine ⟨fun h => h0 (by rw [h]; exact pathcmp_self _), fun h => ?_⟩
        have := hs'.1 path h
        omega
      · rw [if_neg h1]
        have hlt : pathcmp r path < 0 := by
          rcases pathcmp_range r path with h | h | h
          · omega
          · exact absurd h h0
          · exact absurd h h1
        obtain ⟨k1, k2, k3⟩ := restoreListCheck_spec path rs hs'.2
        refine ⟨?_, k2, ?_⟩
        · rw [k1, List.mem_cons]
          constructor
          · exact .inr
          · rintro (h | h)
            · exact absurd (by rw [h]; exact pathcmp_self _) h0
            · exact h
        · intro p hp
          rw [k3 p hp, List.mem_cons]
          constructor
          · exact .inr
          · rintro (h | h)
            · subst h; have := pathcmp_antisymm p path; omega
            · exact h

/-- The decisions are right, when the restore list is in order. -/
theorem wants_spec (q : Request) (l : List Str) (hq : q.list = some (l, false)) : ∀ (es : List Ent) (rl : List Str),
    PathOrdered es → rl.Pairwise (fun a b => pathcmp a b < 0) →
    (∀ e ∈ es, e.path ∈ rl ↔ e.path ∈ l) →
    wants q rl es = es.map (fun e => decide (AskedFor q e))
  | [], _, _, _, _ => rfl
  | e :: es, rl, ho, hs, hm => by
    have ho' := List.pairwise_cons.1 ho
    rw [wants, List.map_cons]
    obtain ⟨k1, k2, k3⟩ := restoreListCheck_spec e.path rl hs
    by_cases hw : onlyWindows q e = true
    · have e1 : wantToRestore q rl e = (false, rl) := by simp [wantToRestore, hw]
      rw [e1]
      have : decide (AskedFor q e) = false := by
        simp only [decide_eq_false_iff_not, askedFor_iff]; intro h; rw [h.1] at hw; exact absurd hw (by decide)
      rw [this, wants_spec q l hq es rl ho'.2 hs (fun x hx => hm x (by simp [hx]))]
    · have hw' : onlyWindows q e = false := by simpa using hw
      have e1 : wantToRestore q rl e = (((restoreListCheck false e.path rl).1 ≠ 0 && otherTests q e),
          (restoreListCheck false e.path rl).2) := by
        simp [wantToRestore, hw', hq]
      rw [e1]
      have : (decide ((restoreListCheck false e.path rl).1 ≠ 0) && otherTests q e) = decide (AskedFor q e) := by
        rw [Bool.eq_iff_iff, Bool.and_eq_true, decide_eq_true_eq, decide_eq_true_eq, k1, hm e (by simp), askedFor_iff]
        rw [hq]
        simp [hw']
      rw [this, wants_spec q l hq es _ ho'.2 k2]
      intro x hx
      rw [k3 x.path (ho'.1 x hx)]
      exact hm x (by simp [hx])

theorem wants_no_list (q : Request) (hq : q.list = none) : ∀ (es : List Ent) (rl : List Str),
    wants q rl es = es.map (fun e => decide (AskedFor q e))
  | [], _ => rfl
  | e :: es, rl => by
    rw [wants, List.map_cons, wants_no_list q hq es]
    congr 1
    rw [Bool.eq_iff_iff, decide_eq_true_eq, askedFor_iff]
    unfold wantToRestore
    rw [hq]
    by_cases hw : onlyWindows q e = true <;> simp [hw]

theorem wants_chosen (q : Request) (m : List Ent) (hq : GoodRequest q) (ho : PathOrdered m) :
    wants q ((q.list.map Prod.fst).getD []) m = m.map (fun e => decide (AskedFor q e)) := by
  cases h : q.list with
  | none => exact wants_no_list q h m _
  | some lb =>
    obtain ⟨l, bad⟩ := lb
    obtain ⟨rfl, hs⟩ := hq l bad h
    exact wants_spec q l h m l ho hs (fun _ _ => Iff.rfl)

theorem zip_filter (m : List Ent) (f : Ent → Bool) :
    ((m.zip (m.map f)).filter Prod.snd).map Prod.fst = m.filter f := by
  induction m with
  | nil => rfl
  | cons e m ih =>
    simp only [List.map_cons, List.zip_cons_cons, List.filter_cons]
    cases h : f e <;> simp [ih]

theorem zip_fst (m : List Ent) (f : Ent → Bool) : (m.zip (m.map f)).map Prod.fst = m := by
  induction m with
  | nil => rfl
  | cons e m ih => simp [ih]

/-- C33: exactly the entries that were asked for are restored: with a restore list, those whose path is on
the list. -/
theorem C33_selection (q : Request) (m : List Ent) (hn : ∀ e ∈ m, NoNul e.path) (hq : GoodRequest q)
    (ho : PathOrdered m) : ((actualRestore q m).map Prod.fst).Perm (chosen q m) := by
  have := (stream_spec m (m.zip (m.map (fun e => decide (AskedFor q e)))) (fun _ => []) [] (by simp)
    (fun e he => hn e.1 (List.of_mem_zip he).1) List.Pairwise.nil (by rw [zip_fst]; exact ho) (by simp)).1
  rw [zip_filter] at this
  rw [actualRestore, wants_chosen q m hq ho]
  exact this

/-- C31: a directory is sent after everything inside it, and after its metadata. -/
theorem C31_directories_last (q : Request) (m : List Ent) (hn : ∀ e ∈ m, NoNul e.path) (ho : PathOrdered m) :
    ((actualRestore q m).map Prod.fst).Pairwise
      (fun a b => IsDirectory a → Within a.path b.path → IsDirectory b ∧ b.path = a.path) := by
  have hl : ∀ (es : List Ent) rl, (wants q rl es).length = es.length := by
    intro es
    induction es with
    | nil => intro _; rfl
    | cons e es ih => intro rl; simp [wants, ih]
  have hz : (m.zip (wants q ((q.list.map Prod.fst).getD []) m)).map Prod.fst = m := by
    rw [List.map_fst_zip]; rw [hl]; exact Nat.le_refl _
  exact (stream_spec m (m.zip (wants q ((q.list.map Prod.fst).getD []) m)) (fun _ => []) [] (by simp)
    (fun e he => hn e.1 (List.of_mem_zip he).1) List.Pairwise.nil (by rw [hz]; exact ho) (by simp)).2

theorem restoreSbuf_plain (m : List Ent) (hash : LinkHash) (e : Ent) (h : e.cmd ≠ .hardLink) :
    restoreSbuf m hash e = [e] := by rw [restoreSbuf, if_neg h]

theorem stream_snd (m : List Ent) : ∀ (es : List (Ent × Bool)) (hash : LinkHash) (dirs : List Ent),
    ∀ x ∈ stream m hash dirs es, x.1.cmd ≠ .hardLink → x.2 = [x.1]
  | [], hash, dirs, x, hx, hc => by
    simp only [stream, List.mem_map] at hx
    obtain ⟨a, _, rfl⟩ := hx; rfl
  | (e, false) :: es, hash, dirs, x, hx, hc => by
    rw [stream] at hx; exact stream_snd m es _ dirs x hx hc
  | (e, true) :: es, hash, dirs, x, hx, hc => by
    rw [stream, List.mem_append] at hx
    rcases hx with hx | hx
    · rw [restoreEnt] at hx
      split at hx
      · simp only [List.mem_map] at hx
        obtain ⟨a, _, rfl⟩ := hx
        exact restoreSbuf_plain m hash a hc
      · simp only [List.mem_append, List.mem_map, List.mem_singleton] at hx
        rcases hx with ⟨a, _, rfl⟩ | rfl
        · exact restoreSbuf_plain m hash a hc
        · exact restoreSbuf_plain m hash e hc
    · exact stream_snd m es _ _ x hx hc

/-- C31: everything that was asked for is sent once, for what it is (for hard links, see C64). -/
theorem C31_once (q : Request) (m : List Ent) (hn : ∀ e ∈ m, NoNul e.path) (hq : GoodRequest q)
    (ho : PathOrdered m) (hl : ∀ e ∈ m, e.cmd ≠ .hardLink) : (sent (actualRestore q m)).Perm (chosen q m) := by
  have h := C33_selection q m hn hq ho
  have hall : ∀ x ∈ actualRestore q m, x.2 = [x.1] := by
    intro x hx
    refine stream_snd m _ _ _ x hx ?_
    have : x.1 ∈ chosen q m := h.mem_iff.1 (List.mem_map_of_mem hx)
    exact hl x.1 ((List.mem_filter.1 this).1)
  have e : ∀ t : Trace, (∀ x ∈ t, x.2 = [x.1]) → sent t = t.map Prod.fst := by
    intro t
    induction t with
    | nil => intro _; rfl
    | cons x t ih =>
      intro hx
      have := ih (fun y hy => hx y (by simp [hy]))
      unfold sent at this ⊢
      rw [List.flatMap_cons, hx x (by simp), this]; rfl
  rw [e _ hall]
  exact h

/-- A file, its directory, another directory, and metadata. -/
def exManifest : List Ent :=
  [⟨.directory, bytes "/a", true, 1, 1, []⟩, ⟨.metadata, bytes "/a", true, 1, 1, bytes "m"⟩,
   ⟨.directory, bytes "/a/b", true, 1, 2, []⟩, ⟨.file, bytes "/a/b/f", false, 1, 3, bytes "d"⟩,
   ⟨.file, bytes "/a/g", false, 1, 4, bytes "e"⟩, ⟨.file, bytes "/a-", false, 1, 5, bytes "x"⟩]

example : PathOrdered exManifest ∧ (∀ e ∈ exManifest, NoNul e.path) ∧
    (sent (actualRestore ⟨true, false, none, none, none⟩ exManifest)).map (fun e => (e.cmd, e.path)) =
      [(.metadata, bytes "/a"), (.file, bytes "/a/b/f"), (.directory, bytes "/a/b"), (.file, bytes "/a/g"),
       (.directory, bytes "/a"), (.file, bytes "/a-")] ∧
    (sent (actualRestore ⟨true, false, some ([bytes "/a/b", bytes "/a/g"], false), none, none⟩ exManifest)).map
      (fun e => (e.cmd, e.path)) = [(.directory, bytes "/a/b"), (.file, bytes "/a/g")] := by
  refine ⟨by unfold PathOrdered; decide, by unfold NoNul; decide, by decide, by decide⟩

/-- C33, violated: when the restore list cannot be read to its end, everything after that is restored. -/
theorem C33_error_violated :
    (sent (actualRestore ⟨true, false, some ([bytes "/a/b"], true), none, none⟩ exManifest)).map
      (fun e => (e.cmd, e.path)) =
      [(.file, bytes "/a/b/f"), (.directory, bytes "/a/b"), (.file, bytes "/a/g"), (.file, bytes "/a-")] := by
  decide

/-- C33: with directories given on the server, an entry is restored if it is in one of them, as long as none
of them is the beginning of the name of another one. -/
theorem C33_server_partial (l : List Strlist.Elem) (p : Str) (hne : l ≠ [])
    (h : ∀ s ∈ l, s.flag ≠ 0 → s.path <+: p → Within s.path p) :
    srestoreCheck l p = true ↔ ∃ s ∈ l, s.flag ≠ 0 ∧ Within s.path p := by
  have : l.isEmpty = false := by cases l <;> simp_all
  rw [srestoreCheck, this]
  simp only [Bool.false_eq_true, if_false, List.any_eq_true]
  constructor
  · rintro ⟨s, hs, hm⟩
    unfold srestoreMatches at hm
    split at hm
    · exact absurd hm (by decide)
    · next hf => exact ⟨s, hs, hf, h s hs hf (List.isPrefixOf_iff_prefix.1 hm)⟩
  · rintro ⟨s, hs, hf, hw⟩
    refine ⟨s, hs, ?_⟩
    rw [srestoreMatches, if_neg hf]
    exact List.isPrefixOf_iff_prefix.2 (within_prefix hw)

example : (∀ s ∈ [(⟨bytes "/a", 1⟩ : Strlist.Elem)], s.flag ≠ 0 → s.path <+: bytes "/a/b" → Within s.path (bytes "/a/b"))
    ∧ srestoreCheck [⟨bytes "/a", 1⟩] (bytes "/a/b") = true := by
  refine ⟨?_, by decide⟩
  intro s hs _ _
  simp at hs; subst hs
  exact .inl (.inr ⟨bytes "b", by decide⟩)

/-- C33, violated: a directory whose name begins with that of one that was asked for is restored too. -/
theorem C33_server_violated :
    srestoreCheck [⟨bytes "/home/al", 1⟩] (bytes "/home/alice/secret") = true := by decide

/-- Whether an entry has stored data. -/
def HasData (e : Ent) : Prop := (e.cmd.isFiledata || e.cmd.isVssdata) = true

instance (e : Ent) : Decidable (HasData e) := by unfold HasData; infer_instance

/-- What the table of files that were not restored holds. -/
def HashIs (hash : LinkHash) (skipped : List Ent) : Prop :=
  ∀ dev ino, (linkSearch hash dev ino).map (fun l => l.name) =
    (skipped.find? (fun e => decide (HasData e) && decide (e.dev = dev ∧ e.ino = ino))).map (fun e => e.path)

theorem skipEnt_hash {hash : LinkHash} {sk : List Ent} (h : HashIs hash sk) (e : Ent) :
    HashIs (skipEnt hash e) (sk ++ [e]) := by
  intro dev ino
  have h1 := h dev ino
  rw [List.find?_append]
  by_cases hd : HasData e
  · have hd' : (e.cmd.isFiledata || e.cmd.isVssdata) = true := hd
    rw [skipEnt, if_pos hd']
    have h2 := h e.dev e.ino
    cases hs : linkSearch hash e.dev e.ino with
    | some lp =>
      simp only []
      rw [hs] at h2
      by_cases hk : e.dev = dev ∧ e.ino = ino
      · obtain ⟨rfl, rfl⟩ := hk
        rw [hs]
        cases hf : sk.find? (fun e' => decide (HasData e') && decide (e'.dev = e.dev ∧ e'.ino = e.ino)) with
        | none => rw [hf] at h2; simp at h2
        | some g => rw [hf] at h2; simpa using h2
      · rw [h1]
        have : List.find? (fun e => decide (HasData e) && decide (e.dev = dev ∧ e.ino = ino)) [e] = none := by
          simp [hk]
        rw [this]; simp
    | none =>
      simp only []
      rw [linkAdd_search]
      by_cases hk : dev = e.dev ∧ ino = e.ino
      · obtain ⟨rfl, rfl⟩ := hk
        rw [hs] at h1
        cases hf : sk.find? (fun e' => decide (HasData e') && decide (e'.dev = e.dev ∧ e'.ino = e.ino)) with
        | none => simp [hd]
        | some g => rw [hf] at h1; simp at h1
      · rw [if_neg hk, h1]
        have : List.find? (fun e => decide (HasData e) && decide (e.dev = dev ∧ e.ino = ino)) [e] = none := by
          simp only [List.find?_singleton]
          rw [if_neg]
          simp only [Bool.and_eq_true, decide_eq_true_eq]
          rintro ⟨_, h2, h3⟩; exact hk ⟨h2.symm, h3.symm⟩
        rw [this]; simp
  · have hd' : ¬ (e.cmd.isFiledata || e.cmd.isVssdata) = true := hd
    rw [skipEnt, if_neg hd', h1]
    have : List.find? (fun e => decide (HasData e) && decide (e.dev = dev ∧ e.ino = ino)) [e] = none := by
      simp [hd]
    rw [this]; simp

/-- What is sent for a hard link depends on what was skipped before it. -/
theorem stream_hardlink (m : List Ent) (f : Ent → Bool) : ∀ (es pre : List Ent) (hash : LinkHash) (dirs : List Ent),
    (∀ x ∈ dirs, x.isDir = true) →
    HashIs hash (pre.filter (fun e => !f e)) →
    ∀ x ∈ stream m hash dirs (es.zip (es.map f)), x.1.isDir = false →
      ∃ a b hash', es = a ++ x.1 :: b ∧ HashIs hash' ((pre ++ a).filter (fun e => !f e)) ∧
        x.2 = restoreSbuf m hash' x.1
  | [], pre, hash, dirs, hd, hh, x, hx, hnd => by
    simp only [List.map_nil, List.zip_nil_right, stream, List.mem_map] at hx
    obtain ⟨a, ha, rfl⟩ := hx
    rw [hd a ha] at hnd; exact absurd hnd (by decide)
  | e :: es, pre, hash, dirs, hd, hh, x, hx, hnd => by
    have hpop : ∀ path (ds : List Ent), (∀ y ∈ (popDirs path ds).1, y ∈ ds) ∧ (∀ y ∈ (popDirs path ds).2, y ∈ ds) := by
      intro path ds
      induction ds with
      | nil => simp [popDirs]
      | cons d ds ih =>
        rw [popDirs]
        split
        · simp
        · constructor
          · intro y hy
            rcases List.mem_cons.1 hy with rfl | hy
            · simp
            · simp [ih.1 y hy]
          · intro y hy; simp [ih.2 y hy]
    rw [List.map_cons, List.zip_cons_cons] at hx
    cases hf : f e with
    | false =>
      rw [hf, stream] at hx
      have hh' : HashIs (skipEnt hash e) ((pre ++ [e]).filter (fun e => !f e)) := by
        rw [List.filter_append]
        have : [e].filter (fun e => !f e) = [e] := by simp [hf]
        rw [this]
        exact skipEnt_hash hh e
      obtain ⟨a, b, h', h1, h2, h3⟩ := stream_hardlink m f es (pre ++ [e]) _ dirs hd hh' x hx hnd
      exact ⟨e :: a, b, h', by rw [h1]; rfl, by simpa using h2, h3⟩
    | true =>
      rw [hf, stream, List.mem_append] at hx
      have hh' : HashIs hash ((pre ++ [e]).filter (fun e => !f e)) := by
        rw [List.filter_append]
        have : [e].filter (fun e => !f e) = [] := by simp [hf]
        rw [this, List.append_nil]; exact hh
      have hdirs : ∀ y ∈ (restoreEnt m hash dirs e).2, y.isDir = true := by
        intro y hy
        rw [restoreEnt] at hy
        split at hy
        · next hc =>
          rcases List.mem_cons.1 hy with rfl | hy
          · simp at hc; exact hc.1
          · exact hd y ((hpop _ _).2 y hy)
        · exact hd y ((hpop _ _).2 y hy)
      rcases hx with hx | hx
      · have hno : ∀ y ∈ (popDirs e.path dirs).1, y.isDir = true := fun y hy => hd y ((hpop _ _).1 y hy)
        rw [restoreEnt] at hx
        split at hx
        · simp only [List.mem_map] at hx
          obtain ⟨y, hy, rfl⟩ := hx
          rw [hno y hy] at hnd; exact absurd hnd (by decide)
        · simp only [List.mem_append, List.mem_map, List.mem_singleton] at hx
          rcases hx with ⟨y, hy, rfl⟩ | rfl
          · rw [hno y hy] at hnd; exact absurd hnd (by decide)
          · exact ⟨[], es, hash, rfl, by simpa using hh, rfl⟩
      · obtain ⟨a, b, h', h1, h2, h3⟩ := stream_hardlink m f es (pre ++ [e]) hash _ hdirs hh' x hx hnd
        exact ⟨e :: a, b, h', by rw [h1]; rfl, by simpa using h2, h3⟩

/-- Two names for one file. -/
def SameFile (a b : Ent) : Prop := a.dev = b.dev ∧ a.ino = b.ino

theorem substitute_first {name path : Str} {f : Ent} (hf : HasData f) (hname : f.path = name) :
    ∀ (a b : List Ent), PathOrdered (a ++ f :: b) → (∀ g ∈ a, HasData g → g.path ≠ name) →
    substitute name path (a ++ f :: b) = [{ f with path := path }]
  | [], b, _, _ => by
    rw [List.nil_append, substitute, if_pos ⟨by rw [hname]; exact pathcmp_self _, hf⟩]
  | g :: a, b, ho, hg => by
    rw [PathOrdered, List.cons_append, List.pairwise_cons] at ho
    have hle := ho.1 f (by simp)
    rw [hname] at hle
    have hanti := pathcmp_antisymm g.path name
    rw [List.cons_append, substitute, if_neg, if_neg (by omega)]
    · exact substitute_first hf hname a b ho.2 (fun x hx => hg x (by simp [hx]))
    · rintro ⟨h1, h2⟩
      exact hg g (by simp) h2 (pathcmp_eq_zero.1 h1).symm

/-- C64: a hard link that is restored although the file that it is a link to is not, comes with the data of
that file. If nothing with its data was left out, it comes as the link that it is. -/
theorem C64_hardlink_partial (q : Request) (m : List Ent) (hq : GoodRequest q) (ho : PathOrdered m)
    (h : Ent) (s : List Ent) (hs : (h, s) ∈ actualRestore q m) (hc : h.cmd = .hardLink) (hd : h.isDir = false) :
    ∃ pre post, m = pre ++ h :: post ∧
      ((∀ f ∈ pre, HasData f → SameFile f h → AskedFor q f) → s = [h]) ∧
      (∀ a b f, pre = a ++ f :: b → HasData f → SameFile f h → ¬ AskedFor q f →
        (∀ g ∈ a, HasData g → ¬ SameFile g h ∧ g.path ≠ f.path) → s = [{ f with path := h.path }]) := by
  rw [actualRestore, wants_chosen q m hq ho] at hs
  obtain ⟨pre, post, hash, h1, h2, h3⟩ := stream_hardlink m (fun e => decide (AskedFor q e)) m [] (fun _ => []) []
    (by simp) (by intro dev ino; simp [linkSearch]) (h, s) hs hd
  refine ⟨pre, post, h1, ?_, ?_⟩
  · intro hall
    have := h2 h.dev h.ino
    have hnone : (([] ++ pre).filter (fun e => !decide (AskedFor q e))).find?
        (fun e => decide (HasData e) && decide (e.dev = h.dev ∧ e.ino = h.ino)) = none := by
      rw [List.find?_eq_none]
      intro x hx
      simp only [List.nil_append, List.mem_filter, Bool.not_eq_true', decide_eq_false_iff_not] at hx
      simp only [Bool.and_eq_true, decide_eq_true_eq]
      rintro ⟨k1, k2⟩
      exact hx.2 (hall x hx.1 k1 k2)
    rw [hnone] at this
    have hl : linkSearch hash h.dev h.ino = none := by simpa using this
    simp only at h3
    rw [h3, restoreSbuf, if_pos hc, hl]
  · intro a b f hpre hfd hsame hnot hg
    have := h2 h.dev h.ino
    have hfind : (([] ++ pre).filter (fun e => !decide (AskedFor q e))).find?
        (fun e => decide (HasData e) && decide (e.dev = h.dev ∧ e.ino = h.ino)) = some f := by
      rw [List.nil_append, hpre, List.filter_append, List.find?_append]
      have : (a.filter (fun e => !decide (AskedFor q e))).find?
          (fun e => decide (HasData e) && decide (e.dev = h.dev ∧ e.ino = h.ino)) = none := by
        rw [List.find?_eq_none]
        intro x hx
        simp only [List.mem_filter] at hx
        simp only [Bool.and_eq_true, decide_eq_true_eq]
        rintro ⟨k1, k2⟩
        exact (hg x hx.1 k1).1 k2
      rw [this, Option.none_or, List.filter_cons, if_pos (by simp [hnot]), List.find?_cons]
      have : (decide (HasData f) && decide (f.dev = h.dev ∧ f.ino = h.ino)) = true := by
        simp only [Bool.and_eq_true, decide_eq_true_eq]; exact ⟨hfd, hsame⟩
      rw [this]
    rw [hfind] at this
    cases hl : linkSearch hash h.dev h.ino with
    | none => rw [hl] at this; simp at this
    | some lp =>
      rw [hl] at this
      have hname : f.path = lp.name := by simpa using this.symm
      simp only at h3
      rw [h3, restoreSbuf, if_pos hc, hl]
      simp only []
      have hm : m = a ++ f :: (b ++ h :: post) := by rw [h1, hpre]; simp
      rw [hm] at ho ⊢
      exact substitute_first hfd hname a _ ho (fun g hg' hgd => by rw [← hname]; exact (hg g hg' hgd).2)

/-- Two names for one file, of which the second is asked for. -/
def exLinks : List Ent :=
  [⟨.file, bytes "/a", false, 1, 7, bytes "d"⟩, ⟨.metadata, bytes "/a", false, 1, 7, bytes "m"⟩,
   ⟨.hardLink, bytes "/b", false, 1, 7, []⟩]

example : PathOrdered exLinks ∧ GoodRequest ⟨true, false, some ([bytes "/b"], false), none, none⟩ ∧
    sent (actualRestore ⟨true, false, some ([bytes "/b"], false), none, none⟩ exLinks) =
      [⟨.file, bytes "/b", false, 1, 7, bytes "d"⟩] ∧
    sent (actualRestore ⟨true, false, none, none, none⟩ exLinks) = exLinks := by
  refine ⟨by unfold PathOrdered; decide, ?_, by decide +kernel, by decide +kernel⟩
  intro l bad h
  simp only [Option.some.injEq, Prod.mk.injEq] at h
  obtain ⟨rfl, rfl⟩ := h
  exact ⟨rfl, by decide⟩

/-- C64, violated: of a file with a Windows header, only the header is sent for the hard link. -/
theorem C64_header_violated :
    sent (actualRestore ⟨true, true, some ([bytes "/b"], false), none, none⟩
      [⟨.vss, bytes "/a", false, 1, 7, bytes "v"⟩, ⟨.file, bytes "/a", false, 1, 7, bytes "d"⟩,
       ⟨.hardLink, bytes "/b", false, 1, 7, []⟩]) = [⟨.vss, bytes "/b", false, 1, 7, bytes "v"⟩] := by
  decide +kernel

end Verif
