import Verif.Lemmas.CacheOrder
import Verif.Props.Browse

/-!
# C80: what is shown of the files of a backup
-/

namespace Verif
open Verif.Cache Verif.PathCmp

private theorem lookup_kids {drives : Bool} {es : List Entry} (h : InOrder drives es) {d : List Str}
    (hd : Holds es d) {browse : Str} (hb : browse ≠ []) (hc : components browse = d) :
    lookup (load es) browse = (kids (below d ((es.filter isShown).map item))).map Node.shown ∧
      Contig (below d ((es.filter isShown).map item)) := by
  have hc2 := contig_items h
  have hw := walk_kids d _ hc2 (by
    rcases hd with hd | ⟨e, he, hs, hp⟩
    · exact Or.inl hd
    · exact Or.inr ⟨item e, List.mem_map.2 ⟨e, List.mem_filter.2 ⟨he, hs⟩, rfl⟩, hp⟩)
  refine ⟨?_, hw.2⟩
  unfold lookup
  rw [if_neg (by simpa using hb), strtok_eq _ [] (by simp), List.nil_append, hc, load_ents, hw.1]

private theorem shown_name (f : List Node) : (f.map Node.shown).map Shown.name = f.map Node.name := by
  rw [List.map_map]
  apply List.map_congr_left
  intro n _
  cases n; rfl

/-- C80, listing a directory: whoever asks for a directory that holds something of the backup is shown
the names in that directory, all of them, each once, and nothing else. -/
theorem C80_listing (drives : Bool) (es : List Entry) (h : InOrder drives es) (d : List Str)
    (hd : Holds es d) (browse : Str) (hb : browse ≠ []) (hc : components browse = d) :
    ((lookup (load es) browse).map Shown.name).Nodup ∧
    ∀ n, n ∈ (lookup (load es) browse).map Shown.name ↔ ∃ e ∈ es, Through d n e := by
  obtain ⟨e, hk⟩ := lookup_kids h hd hb hc
  rw [e, shown_name]
  refine ⟨nodup_names _ hk, fun n => ?_⟩
  rw [mem_names]
  have h1 : (∃ x ∈ below d ((es.filter isShown).map item), x.toks.head? = some n) ↔
      ∃ x ∈ below d ((es.filter isShown).map item), [n] <+: x.toks := by
    refine exists_congr fun x => and_congr_right fun _ => ?_
    cases x.toks with
    | nil => simp
    | cons u us => simp [List.cons_prefix_cons, eq_comm]
  rw [h1, below_toks]
  constructor
  · rintro ⟨x, hx, r, hr⟩
    obtain ⟨e, he, rfl⟩ := List.mem_map.1 hx
    obtain ⟨he, hs⟩ := List.mem_filter.1 he
    exact ⟨e, he, hs, r, by rw [← show (item e).toks = components e.path from rfl, ← hr]; simp⟩
  · rintro ⟨e, he, hs, r, hr⟩
    exact ⟨item e, List.mem_map.2 ⟨e, List.mem_filter.2 ⟨he, hs⟩, rfl⟩, r, by
      rw [show (item e).toks = components e.path from rfl, hr]; simp⟩

/-- C80, what is said about a file. What is missing: the directories on the way to it have to be in the
backup as well. -/
theorem C80_file_partial (drives : Bool) (es : List Entry) (h : InOrder drives es) (d : List Str) (n : Str)
    (e : Entry) (he : e ∈ es) (hi : Is d n e)
    (hway : ∀ p, p ≠ [] → p <+: d → ∃ a ∈ es, isShown a = true ∧ components a.path = p)
    (browse : Str) (hb : browse ≠ []) (hc : components browse = d) :
    ∀ s, s ∈ lookup (load es) browse ∧ s.name = n ↔ s = ⟨n, e.link, e.st⟩ := by
  obtain ⟨hs, hcomp⟩ := hi
  obtain ⟨names, hw⟩ := h.1 e he hs
  have hnames : names = d ++ [n] := by rw [← components_written hw, hcomp]
  subst hnames
  have hd : Holds es d := Or.inr ⟨e, he, hs, [n], hcomp.symm⟩
  obtain ⟨hl, hk⟩ := lookup_kids h hd hb hc
  have hnd := (C80_listing drives es h d hd browse hb hc).1
  have hmem : (⟨n, e.link, e.st⟩ : Cache.Shown) ∈ lookup (load es) browse := by
    rw [hl]
    obtain ⟨a, b, hab⟩ := List.append_of_mem (List.mem_filter.2 ⟨he, hs⟩)
    rw [hab, List.map_append, List.map_cons] at hk ⊢
    -- a record before that one is not below it
    have before : ∀ y ∈ a, pathcmp y.path e.path < 0 := by
      intro y hy
      have := h.2
      rw [hab] at this
      exact (List.pairwise_append.1 this).2.2 y hy e (by simp)
    have wr : ∀ y ∈ es.filter isShown, ∃ ns, WrittenAs drives ns y.path := by
      intro y hy
      exact h.1 y (List.mem_filter.1 hy).1 (List.mem_filter.1 hy).2
    have up : ∀ {x y : Entry} {nx ny : List Str}, WrittenAs drives nx x.path → WrittenAs drives ny y.path →
        nx ≠ [] → nx <+: ny → nx ≠ ny → pathcmp x.path y.path < 0 := by
      intro x y nx ny wx wy hx0 hp hne
      have := (prefix_under wx.1 wy.1 hx0).1 hp
      rw [← full_render wx, ← full_render wy] at this
      rw [← pathcmp_full drives]
      rcases this with hu | ⟨z, hu⟩
      · exfalso
        apply hne
        have := congrArg components hu
        rw [components_full, components_full, components_written wx, components_written wy] at this
        exact this.symm
      · rw [hu]; exact dir_lt_under _ _
    obtain ⟨a', b', h1, h2⟩ := below_first d n (a.map item) (b.map item) (item e) hcomp
      (trailing_written hw (by simp))
      (by
        intro y hy hp
        obtain ⟨y, hya, rfl⟩ := List.mem_map.1 hy
        obtain ⟨ny, wy⟩ := wr y (by rw [hab]; simp [hya])
        have hp : d ++ [n] <+: ny := by rw [← components_written wy]; exact hp
        have hlt := before y hya
        by_cases heq : d ++ [n] = ny
        · subst heq
          have : full drives y.path = full drives e.path := by rw [full_render wy, full_render hw]
          rw [← pathcmp_full drives, this, pathcmp_self] at hlt
          omega
        · have := up hw wy (by simp) hp heq
          rw [pathcmp_antisymm] at this
          omega)
      (by
        intro p hp hpd
        obtain ⟨x, hx, hxs, hxc⟩ := hway p hp hpd
        obtain ⟨nx, wx⟩ := h.1 x hx hxs
        have hnx : nx = p := by rw [← components_written wx, hxc]
        subst hnx
        have hlt := up wx hw hp (hpd.trans (List.prefix_append _ _)) (by
          rintro rfl
          have := hpd.length_le
          simp at this
          omega)
        refine ⟨item x, List.mem_map.2 ⟨x, ?_, rfl⟩, by
          rw [show (item x).toks = components x.path from rfl, hxc]; exact List.prefix_rfl⟩
        have hxm : x ∈ es.filter isShown := List.mem_filter.2 ⟨hx, hxs⟩
        rw [hab] at hxm
        rcases List.mem_append.1 hxm with hxm | hxm
        · exact hxm
        exfalso
        have hpw := h.2
        rw [hab] at hpw
        have hpw := List.pairwise_cons.1 (List.pairwise_append.1 hpw).2.1
        rcases List.mem_cons.1 hxm with rfl | hxm
        · rw [pathcmp_self] at hlt; omega
        · have := hpw.1 x hxm
          rw [pathcmp_antisymm] at this
          omega)
    rw [h1] at hk ⊢
    exact first_shown a' b' _ n rfl (trailing_written hw (by simp)) h2 hk
  intro s
  constructor
  · rintro ⟨h1, h2⟩
    have inj : ∀ l : List Cache.Shown, (l.map Shown.name).Nodup → ∀ x ∈ l, ∀ y ∈ l, x.name = y.name → x = y := by
      intro l
      induction l with
      | nil => intro _ x hx; cases hx
      | cons z l ih =>
        intro hn x hx y hy hxy
        rw [List.map_cons, List.nodup_cons] at hn
        rcases List.mem_cons.1 hx with hxz | hx'
        · rcases List.mem_cons.1 hy with hyz | hy'
          · rw [hxz, hyz]
          · subst hxz; exact absurd (List.mem_map.2 ⟨y, hy', hxy.symm⟩) hn.1
        · rcases List.mem_cons.1 hy with hyz | hy'
          · subst hyz; exact absurd (List.mem_map.2 ⟨x, hx', hxy⟩) hn.1
          · exact ih hn.2 x hx' y hy' hxy
    exact inj _ hnd s h1 _ hmem h2
  · rintro rfl
    exact ⟨hmem, rfl⟩

private theorem load_name (es : List Entry) : (load es).name = [slash] ∨ (load es).name = [] := by
  induction es using snoc_ind with
  | h0 => exact Or.inr rfl
  | h1 es e ih =>
    rw [load_snoc]
    unfold addEntry
    by_cases h : isShown e = true
    · rw [if_pos h]
      by_cases h2 : (load es).name.isEmpty ∧ e.path.head? = some slash
      · simp only [if_pos h2]; exact Or.inl trivial
      · simp only [if_neg h2]; exact ih
    · rw [if_neg h]; exact ih

private theorem load_name_iff (es : List Entry) :
    (load es).name = [slash] ↔ ∃ e ∈ es, isShown e = true ∧ e.path.head? = some slash := by
  induction es using snoc_ind with
  | h0 => simp [load]
  | h1 es e ih =>
    rw [load_snoc]
    unfold addEntry
    have step : (∃ x ∈ es ++ [e], isShown x = true ∧ x.path.head? = some slash) ↔
        (∃ x ∈ es, isShown x = true ∧ x.path.head? = some slash) ∨
          (isShown e = true ∧ e.path.head? = some slash) := by
      simp only [List.mem_append, List.mem_singleton]
      constructor
      · rintro ⟨x, hx | rfl, hh⟩
        · exact Or.inl ⟨x, hx, hh⟩
        · exact Or.inr hh
      · rintro (⟨x, hx, hh⟩ | hh)
        · exact ⟨x, Or.inl hx, hh⟩
        · exact ⟨e, Or.inr rfl, hh⟩
    rw [step, ← ih]
    by_cases h : isShown e = true
    · rw [if_pos h]
      by_cases h2 : (load es).name.isEmpty ∧ e.path.head? = some slash
      · simp only [if_pos h2]
        exact ⟨fun _ => Or.inr ⟨h, h2.2⟩, fun _ => trivial⟩
      · simp only [if_neg h2]
        constructor
        · exact Or.inl
        · rintro (hh | ⟨_, hh⟩)
          · exact hh
          · rcases load_name es with hn | hn
            · exact hn
            · exact absurd ⟨by simp [hn], hh⟩ h2
    · rw [if_neg h]
      constructor
      · exact Or.inl
      · rintro (hh | ⟨hh, _⟩)
        · exact hh
        · exact absurd hh h

/-- C80, the beginning: whoever asks for nothing in particular is shown `/`, and of a backup of Windows
the drives. -/
theorem C80_top (drives : Bool) (es : List Entry) (h : InOrder drives es) (hne : ∃ e ∈ es, isShown e = true) :
    if drives then
      ((lookup (load es) []).map Shown.name).Nodup ∧
      ∀ n, n ∈ (lookup (load es) []).map Shown.name ↔ ∃ e ∈ es, Through [] n e
    else (lookup (load es) []).map Shown.name = [[slash]] := by
  cases drives with
  | false =>
    rw [if_neg (by simp)]
    have : (load es).name = [slash] := by
      rw [load_name_iff]
      obtain ⟨e, he, hs⟩ := hne
      obtain ⟨ns, hw⟩ := h.1 e he hs
      refine ⟨e, he, hs, ?_⟩
      have := hw.2
      simp at this
      rw [this]
      cases ns <;> simp [renderPath]
    unfold lookup
    simp [this]
  | true =>
    rw [if_pos rfl]
    have : (load es).name = [] := by
      rcases load_name es with hn | hn
      · exfalso
        obtain ⟨e, he, hs, hh⟩ := (load_name_iff es).1 hn
        obtain ⟨ns, hw⟩ := h.1 e he hs
        have h2 := hw.2
        simp at h2
        obtain ⟨c, cs, rfl⟩ := List.exists_cons_of_ne_nil h2.1
        have h3 := h2.2
        simp [renderPath] at h3
        obtain ⟨hc1, hc2, _⟩ := hw.1 c (by simp)
        obtain ⟨x, xs, rfl⟩ := List.exists_cons_of_ne_nil hc1
        rw [h3] at hh
        simp at hh
        exact hc2 (by simp [hh])
      · exact hn
    have e : lookup (load es) [] = lookup (load es) [slash] := by
      unfold lookup
      simp [this, strtok, walk]
    rw [e]
    exact C80_listing true es h [] (Or.inl rfl) [slash] (by simp) (by decide)

/-- C80, everything at once: whoever asks for `*` is shown every record, with its whole path, in the
order of the manifest. -/
theorem C80_all (c : Option Cached) (client : Str) (bno : Nat) (es : List Entry) (more : Str) :
    browseManifest c client bno (.whole es) (42 :: more) =
      (c, some ((es.filter isShown).map fun e => ⟨e.path, e.link, e.st⟩)) := by
  simp [browseManifest, dumpAll]

/-- What a question asks of a backup, when nothing is remembered and the manifest can be read. -/
def freshAnswer (m : Str → Nat → List Entry) (q : Question) : Answer :=
  (browseManifest none q.client q.bno (.whole (m q.client q.bno)) q.browse).2

private theorem answers_true (m : Str → Nat → List Entry) (qs : List Question) :
    ∀ c : Option Cached, (∀ k, c = some k → k.root = load (m k.client k.bno)) →
    (∀ q ∈ qs, q.file = .missing ∨ (∃ es, q.file = .broken es) ∨ q.file = .whole (m q.client q.bno)) →
    ∀ p ∈ qs.zip (answers c qs), p.2 = freshAnswer m p.1 ∨
      (p.2 = none ∧ p.1.file ≠ .whole (m p.1.client p.1.bno)) := by
  induction qs with
  | nil => intro c _ _ p hp; simp [answers] at hp
  | cons q qs ih =>
    intro c hc hf p hp
    have hq := hf q (by simp)
    have key : ((browseManifest c q.client q.bno q.file q.browse).2 = freshAnswer m q ∨
        ((browseManifest c q.client q.bno q.file q.browse).2 = none ∧ q.file ≠ .whole (m q.client q.bno))) ∧
        ∀ k, (browseManifest c q.client q.bno q.file q.browse).1 = some k → k.root = load (m k.client k.bno) := by
      unfold freshAnswer browseManifest
      by_cases hs : q.browse.head? = some 42
      · simp only [if_pos hs]
        refine ⟨?_, hc⟩
        rcases hq with e | ⟨es, e⟩ | e <;> rw [e] <;> simp [dumpAll]
      · simp only [if_neg hs]
        unfold browseCached
        cases c with
        | none =>
          rcases hq with e | ⟨es, e⟩ | e <;> rw [e]
          · exact ⟨Or.inr ⟨rfl, by simp⟩, by simp⟩
          · exact ⟨Or.inr ⟨rfl, by simp⟩, by simp⟩
          · refine ⟨Or.inl rfl, ?_⟩
            intro k hk; injection hk with hk; subst hk; rfl
        | some k =>
          by_cases hm : q.client = k.client ∧ k.bno = q.bno
          · simp only [if_pos hm]
            refine ⟨Or.inl ?_, hc⟩
            rw [hc k rfl, hm.1, hm.2]
          · simp only [if_neg hm]
            rcases hq with e | ⟨es, e⟩ | e <;> rw [e]
            · exact ⟨Or.inr ⟨rfl, by simp⟩, hc⟩
            · exact ⟨Or.inr ⟨rfl, by simp⟩, by simp⟩
            · refine ⟨Or.inl rfl, ?_⟩
              intro k hk; injection hk with hk; subst hk; rfl
    simp only [answers, List.zip_cons_cons, List.mem_cons] at hp
    rcases hp with rfl | hp
    · exact key.1
    · exact ih _ key.2 (fun q hq => hf q (by simp [hq])) p hp

/-- C80, what is remembered. Whatever is asked before, of whichever clients and backups, in any order: an
answer is that which the manifest of the backup gives, or an error when the manifest cannot be read. What
is missing: the manifest that belongs to a number has to be the same all the time. -/
theorem C80_remembered_partial (m : Str → Nat → List Entry) (qs : List Question)
    (hf : ∀ q ∈ qs, q.file = .missing ∨ (∃ es, q.file = .broken es) ∨ q.file = .whole (m q.client q.bno)) :
    (answers none qs).length = qs.length ∧
    ∀ p ∈ qs.zip (answers none qs), p.2 = freshAnswer m p.1 ∨
      (p.2 = none ∧ p.1.file ≠ .whole (m p.1.client p.1.bno)) := by
  refine ⟨?_, answers_true m qs none (by simp) hf⟩
  have : ∀ (qs : List Question) (c : Option Cached), (answers c qs).length = qs.length := by
    intro qs
    induction qs with
    | nil => intro c; rfl
    | cons q qs ih => intro c; simp [answers, ih]
  exact this qs none

private theorem atDir_render {d : List Str} (h : ∀ c ∈ d, GoodName c) (n : Str) :
    atDir (renderPath d) ++ n = renderPath (d ++ [n]) := by
  unfold atDir
  by_cases h0 : d = []
  · subst h0; simp [renderPath]
  · obtain ⟨c, x, h1, h2⟩ := join_last h h0
    rw [renderPath_ne h0, renderPath_ne (by simp), h1, if_neg (by simp [h2]), ← h1]
    simp [joinPath]

private theorem component_mem {c p : Str} (hc : c ≠ []) (h : Component c p) : c ∈ components p := by
  obtain ⟨hs, pre, post, rfl, h1, h2⟩ := h
  have hcc : components c = [c] := by
    unfold components; rw [splitSep_no_slash _ hs]; cases c with
    | nil => exact absurd rfl hc
    | cons x c => rfl
  have h3 : c ∈ components (c ++ post) := by
    rcases h2 with rfl | h2
    · simp [hcc]
    · cases post with
      | nil => cases h2
      | cons x post => injection h2 with h2; subst h2; rw [components_append, hcc]; simp
  rcases h1 with rfl | h1
  · simpa using h3
  · obtain ⟨ys, rfl⟩ := List.getLast?_eq_some_iff.1 h1
    rw [List.append_assoc, List.append_assoc, List.singleton_append, components_append]
    exact List.mem_append_right _ h3

private theorem plain_render {ns : List Str} (h : ∀ c ∈ ns, GoodName c) (hd : [dot] ∉ ns) :
    PlainPath (renderPath ns) where
  ne := by cases ns <;> simp [renderPath]
  noDouble := by
    intro a b e
    cases ns with
    | nil => have := congrArg List.length e; simp [renderPath] at this; omega
    | cons c cs =>
      have h1 : splitSep slash (renderPath (c :: cs)) = [] :: c :: cs := by
        rw [renderPath_ne (by simp)]
        exact splitSep_joinPath [] (c :: cs) (by simp) (fun x hx => (h x hx).2.1)
      rw [e, splitSep_append] at h1
      have h2 : splitSep slash (slash :: b) = [] :: splitSep slash b := by simp [splitSep]
      rw [h2] at h1
      have h3 := splitSep_ne slash a
      obtain ⟨x, xs, hx⟩ := List.exists_cons_of_ne_nil h3
      rw [hx] at h1
      injection h1 with _ h1
      have : [] ∈ c :: cs := by rw [← h1]; simp
      exact (h [] this).1 rfl
  noDot := by
    intro hc
    have := component_mem (by simp) hc
    rw [components_render h] at this
    exact hd this

/-- C80, with and without the cache: the names that are shown in a directory are the same, but for the
`.` that is shown without the cache when the directory is in the backup itself. -/
theorem C80_same_names (es : List Entry) (h : InOrder false es) (d : List Str) (hd : Holds es d)
    (hdot : ∀ e ∈ es, [dot] ∉ components e.path) (n : Str) :
    n ∈ (lookup (load es) (renderPath d)).map Shown.name ↔
      n ≠ [dot] ∧ n ∈ (direct es (renderPath d)).map Browse.Ent.path := by
  have hdg : ∀ c ∈ d, GoodName c := by
    rcases hd with hd | ⟨e, he, hs, hp⟩
    · subst hd; simp
    · obtain ⟨ns, hw⟩ := h.1 e he hs
      rw [components_written hw] at hp
      exact fun c hc => hw.1 c (hp.subset hc)
  have hr : renderPath d ≠ [] := by cases d <;> simp [renderPath]
  rw [(C80_listing false es h d hd (renderPath d) hr (components_render hdg)).2]
  have hlist : listable ((es.filter isShown).map fun e => ⟨e.cmd, e.path, e.st.isDir⟩) =
      (es.filter isShown).map fun e => (⟨e.cmd, e.path, e.st.isDir⟩ : Browse.Ent) := by
    unfold listable
    rw [List.filter_eq_self]
    intro x hx
    obtain ⟨e, he, rfl⟩ := List.mem_map.1 hx
    have := (List.mem_filter.1 he).2
    unfold isShown at this
    cases hc : e.cmd <;> simp_all [Cmd.isMetadata, Cmd.isLink, Cmd.isVssdata]
  have hch := C44_children (renderPath d)
    ((es.filter isShown).map fun e => (⟨e.cmd, e.path, e.st.isDir⟩ : Browse.Ent))
    (by
      rw [hlist]
      intro x hx
      obtain ⟨e, he, rfl⟩ := List.mem_map.1 hx
      obtain ⟨ns, hw⟩ := h.1 e (List.mem_filter.1 he).1 (List.mem_filter.1 he).2
      have := full_render hw
      simp only [full] at this
      rw [if_neg (by simp)] at this
      rw [this]
      refine plain_render hw.1 ?_
      rw [← components_written hw]
      exact hdot e (List.mem_filter.1 he).1)
    (by
      rw [hlist, List.pairwise_map]
      exact h.2.imp fun hlt => Int.le_of_lt hlt)
  rw [show (direct es (renderPath d)).map Browse.Ent.path = listedNames (some (renderPath d)) (fun _ => true)
    ((es.filter isShown).map fun e => (⟨e.cmd, e.path, e.st.isDir⟩ : Browse.Ent)) from rfl, hch.2 n, hlist]
  constructor
  · rintro ⟨e, he, hs, more, hm⟩
    have hn : n ∈ components e.path := by rw [hm]; simp
    obtain ⟨ns, hw⟩ := h.1 e he hs
    have hng := hw.1 n (by rw [← components_written hw]; exact hn)
    refine ⟨fun hh => hdot e he (hh ▸ hn), _, List.mem_map.2 ⟨e, List.mem_filter.2 ⟨he, hs⟩, rfl⟩, ?_⟩
    unfold Shown
    rw [if_neg hr]
    refine Or.inr ⟨hng.1, hng.2.1, ?_⟩
    rw [atDir_render hdg]
    have hf := full_render hw
    simp only [full] at hf
    rw [if_neg (by simp)] at hf
    simp only [hf]
    rw [components_written hw] at hm
    refine (prefix_under ?_ hw.1 (by simp)).1 ⟨more, by rw [hm]; simp⟩
    intro c hc
    exact hw.1 c (by rw [hm]; simp at hc ⊢; rcases hc with hc | hc <;> simp [hc])
  · rintro ⟨hnd, x, hx, hsh⟩
    obtain ⟨e, he, rfl⟩ := List.mem_map.1 hx
    obtain ⟨he, hs⟩ := List.mem_filter.1 he
    obtain ⟨ns, hw⟩ := h.1 e he hs
    have hf := full_render hw
    simp only [full] at hf
    rw [if_neg (by simp)] at hf
    unfold Shown at hsh
    rw [if_neg hr] at hsh
    rcases hsh with hsh | ⟨h1, h2, h3⟩
    · exact absurd hsh.1 hnd
    · simp only [atDir_render hdg, hf] at h3
      have hnn : NoNul n := by
        have h4 : NoNul (renderPath ns) := render_noNul hw.1
        unfold NoNul at h4 ⊢
        intro hh
        apply h4
        have : (0 : Byte) ∈ renderPath (d ++ [n]) := by
          rw [renderPath_ne (by simp)]
          simp [joinPath, hh]
        rcases h3 with h3 | ⟨y, h3⟩ <;> rw [h3] <;> simp [this]
      have hp := (prefix_under (a := d ++ [n]) (by
        intro c hc
        simp at hc
        rcases hc with hc | rfl
        · exact hdg c hc
        · exact ⟨h1, h2, hnn⟩) hw.1 (by simp)).2 h3
      obtain ⟨more, hm⟩ := hp
      exact ⟨e, he, hs, more, by rw [components_written hw, ← hm]; simp⟩

/-- The bits of a mode that say the type of a file. -/
theorem and_ifmt (m : Nat) : m &&& 0xF000 = (m / 4096 % 16) * 4096 := by
  apply Nat.eq_of_testBit_eq
  intro i
  rw [show (0xF000 : Nat) = (2 ^ 4 - 1) <<< 12 from rfl, show (16 : Nat) = 2 ^ 4 from rfl,
    show (4096 : Nat) = 2 ^ 12 from rfl, ← Nat.shiftLeft_eq, ← Nat.shiftRight_eq_div_pow]
  simp only [Nat.testBit_and, Nat.testBit_shiftLeft, Nat.testBit_two_pow_sub_one, Nat.testBit_mod_two_pow,
    Nat.testBit_shiftRight]
  by_cases h : 12 ≤ i
  · rw [show 12 + (i - 12) = i by omega]; simp [h]; exact Bool.and_comm ..
  · simp [h]

/-- The records that are shown are those of directories, files (encrypted or not, or read raw on Windows),
devices and the like, and links of both kinds; records of metadata are not. What is taken for a directory is
what has the type of one. -/
theorem C80_kinds :
    (∀ e : Entry, isShown e = true ↔
      e.cmd ∈ [Cmd.directory, Cmd.file, Cmd.encFile, Cmd.efsFile, Cmd.special, Cmd.softLink, Cmd.hardLink]) ∧
    ∀ st : Stat, st.isDir = true ↔ st.mode.toNat / 4096 % 16 = 4 := by
  refine ⟨fun e => ?_, fun st => ?_⟩
  · obtain ⟨c, p, l, s⟩ := e
    cases c <;> simp [isShown, Cmd.isLink]
  · unfold Stat.isDir
    rw [decide_eq_true_iff, ← UInt32.toNat_inj, UInt32.toNat_and]
    show st.mode.toNat &&& 0xF000 = 0x4000 ↔ _
    rw [and_ifmt]
    omega

end Verif
