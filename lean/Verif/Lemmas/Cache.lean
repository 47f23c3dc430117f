import Verif.Spec.Cache

/-!
# The tree of names that is kept
-/

namespace Verif.Cache

/-- What is put into the tree for one record. -/
structure Item where
  toks : List Str
  link : Str
  st : Stat
  trail : Bool

/-- The entries of a directory after items. -/
def kidsFrom (f : List Node) (l : List Item) : List Node :=
  l.foldl (fun f x => put x.link x.trail x.toks x.st f) f

/-- The entries of a directory after items. -/
def kids (l : List Item) : List Node := kidsFrom [] l

theorem kids_snoc (l : List Item) (x : Item) :
    kids (l ++ [x]) = put x.link x.trail x.toks x.st (kids l) := by
  simp [kids, kidsFrom, List.foldl_append]

/-- Lists from their ends. -/
theorem snoc_ind {α : Type} {P : List α → Prop} (h0 : P []) (h1 : ∀ l x, P l → P (l ++ [x])) (l : List α) : P l := by
  have h : ∀ l : List α, P l.reverse := by
    intro l
    induction l with
    | nil => exact h0
    | cons x l ih => rw [List.reverse_cons]; exact h1 _ _ ih
  rw [← List.reverse_reverse l]; exact h _

/-- Putting into entries whose last one has another name, or none. -/
theorem put_new (link : Str) (trail : Bool) (t : Str) (ts : List Str) (st : Stat) (f : List Node)
    (h : ∀ n, f.getLast? = some n → n.name ≠ t) :
    put link trail (t :: ts) st f = f ++ [.node t link (fake (!ts.isEmpty || trail) st)
      (put link trail ts (fake (!ts.isEmpty || trail) st) [])] := by
  cases hl : f.getLast? with
  | none => simp only [put, hl]
  | some n =>
    obtain ⟨n, l, s, es⟩ := n
    have := h _ hl
    simp only [put, hl]
    rw [if_neg (fun e => this e.symm)]

/-- Putting into entries whose last one has the name. -/
theorem put_old (link : Str) (trail : Bool) (t : Str) (ts : List Str) (st : Stat) (f : List Node)
    (l : Str) (s : Stat) (es : List Node) :
    put link trail (t :: ts) st (f ++ [.node t l s es]) = f ++ [.node t l s (put link trail ts st es)] := by
  simp [put]

/-- Items that are for the file or directory called `t`, without that name. -/
def tails (t : Str) (l : List Item) : List Item :=
  (l.filter (fun x => x.toks.head? = some t)).map fun x => { x with toks := x.toks.tail }

/-- The first item makes the entry: what it does to the mode is kept for the rest of it. -/
def marked : List Item → List Item
  | [] => []
  | x :: l => { x with st := fake (!x.toks.isEmpty || x.trail) x.st } :: l

/-- Names lie together. -/
def Contig (l : List Item) : Prop :=
  ∀ d, d ≠ [] → ∀ a x b y c, l = a ++ x :: (b ++ y :: c) → d <+: x.toks → d <+: y.toks →
    ∀ z ∈ b, d <+: z.toks

theorem Contig.init {l : List Item} {x : Item} (h : Contig (l ++ [x])) : Contig l := by
  intro d hd a y b z c e
  exact h d hd a y b z (c ++ [x]) (by simp [e])

theorem tails_snoc (t : Str) (l : List Item) (x : Item) : tails t (l ++ [x]) =
    tails t l ++ (if x.toks.head? = some t then [{ x with toks := x.toks.tail }] else []) := by
  unfold tails
  by_cases h : x.toks.head? = some t <;> simp [List.filter_append, h]

theorem marked_snoc (l : List Item) (x : Item) (h : l ≠ []) : marked (l ++ [x]) = marked l ++ [x] := by
  cases l with
  | nil => exact absurd rfl h
  | cons y l => simp [marked]

/-- The name of the last entry is that of the last item. -/
theorem last_name (l : List Item) (x : Item) (t : Str) (ts : List Str) (h : x.toks = t :: ts) :
    ∃ f n, kids (l ++ [x]) = f ++ [n] ∧ n.name = t := by
  rw [kids_snoc, h]
  by_cases hn : ∀ n, (kids l).getLast? = some n → n.name ≠ t
  · rw [put_new _ _ _ _ _ _ hn]
    exact ⟨_, _, rfl, rfl⟩
  · simp only [Classical.not_forall, Decidable.not_not] at hn
    obtain ⟨n, hl, hn⟩ := hn
    obtain ⟨ne, hl'⟩ := List.getLast?_eq_some_iff.1 hl
    obtain ⟨n, k, s, es⟩ := n
    simp only [Node.name] at hn
    subst hn
    rw [hl', put_old]
    exact ⟨_, _, rfl, rfl⟩

/-- The names of the entries are those the items begin with. -/
theorem mem_names (l : List Item) (n : Str) :
    n ∈ (kids l).map Node.name ↔ ∃ x ∈ l, x.toks.head? = some n := by
  induction l using snoc_ind with
  | h0 => simp [kids, kidsFrom]
  | h1 l x ih =>
    rw [kids_snoc]
    cases hx : x.toks with
    | nil =>
      simp only [put, ih, List.mem_append, List.mem_singleton]
      constructor
      · rintro ⟨y, hy, e⟩; exact ⟨y, Or.inl hy, e⟩
      · rintro ⟨y, hy | rfl, e⟩
        · exact ⟨y, hy, e⟩
        · rw [hx] at e; cases e
    | cons t ts =>
      have key : n ∈ (put x.link x.trail (t :: ts) x.st (kids l)).map Node.name ↔
          n ∈ (kids l).map Node.name ∨ n = t := by
        by_cases hn : ∀ n, (kids l).getLast? = some n → n.name ≠ t
        · rw [put_new _ _ _ _ _ _ hn]; simp [Node.name]
        · simp only [Classical.not_forall, Decidable.not_not] at hn
          obtain ⟨m, hl, hn⟩ := hn
          obtain ⟨ne, hl'⟩ := List.getLast?_eq_some_iff.1 hl
          obtain ⟨m, k, s, es⟩ := m
          simp only [Node.name] at hn
          subst hn
          rw [hl', put_old]
          simp [Node.name]
      rw [key, ih]
      constructor
      · rintro (⟨y, hy, e⟩ | rfl)
        · exact ⟨y, by simp [hy], e⟩
        · exact ⟨x, by simp, by simp [hx]⟩
      · rintro ⟨y, hy, e⟩
        rcases List.mem_append.1 hy with hy | hy
        · exact Or.inl ⟨y, hy, e⟩
        · rw [List.mem_singleton.1 hy, hx] at e
          injection e with e
          exact Or.inr e.symm

/-- With names together, a name that has been before is that of the last item. -/
theorem Contig.last {l : List Item} {x y : Item} {t : Str} {ts : List Str}
    (h : Contig (l ++ [x])) (hx : x.toks = t :: ts) (hy : y ∈ l) (hyt : y.toks.head? = some t) :
    ∃ l' z zs, l = l' ++ [z] ∧ z.toks = t :: zs := by
  have hne : l ≠ [] := List.ne_nil_of_mem hy
  obtain ⟨l', z, rfl⟩ : ∃ l' z, l = l' ++ [z] :=
    ⟨l.dropLast, l.getLast hne, (List.dropLast_concat_getLast hne).symm⟩
  rcases List.mem_append.1 hy with hy' | hy'
  · obtain ⟨a, b, rfl⟩ := List.append_of_mem hy'
    have := h [t] (by simp) a y (b ++ [z]) x [] (by simp) (by
      cases hyk : y.toks with
      | nil => rw [hyk] at hyt; cases hyt
      | cons u us => rw [hyk] at hyt; injection hyt with e; subst e; exact ⟨us, rfl⟩)
      (by rw [hx]; exact ⟨ts, rfl⟩) z (by simp)
    obtain ⟨zs, e⟩ := this
    exact ⟨_, z, zs, rfl, e.symm⟩
  · rw [List.mem_singleton.1 hy'] at hyt
    cases hz : z.toks with
    | nil => rw [hz] at hyt; cases hyt
    | cons u us => rw [hz] at hyt; injection hyt with e; subst e; exact ⟨_, z, us, rfl, hz⟩

/-- Every name once. -/
theorem nodup_names (l : List Item) (h : Contig l) : ((kids l).map Node.name).Nodup := by
  induction l using snoc_ind with
  | h0 => simp [kids, kidsFrom]
  | h1 l x ih =>
    have ih := ih h.init
    rw [kids_snoc]
    cases hx : x.toks with
    | nil => exact ih
    | cons t ts =>
      by_cases hm : t ∈ (kids l).map Node.name
      · obtain ⟨y, hy, hyt⟩ := (mem_names l t).1 hm
        obtain ⟨l', z, zs, rfl, hz⟩ := h.last hx hy hyt
        obtain ⟨f, n, e, en⟩ := last_name l' z t zs hz
        obtain ⟨n, k, s, es⟩ := n
        simp only [Node.name] at en
        subst en
        rw [e, put_old]
        rw [e] at ih
        simpa [Node.name] using ih
      · rw [put_new]
        · rw [List.map_append, List.nodup_append]
          refine ⟨ih, by simp, ?_⟩
          intro a ha b hb
          simp [Node.name] at hb
          subst hb
          exact fun e => hm (e ▸ ha)
        · intro n hn e
          exact hm (List.mem_map.2 ⟨n, List.mem_of_getLast? hn, e⟩)

/-- What is kept for a name: the first item's, and below it what all items with the name say. -/
theorem find_kids (l : List Item) (h : Contig l) (t : Str) (ht : ∃ x ∈ l, x.toks.head? = some t) :
    ∃ x r, marked (tails t l) = x :: r ∧
      (kids l).find? (fun n => n.name = t) = some (.node t x.link x.st (kids (x :: r))) := by
  induction l using snoc_ind with
  | h0 => obtain ⟨x, hx, _⟩ := ht; cases hx
  | h1 l x ih =>
    rw [kids_snoc, tails_snoc]
    cases hx : x.toks with
    | nil =>
      simp only [put]
      rw [if_neg (by simp), List.append_nil]
      refine ih h.init ?_
      obtain ⟨y, hy, e⟩ := ht
      rcases List.mem_append.1 hy with hy | hy
      · exact ⟨y, hy, e⟩
      · rw [List.mem_singleton.1 hy, hx] at e; cases e
    | cons u us =>
      by_cases hut : u = t
      · subst hut
        simp only [List.head?_cons, if_true, List.tail_cons]
        by_cases hm : ∃ y ∈ l, y.toks.head? = some u
        · obtain ⟨y, r, e1, e2⟩ := ih h.init hm
          obtain ⟨z, hz, hzt⟩ := hm
          obtain ⟨l', w, ws, rfl, hw⟩ := h.last hx hz hzt
          obtain ⟨f, n, e, en⟩ := last_name l' w u ws hw
          obtain ⟨n, k, s, es⟩ := n
          simp only [Node.name] at en
          subst en
          have hnd := nodup_names _ h.init
          rw [e] at e2 hnd
          have hf : ∀ m ∈ f, ¬ m.name = n := by
            intro m hmf he
            rw [List.map_append, List.nodup_append] at hnd
            exact hnd.2.2 _ (List.mem_map.2 ⟨m, hmf, he⟩) n (by simp [Node.name]) rfl
          have hfn : f.find? (fun m => decide (m.name = n)) = none := by
            rw [List.find?_eq_none]; intro m hmf; simpa using hf m hmf
          rw [List.find?_append, hfn] at e2
          simp [Node.name] at e2
          obtain ⟨rfl, rfl, rfl⟩ := e2
          rw [marked_snoc _ _ (by intro hh; rw [hh] at e1; simp [marked] at e1), e1]
          refine ⟨y, r ++ [{ x with toks := us }], rfl, ?_⟩
          rw [e, put_old, List.find?_append, hfn]
          simp only [Option.none_or, List.find?_cons, Node.name, decide_true]
          rw [← List.cons_append, kids_snoc]
        · have hnt : tails u l = [] := by
            unfold tails
            rw [List.map_eq_nil_iff, List.filter_eq_nil_iff]
            intro y hy hh
            exact hm ⟨y, hy, by simpa using hh⟩
          have hno : ∀ m ∈ kids l, ¬ m.name = u := by
            intro m hmk he
            exact hm ((mem_names l u).1 (List.mem_map.2 ⟨m, hmk, he⟩))
          rw [hnt, put_new _ _ _ _ _ _ (fun n hn => hno n (List.mem_of_getLast? hn))]
          refine ⟨_, _, rfl, ?_⟩
          have hfn : (kids l).find? (fun m => decide (m.name = u)) = none := by
            rw [List.find?_eq_none]; intro m hmf; simpa using hno m hmf
          rw [List.find?_append, hfn]
          simp [Node.name, kids, kidsFrom]
      · rw [if_neg (by simpa using hut), List.append_nil]
        have hm : ∃ y ∈ l, y.toks.head? = some t := by
          obtain ⟨y, hy, e⟩ := ht
          rcases List.mem_append.1 hy with hy | hy
          · exact ⟨y, hy, e⟩
          · rw [List.mem_singleton.1 hy, hx] at e
            injection e with e
            exact absurd e hut
        obtain ⟨y, r, e1, e2⟩ := ih h.init hm
        refine ⟨y, r, e1, ?_⟩
        rw [← e2]
        by_cases hn : ∀ n, (kids l).getLast? = some n → n.name ≠ u
        · rw [put_new _ _ _ _ _ _ hn, List.find?_append, e2]; simp
        · simp only [Classical.not_forall, Decidable.not_not] at hn
          obtain ⟨m, hl, hn⟩ := hn
          obtain ⟨ne, hl'⟩ := List.getLast?_eq_some_iff.1 hl
          obtain ⟨m, k, s, es⟩ := m
          simp only [Node.name] at hn
          subst hn
          rw [hl', put_old, List.find?_append, List.find?_append]
          simp [Node.name, hut]

/-- The items for what is below a directory. -/
def below : List Str → List Item → List Item
  | [], l => l
  | t :: d, l => below d (marked (tails t l))

theorem mem_marked_toks (l : List Item) (d : List Str) :
    (∃ x ∈ marked l, x.toks = d) ↔ ∃ x ∈ l, x.toks = d := by
  cases l with
  | nil => simp [marked]
  | cons y l => simp [marked]

theorem marked_toks (l : List Item) : (marked l).map Item.toks = l.map Item.toks := by
  cases l <;> simp [marked]

theorem contig_toks {l m : List Item} (h : l.map Item.toks = m.map Item.toks) (hl : Contig l) : Contig m := by
  intro d hd a x b y c e hx hy z hz
  obtain ⟨b1, b2, rfl⟩ := List.append_of_mem hz
  subst e
  simp only [List.map_append, List.map_cons] at h
  obtain ⟨a', r1, rfl, ha, h1⟩ := List.map_eq_append_iff.1 h
  obtain ⟨x', r2, rfl, hx', h2⟩ := List.map_eq_cons_iff.1 h1
  rw [List.append_assoc] at h2
  obtain ⟨b1', r3, rfl, hb1, h3⟩ := List.map_eq_append_iff.1 h2
  obtain ⟨z', r4, rfl, hz', h4⟩ := List.map_eq_cons_iff.1 h3
  obtain ⟨b2', r5, rfl, hb2, h5⟩ := List.map_eq_append_iff.1 h4
  obtain ⟨y', c', rfl, hy', h6⟩ := List.map_eq_cons_iff.1 h5
  rw [← hz']
  exact hl d hd a' x' (b1' ++ z' :: b2') y' c' (by simp) (hx' ▸ hx) (hy' ▸ hy) z' (by simp)

theorem Contig.tails {l : List Item} (h : Contig l) (t : Str) : Contig (tails t l) := by
  intro d hd a x b y c e hx hy z hz
  unfold Cache.tails at e
  obtain ⟨a1, r1, h1, ha, h2⟩ := List.map_eq_append_iff.1 e
  obtain ⟨x1, r2, rfl, hx1, h3⟩ := List.map_eq_cons_iff.1 h2
  obtain ⟨b1, r3, rfl, hb, h4⟩ := List.map_eq_append_iff.1 h3
  obtain ⟨y1, c1, rfl, hy1, h5⟩ := List.map_eq_cons_iff.1 h4
  obtain ⟨p1, q1, rfl, hp1, hq1⟩ := List.filter_eq_append_iff.1 h1
  obtain ⟨p2, q2, rfl, hp2, hx2, hq2⟩ := List.filter_eq_cons_iff.1 hq1
  obtain ⟨p3, q3, rfl, hp3, hq3⟩ := List.filter_eq_append_iff.1 hq2
  obtain ⟨p4, q4, rfl, hp4, hy2, hq4⟩ := List.filter_eq_cons_iff.1 hq3
  have cons_of : ∀ w : Item, decide (w.toks.head? = some t) = true → w.toks = t :: w.toks.tail := by
    intro w hw
    cases hk : w.toks with
    | nil => simp [hk] at hw
    | cons u us => simp [hk] at hw; simp [hw]
  subst hb
  obtain ⟨z1, hz1, rfl⟩ := List.mem_map.1 hz
  have hz2 : z1 ∈ p3 ∧ decide (z1.toks.head? = some t) = true := by
    rw [← hp3] at hz1
    exact List.mem_filter.1 hz1
  have := h (t :: d) (by simp) (p1 ++ p2) x1 (p3 ++ p4) y1 q4 (by simp)
    (by rw [cons_of x1 hx2]; subst hx1; exact List.cons_prefix_cons.2 ⟨rfl, hx⟩)
    (by rw [cons_of y1 hy2]; subst hy1; exact List.cons_prefix_cons.2 ⟨rfl, hy⟩) z1 (by simp [hz2.1])
  rw [cons_of z1 hz2.2] at this
  exact (List.cons_prefix_cons.1 this).2

/-- The items for what is in a directory are those of the records below it. -/
theorem tails_toks (t : Str) (l : List Item) (d : List Str) :
    (∃ x ∈ marked (tails t l), d <+: x.toks) ↔ ∃ x ∈ l, t :: d <+: x.toks := by
  have : (∃ x ∈ marked (tails t l), d <+: x.toks) ↔ ∃ k ∈ (marked (tails t l)).map Item.toks, d <+: k := by
    constructor
    · rintro ⟨x, hx, hp⟩; exact ⟨_, List.mem_map.2 ⟨x, hx, rfl⟩, hp⟩
    · rintro ⟨k, hk, hp⟩
      obtain ⟨x, hx, rfl⟩ := List.mem_map.1 hk
      exact ⟨x, hx, hp⟩
  rw [this, marked_toks]
  simp only [List.mem_map, tails, List.mem_filter]
  constructor
  · rintro ⟨k, ⟨y, ⟨x, ⟨hx, hh⟩, rfl⟩, rfl⟩, hk⟩
    refine ⟨x, hx, ?_⟩
    cases hk' : x.toks with
    | nil => simp [hk'] at hh
    | cons u us =>
      simp [hk'] at hh hk
      rw [hh]; exact List.cons_prefix_cons.2 ⟨rfl, hk⟩
  · rintro ⟨x, hx, r, e⟩
    refine ⟨_, ⟨_, ⟨x, ⟨hx, by rw [← e]; simp⟩, rfl⟩, rfl⟩, ?_⟩
    rw [← e]; exact ⟨r, rfl⟩

/-- The way through the tree to a directory that is there. -/
theorem walk_kids (d : List Str) (l : List Item) (h : Contig l) (hd : d = [] ∨ ∃ x ∈ l, d <+: x.toks) :
    walk d (kids l) = kids (below d l) ∧ Contig (below d l) := by
  induction d generalizing l with
  | nil => exact ⟨rfl, h⟩
  | cons t d ih =>
    rcases hd with hd | ⟨x, hx, hp⟩
    · cases hd
    have ht : ∃ x ∈ l, x.toks.head? = some t := ⟨x, hx, by obtain ⟨r, e⟩ := hp; rw [← e]; rfl⟩
    obtain ⟨y, r, e1, e2⟩ := find_kids l h t ht
    have hc : Contig (marked (tails t l)) := contig_toks (marked_toks _).symm (h.tails t)
    obtain ⟨i1, i2⟩ := ih (marked (tails t l)) hc (Or.inr ((tails_toks t l d).2 ⟨x, hx, hp⟩))
    refine ⟨?_, i2⟩
    rw [walk, e2]
    simp only [Node.ents, below]
    rw [← e1]
    exact i1

/-- The records below a directory. -/
theorem below_toks (d : List Str) (l : List Item) (p : List Str) :
    (∃ x ∈ below d l, p <+: x.toks) ↔ ∃ x ∈ l, d ++ p <+: x.toks := by
  induction d generalizing l with
  | nil => rfl
  | cons t d ih => rw [below, ih, tails_toks]; rfl

/-- A record whose directories are all known before it is kept as it is. -/
theorem below_first (d : List Str) (n : Str) (a b : List Item) (x : Item) (hx : x.toks = d ++ [n])
    (ht : x.trail = false) (hf : ∀ y ∈ a, ¬ d ++ [n] <+: y.toks)
    (hd : ∀ p, p ≠ [] → p <+: d → ∃ y ∈ a, p <+: y.toks) :
    ∃ a' b', below d (a ++ x :: b) = a' ++ { x with toks := [n] } :: b' ∧ ∀ y ∈ a', ¬ [n] <+: y.toks := by
  induction d generalizing a b x with
  | nil => exact ⟨a, b, by simp only [below]; congr 2; cases x; simp at hx; simp [hx], by simpa using hf⟩
  | cons t d ih =>
    obtain ⟨y, hy, r, hyr⟩ := hd [t] (by simp) (by exact List.cons_prefix_cons.2 ⟨rfl, List.nil_prefix⟩)
    have e : tails t (a ++ x :: b) = tails t a ++ { x with toks := d ++ [n] } :: tails t b := by
      unfold tails
      simp [List.filter_append, hx]
    have hne : tails t a ≠ [] := by
      apply List.ne_nil_of_mem (a := { y with toks := y.toks.tail })
      unfold tails
      exact List.mem_map.2 ⟨y, List.mem_filter.2 ⟨hy, by rw [← hyr]; simp⟩, rfl⟩
    have e2 : marked (tails t (a ++ x :: b)) = marked (tails t a) ++ { x with toks := d ++ [n] } :: tails t b := by
      rw [e]
      cases hta : tails t a with
      | nil => exact absurd hta hne
      | cons w ws => simp [marked]
    rw [below, e2]
    obtain ⟨a', b', h1, h2⟩ := ih (marked (tails t a)) (tails t b) { x with toks := d ++ [n] } rfl ht
      (by
        intro z hz hp
        obtain ⟨z', hz', hp'⟩ := (tails_toks t a (d ++ [n])).1 ⟨z, hz, hp⟩
        exact hf z' hz' hp')
      (by
        intro p hp hpd
        have := hd (t :: p) (by simp) (List.cons_prefix_cons.2 ⟨rfl, hpd⟩)
        exact (tails_toks t a p).2 this)
    exact ⟨a', b', h1, h2⟩

/-- The first item with a name is what is shown. -/
theorem first_shown (a b : List Item) (x : Item) (n : Str) (hx : x.toks = [n]) (ht : x.trail = false)
    (hf : ∀ y ∈ a, ¬ [n] <+: y.toks) (h : Contig (a ++ x :: b)) :
    (⟨n, x.link, x.st⟩ : Shown) ∈ (kids (a ++ x :: b)).map Node.shown := by
  have e : tails n (a ++ x :: b) = { x with toks := [] } :: tails n b := by
    unfold tails
    have : a.filter (fun x => decide (x.toks.head? = some n)) = [] := by
      rw [List.filter_eq_nil_iff]
      intro y hy hh
      refine hf y hy ?_
      cases hk : y.toks with
      | nil => simp [hk] at hh
      | cons u us => simp [hk] at hh; rw [hh]; exact ⟨us, rfl⟩
    simp [List.filter_append, this, hx]
  obtain ⟨y, r, e1, e2⟩ := find_kids _ h n ⟨x, by simp, by simp [hx]⟩
  rw [e] at e1
  simp only [marked, ht, List.isEmpty_nil, Bool.not_true, Bool.or_self, fake] at e1
  injection e1 with e1 e1'
  subst e1
  exact List.mem_map.2 ⟨_, List.mem_of_find?_eq_some e2, rfl⟩

end Verif.Cache
