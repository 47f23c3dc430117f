import Verif.Spec.Deletions
import Verif.Lemmas.Merge

/-! Helper lemmas for `Verif/Props/Deletions.lean`. -/

set_option linter.unusedSectionVars false

namespace Verif.Deletions
open Verif Verif.Manifest

variable {E : Type} [DecidableEq E] {k : Kinds E} {may : E → Prop} {m0 : List E}

theorem lt_asymm {a b : Cmd × Option Str} (h : EntryLt a b) (h' : EntryLt b a) : False :=
  (h.trans h').not_same ⟨rfl, rfl⟩

/-- Equal keys in a sorted list are the same entry. -/
theorem same_eq {m : List E} (hs : SortedBy k.key m) {a b : E} (ha : a ∈ m) (hb : b ∈ m)
    (h : SameKey (k.key a) (k.key b)) : a = b := by
  induction m with
  | nil => cases ha
  | cons c m ih =>
    unfold SortedBy at hs
    rw [List.pairwise_cons] at hs
    rcases List.mem_cons.1 ha with ha' | ha' <;> rcases List.mem_cons.1 hb with hb' | hb'
    · rw [ha', hb']
    · subst ha'; exact absurd h (hs.1 b hb').not_same
    · subst hb'; exact absurd h.symm (hs.1 a ha').not_same
    · exact ih hs.2 ha' hb'

/-- In a sorted list what is smaller comes before. -/
theorem before {p q : List E} {e y : E} (hs : SortedBy k.key (p ++ e :: q)) (hy : y ∈ p ++ e :: q)
    (h : EntryLt (k.key y) (k.key e)) : y ∈ p := by
  unfold SortedBy at hs
  rw [List.pairwise_append, List.pairwise_cons] at hs
  rcases List.mem_append.1 hy with hy | hy
  · exact hy
  · rcases List.mem_cons.1 hy with rfl | hy
    · exact absurd h (fun h => lt_asymm h h)
    · exact (lt_asymm h (hs.2.1.1 y hy)).elim

/-- What is noted fits the manifest. -/
structure Noted (k : Kinds E) (may : E → Prop) (m ds : List E) (fin : E → Bool) : Prop where
  sub : ∀ x ∈ ds, x ∈ m ∧ may x ∧ k.data x = true
  closed : ∀ p x q, ds = p ++ x :: q → ∀ y ∈ ds, EntryLt (k.key y) (k.key x) → y ∈ p
  past : ∀ p x q, ds = p ++ x :: q → ∀ y ∈ m, EntryLt (k.key y) (k.key x) → k.data y = true →
    fin y = true ∨ y ∈ p

theorem Noted.nil {m : List E} {fin : E → Bool} : Noted k may m [] fin :=
  ⟨fun x hx => (by cases hx), fun p x q h => (by simp at h), fun p x q h => (by simp at h)⟩

theorem Noted.more {m ds : List E} {fin fin' : E → Bool} (h : Noted k may m ds fin)
    (hf : ∀ x, fin x = true → fin' x = true) : Noted k may m ds fin' :=
  ⟨h.sub, h.closed, fun p x q hp y hy hl hd => (h.past p x q hp y hy hl hd).imp (hf y) id⟩

theorem split_snoc {ds p q : List E} {e x : E} (h : ds ++ [e] = p ++ x :: q) :
    (∃ q', q = q' ++ [e] ∧ ds = p ++ x :: q') ∨ (q = [] ∧ p = ds ∧ x = e) := by
  rcases List.eq_nil_or_concat q with rfl | ⟨q', z, rfl⟩
  · right
    have := List.append_inj' h rfl
    obtain ⟨h1, h2⟩ := this
    injection h2 with h2
    exact ⟨rfl, h1.symm, h2.symm⟩
  · left
    have h' : ds ++ [e] = (p ++ x :: q') ++ [z] := by rw [h]; simp
    obtain ⟨h1, h2⟩ := List.append_inj' h' rfl
    injection h2 with h2
    exact ⟨q', by rw [h2]; simp, h1⟩

theorem Noted.snoc {m ds : List E} {fin : E → Bool} {e : E} (h : Noted k may m ds fin)
    (he : e ∈ m) (hm : may e) (hd : k.data e = true) (hf : fin e = false)
    (hp : ∀ y ∈ m, EntryLt (k.key y) (k.key e) → k.data y = true → fin y = true ∨ y ∈ ds) :
    Noted k may m (ds ++ [e]) fin := by
  refine ⟨?_, ?_, ?_⟩
  · intro x hx
    rcases List.mem_append.1 hx with hx | hx
    · exact h.sub x hx
    · rw [List.mem_singleton.1 hx]; exact ⟨he, hm, hd⟩
  · intro p x q hs y hy hl
    rcases split_snoc hs with ⟨q', rfl, hds⟩ | ⟨rfl, rfl, rfl⟩
    · rcases List.mem_append.1 hy with hy | hy
      · exact h.closed p x q' hds y hy hl
      · have hy := List.mem_singleton.1 hy
        subst hy
        rcases h.past p x q' hds y he hl hd with h1 | h1
        · rw [hf] at h1; cases h1
        · exact h1
    · rcases List.mem_append.1 hy with hy | hy
      · exact hy
      · rw [List.mem_singleton.1 hy] at hl
        exact (lt_asymm hl hl).elim
  · intro p x q hs y hy hl hdy
    rcases split_snoc hs with ⟨q', rfl, hds⟩ | ⟨rfl, rfl, rfl⟩
    · exact h.past p x q' hds y hy hl hdy
    · exact hp y hy hl hdy

/-- What has been looked at in a run is in its place or noted. -/
def Seen (k : Kinds E) (d : Disc E) (l : List E) : Prop :=
  ∀ y ∈ l, k.data y = true → d.fin y = true ∨ y ∈ d.dels.getD []

/-- A disc on which the shuffle of `m` may go on. -/
def Fine (k : Kinds E) (may : E → Prop) (m : List E) (d : Disc E) : Prop :=
  d.man = some m ∧ Noted k may m (d.dels.getD []) d.fin

theorem mem_andThen {r : Run E} {f : Disc E → Run E} {x : Disc E} (h : x ∈ (r.andThen f).1) :
    x ∈ r.1 ∨ (r.2.2 = true ∧ x ∈ (f r.2.1).1) := by
  obtain ⟨ss, d, b⟩ := r
  cases b with
  | false => exact .inl h
  | true =>
    rcases List.mem_append.1 h with h | h
    · exact .inl h
    · exact .inr ⟨rfl, h⟩

theorem andThen_ok {r : Run E} {f : Disc E → Run E} (h : (r.andThen f).2.2 = true) :
    r.2.2 = true ∧ (f r.2.1).2.2 = true ∧ (r.andThen f).2.1 = (f r.2.1).2.1 := by
  obtain ⟨ss, d, b⟩ := r
  cases b with
  | false => cases h
  | true => exact ⟨rfl, h, rfl⟩

theorem one_fine {o : Luck E} (ho : ∀ e, o.data e = .failed → may e) {m pre post : List E} {e : E}
    (hs : SortedBy k.key m) (hm : m = pre ++ e :: post) {d : Disc E} (hf : Fine k may m d)
    (hp : Seen k d pre) :
    (∀ x ∈ (one k o e d).1, Fine k may m x)
    ∧ Fine k may m (one k o e d).2.1
    ∧ ((one k o e d).2.2 = true → Seen k (one k o e d).2.1 (pre ++ [e])) := by
  unfold one
  by_cases hc : (k.data e && !d.fin e) = true
  · rw [if_pos hc]
    simp only [Bool.and_eq_true, Bool.not_eq_true'] at hc
    obtain ⟨hc1, hc2⟩ := hc
    cases hod : o.data e with
    | done =>
      have hmono : ∀ x, d.fin x = true → (if x = e then true else d.fin x) = true := by
        intro x hx; split
        · rfl
        · exact hx
      have hfine : Fine k may m { d with fin := fun x => if x = e then true else d.fin x } :=
        ⟨hf.1, hf.2.more hmono⟩
      refine ⟨fun x hx => ?_, hfine, fun _ y hy hdy => ?_⟩
      · rw [List.mem_singleton.1 hx]; exact hfine
      · rcases List.mem_append.1 hy with hy | hy
        · exact (hp y hy hdy).imp (hmono y) id
        · left
          show (if y = e then true else d.fin y) = true
          rw [if_pos (List.mem_singleton.1 hy)]
    | failed =>
      have hem : e ∈ m := by rw [hm]; simp
      have hn : Noted k may m (d.dels.getD [] ++ [e]) d.fin := by
        refine hf.2.snoc hem (ho e hod) hc1 hc2 ?_
        intro y hy hl hdy
        rw [hm] at hy hs
        exact hp y (before hs hy hl) hdy
      refine ⟨fun x hx => ?_, ⟨hf.1, hn⟩, fun _ y hy hdy => ?_⟩
      · rcases List.mem_cons.1 hx with rfl | hx
        · exact ⟨hf.1, hf.2⟩
        · rw [List.mem_singleton.1 hx]; exact ⟨hf.1, hn⟩
      · rcases List.mem_append.1 hy with hy | hy
        · exact (hp y hy hdy).imp id (fun h => List.mem_append_left _ h)
        · exact .inr (List.mem_append_right _ hy)
    | fatal => exact ⟨fun x hx => (by cases hx), hf, fun h => (by cases h)⟩
  · rw [if_neg hc]
    refine ⟨fun x hx => (by cases hx), hf, fun _ y hy hdy => ?_⟩
    rcases List.mem_append.1 hy with hy | hy
    · exact hp y hy hdy
    · rw [List.mem_singleton.1 hy] at hdy ⊢
      left
      simpa [hdy] using hc

theorem loop_fine {o : Luck E} (ho : ∀ e, o.data e = .failed → may e) {m : List E} (hs : SortedBy k.key m) :
    ∀ (post pre : List E) (d : Disc E), m = pre ++ post → Fine k may m d → Seen k d pre →
    (∀ x ∈ (loop k o post d).1, Fine k may m x)
    ∧ ((loop k o post d).2.2 = true → Fine k may m (loop k o post d).2.1 ∧ Seen k (loop k o post d).2.1 m)
  | [], pre, d, hm, hf, hp => by
    refine ⟨fun x hx => (by cases hx), fun _ => ⟨hf, ?_⟩⟩
    rw [hm, List.append_nil]
    exact hp
  | e :: post, pre, d, hm, hf, hp => by
    obtain ⟨h1, h2, h3⟩ := one_fine ho hs hm hf hp
    have ih := fun hok => loop_fine ho hs post (pre ++ [e]) (one k o e d).2.1 (by rw [hm]; simp) h2 (h3 hok)
    unfold loop
    constructor
    · intro x hx
      rcases mem_andThen hx with hx | ⟨hok, hx⟩
      · exact h1 x hx
      · exact (ih hok).1 x hx
    · intro hok
      obtain ⟨h4, h5, h6⟩ := andThen_ok hok
      rw [h6]
      exact (ih h4).2 h5

/-- The manifest afterwards. -/
theorem performed {m ds : List E} {fin : E → Bool} (hn : NoClash k.key m) (hs : SortedBy k.key m)
    (h : Noted k may m ds fin) : ∀ x, x ∈ performDeletions k.key m ds ↔ x ∈ m ∧ x ∉ ds := by
  have hc : Closed k.key ds := fun p d q hp x hx hl => ⟨x, h.closed p d q hp x hx hl, rfl, rfl⟩
  have he := performDeletions_eq k.key ds hc m ds [] hs ?_ (by simp) (by simp)
  · intro x
    rw [he, List.mem_filter]
    constructor
    · rintro ⟨h1, h2⟩
      simp only [decide_eq_true_eq] at h2
      exact ⟨h1, fun hx => h2 ⟨x, hx, rfl, rfl⟩⟩
    · rintro ⟨h1, h2⟩
      refine ⟨h1, ?_⟩
      simp only [decide_eq_true_eq]
      rintro ⟨y, hy, hsame⟩
      rw [same_eq hs h1 (h.sub y hy).1 hsame] at h2
      exact h2 hy
  · refine hn.sub ?_
    intro x hx
    rcases List.mem_append.1 hx with hx | hx
    · exact hx
    · exact (h.sub x hx).1

theorem performed_sub {m ds : List E} {fin : E → Bool} (hn : NoClash k.key m) (hs : SortedBy k.key m)
    (h : Noted k may m ds fin) : (performDeletions k.key m ds).Sublist m := by
  have hc : Closed k.key ds := fun p d q hp x hx hl => ⟨x, h.closed p d q hp x hx hl, rfl, rfl⟩
  rw [performDeletions_eq k.key ds hc m ds [] hs (hn.sub ?_) (by simp) (by simp)]
  · exact List.filter_sublist
  · intro x hx
    rcases List.mem_append.1 hx with hx | hx
    · exact hx
    · exact (h.sub x hx).1

/-- A manifest that has lost nothing but entries that failed. -/
def Kept (k : Kinds E) (may : E → Prop) (m0 m : List E) : Prop :=
  m.Sublist m0 ∧ ∀ e ∈ m0, e ∉ m → may e ∧ k.data e = true

/-- The invariant. -/
def Inv (k : Kinds E) (may : E → Prop) (m0 : List E) (d : Disc E) : Prop :=
  ∃ m, Kept k may m0 m ∧ (Fine k may m d ∨ (d.man = none ∧ d.tmp = some (.whole m) ∧ d.dels = none))

theorem kept_performed {m ds : List E} {fin : E → Bool} (hn : NoClash k.key m) (hs : SortedBy k.key m)
    (hk : Kept k may m0 m) (h : Noted k may m ds fin) : Kept k may m0 (performDeletions k.key m ds) := by
  refine ⟨(performed_sub hn hs h).trans hk.1, fun e he hne => ?_⟩
  by_cases hem : e ∈ m
  · by_cases hd : e ∈ ds
    · exact (h.sub e hd).2
    · exact absurd ((performed hn hs h e).2 ⟨hem, hd⟩) hne
  · exact hk.2 e he hem

theorem finish_fine {o : Luck E} {m : List E} (hn : NoClash k.key m) (hs : SortedBy k.key m)
    (hk : Kept k may m0 m) {d : Disc E} (hf : Fine k may m d) (hp : Seen k d m) :
    (∀ x ∈ (finish k o m d).1, Inv k may m0 x)
    ∧ ((finish k o m d).2.2 = true → ∃ m', (finish k o m d).2.1.man = some m' ∧ Kept k may m0 m'
        ∧ (finish k o m d).2.1.dels = none
        ∧ ∀ e ∈ m', k.data e = true → (finish k o m d).2.1.fin e = true) := by
  unfold finish
  cases hd : d.dels with
  | none =>
    refine ⟨fun x hx => (by cases hx), fun _ => ⟨m, hf.1, hk, hd, fun e he hde => ?_⟩⟩
    rcases hp e he hde with h | h
    · exact h
    · rw [hd] at h; cases h
  | some ds =>
    obtain ⟨hman, hno⟩ := hf
    have hno' : Noted k may m ds d.fin := by simpa [hd] using hno
    have hk' := kept_performed hn hs hk hno'
    simp only
    have i1 : Inv k may m0 { d with tmp := some .part, dels := some ds } := ⟨m, hk, .inl ⟨hman, hno'⟩⟩
    by_cases hw : o.writes = true
    · rw [if_pos hw]
      have i2 : Inv k may m0 { d with tmp := some (.whole (performDeletions k.key m ds)), dels := some ds } :=
        ⟨m, hk, .inl ⟨hman, hno'⟩⟩
      have i3 : Inv k may m0 { d with tmp := some (.whole (performDeletions k.key m ds)), dels := none } :=
        ⟨m, hk, .inl ⟨hman, Noted.nil⟩⟩
      by_cases hr : o.renames = true
      · rw [if_pos hr]
        refine ⟨?_, fun _ => ⟨_, rfl, hk', rfl, ?_⟩⟩
        · intro x hx
          simp only [List.mem_cons, List.not_mem_nil, or_false] at hx
          rcases hx with rfl | rfl | rfl | rfl | rfl
          · exact i1
          · exact i2
          · exact i3
          · exact ⟨_, hk', .inr ⟨rfl, rfl, rfl⟩⟩
          · exact ⟨_, hk', .inl ⟨rfl, Noted.nil⟩⟩
        · intro e he hde
          obtain ⟨h1, h2⟩ := (performed hn hs hno' e).1 he
          rcases hp e h1 hde with h | h
          · exact h
          · rw [hd] at h; exact absurd h h2
      · rw [if_neg hr]
        refine ⟨?_, fun h => (by cases h)⟩
        intro x hx
        simp only [List.mem_cons, List.not_mem_nil, or_false] at hx
        rcases hx with rfl | rfl | rfl
        · exact i1
        · exact i2
        · exact i3
    · rw [if_neg hw]
      refine ⟨?_, fun h => (by cases h)⟩
      intro x hx
      simp only [List.mem_cons, List.not_mem_nil, or_false] at hx
      rcases hx with rfl | rfl
      · exact i1
      · exact ⟨m, hk, .inl ⟨hman, hno'⟩⟩

/-- What a run that ends well leaves. -/
def Good (k : Kinds E) (may : E → Prop) (m0 : List E) (d : Disc E) : Prop :=
  ∃ m', d.man = some m' ∧ Kept k may m0 m' ∧ d.dels = none ∧ ∀ e ∈ m', k.data e = true → d.fin e = true

theorem rest_fine {o : Luck E} (ho : ∀ e, o.data e = .failed → may e) (hn : NoClash k.key m0)
    (hs : SortedBy k.key m0) {m : List E} (hk : Kept k may m0 m) {d : Disc E} (hf : Fine k may m d) :
    (∀ x ∈ (rest k o m d).1, Inv k may m0 x) ∧ ((rest k o m d).2.2 = true → Good k may m0 (rest k o m d).2.1) := by
  have hs' : SortedBy k.key m := List.Pairwise.sublist hk.1 hs
  have hn' : NoClash k.key m := hn.sub hk.1.subset
  obtain ⟨h1, h2⟩ := loop_fine ho hs' m [] d rfl hf (fun y hy => by cases hy)
  unfold rest
  constructor
  · intro x hx
    rcases mem_andThen hx with hx | ⟨hok, hx⟩
    · exact ⟨m, hk, .inl (h1 x hx)⟩
    · exact (finish_fine hn' hs' hk (h2 hok).1 (h2 hok).2).1 x hx
  · intro hok
    obtain ⟨h4, h5, h6⟩ := andThen_ok hok
    rw [h6]
    exact (finish_fine hn' hs' hk (h2 h4).1 (h2 h4).2).2 h5

theorem run_fine {o : Luck E} (ho : ∀ e, o.data e = .failed → may e) (hn : NoClash k.key m0)
    (hs : SortedBy k.key m0) {d : Disc E} (hi : Inv k may m0 d) :
    (∀ x ∈ (run k o d).1, Inv k may m0 x) ∧ ((run k o d).2.2 = true → Good k may m0 (run k o d).2.1) := by
  obtain ⟨m, hk, hf | ⟨h1, h2, h3⟩⟩ := hi
  · unfold run
    rw [hf.1]
    exact rest_fine ho hn hs hk hf
  · unfold run
    rw [h1, h2]
    simp only
    have hf : Fine k may m { d with man := some m, tmp := none } :=
      ⟨rfl, by show Noted k may m (d.dels.getD []) d.fin; rw [h3]; exact Noted.nil⟩
    obtain ⟨r1, r2⟩ := rest_fine ho hn hs hk hf
    constructor
    · intro x hx
      rcases mem_andThen hx with hx | ⟨_, hx⟩
      · rw [List.mem_singleton.1 hx]; exact ⟨m, hk, .inl hf⟩
      · exact r1 x hx
    · intro hok
      obtain ⟨_, h5, h6⟩ := andThen_ok hok
      rw [h6]
      exact r2 h5

theorem reach_inv (hn : NoClash k.key m0) (hs : SortedBy k.key m0) {d : Disc E} (h : Reach k may m0 d) :
    Inv k may m0 d := by
  induction h with
  | new d hm hd =>
    exact ⟨m0, ⟨List.Sublist.refl _, fun e h1 h2 => absurd h1 h2⟩, .inl ⟨hm, by rw [hd]; exact Noted.nil⟩⟩
  | killed d d' o _ ho hk ih => exact (run_fine ho hn hs ih).1 d' hk

/-- Without fatal errors the loop ends well. -/
theorem loop_ok {o : Luck E} (h : ∀ e, o.data e ≠ .fatal) : ∀ (m : List E) (d : Disc E), (loop k o m d).2.2 = true
  | [], _ => rfl
  | e :: m, d => by
    have h1 : (one k o e d).2.2 = true := by
      unfold one
      split
      · cases ho : o.data e with
        | done => rfl
        | failed => rfl
        | fatal => exact absurd ho (h e)
      · rfl
    have h2 := loop_ok h m (one k o e d).2.1
    unfold loop
    generalize hr : one k o e d = r at h1 h2
    obtain ⟨ss, d', b⟩ := r
    simp only at h1
    subst h1
    exact h2

theorem rest_ok {o : Luck E} (h : ∀ e, o.data e ≠ .fatal) (hw : o.writes = true) (hr : o.renames = true)
    (m : List E) (d : Disc E) : (rest k o m d).2.2 = true := by
  have h1 := loop_ok (k := k) h m d
  have h2 : ∀ d, (finish k o m d).2.2 = true := by
    intro d
    unfold finish
    cases d.dels with
    | none => rfl
    | some ds => simp only; rw [if_pos hw, if_pos hr]
  unfold rest
  generalize loop k o m d = r at h1
  obtain ⟨ss, d', b⟩ := r
  simp only at h1
  subst h1
  exact h2 d'

/-- With all in place nothing happens. -/
theorem loop_done {o : Luck E} {d : Disc E} : ∀ (m : List E), (∀ e ∈ m, k.data e = true → d.fin e = true) →
    loop k o m d = ([], d, true)
  | [], _ => rfl
  | e :: m, h => by
    have h1 : one k o e d = ([], d, true) := by
      unfold one
      rw [if_neg]
      intro hc
      simp only [Bool.and_eq_true, Bool.not_eq_true'] at hc
      rw [h e (List.mem_cons_self ..) hc.1] at hc
      cases hc.2
    unfold loop
    rw [h1]
    show (([] : List (Disc E)) ++ (loop k o m d).1, (loop k o m d).2.1, (loop k o m d).2.2) = _
    rw [loop_done m (fun e he => h e (List.mem_cons_of_mem _ he))]
    rfl

theorem sublist_all {m l : List E} (h : m.Sublist l) : l.Nodup → (∀ e ∈ l, e ∈ m) → m = l := by
  induction h with
  | slnil => intro _ _; rfl
  | cons a h ih =>
    intro hn ha
    rw [List.nodup_cons] at hn
    exact absurd (h.subset (ha a (List.mem_cons_self ..))) hn.1
  | cons_cons a h ih =>
    intro hn ha
    rw [List.nodup_cons] at hn
    rw [ih hn.2]
    intro e he
    rcases List.mem_cons.1 (ha e (List.mem_cons_of_mem _ he)) with rfl | h'
    · exact absurd he hn.1
    · exact h'

end Verif.Deletions
