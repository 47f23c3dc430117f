import Verif.Spec.ResumeCntr
import Verif.Lemmas.Resume
import Verif.Props.Cntr

namespace Verif.ResumeCntr
open Verif.Phase2 Verif.Resume Verif.Manifest Verif.Iobuf Verif.PathCmp

variable {E R : Type}

/-! ### Adding to counters -/

/-- Adding the numbers of an entry to those of another. -/
def plus (a b : Cntr.Ent) : Cntr.Ent :=
  ⟨a.count + b.count, a.changed + b.changed, a.same + b.same, a.deleted + b.deleted, a.phase1 + b.phase1⟩

theorem plus_zero (a : Cntr.Ent) : plus a Cntr.Ent.zero = a := by
  cases a; simp [plus, Cntr.Ent.zero]

theorem plus_assoc (a b c : Cntr.Ent) : plus (plus a b) c = plus a (plus b c) := by
  simp [plus, UInt64.add_assoc]

theorem plus_comm (a b : Cntr.Ent) : plus a b = plus b a := by
  simp [plus, UInt64.add_comm]

/-- A function on counters that adds fixed numbers. -/
def Adds (f : Cntr.Cntr → Cntr.Cntr) (d : Byte → Cntr.Ent) : Prop := ∀ c x, f c x = plus (c x) (d x)

theorem adds_id : Adds (fun c => c) (fun _ => Cntr.Ent.zero) := fun c x => (plus_zero (c x)).symm

theorem adds_comp {f g : Cntr.Cntr → Cntr.Cntr} {d e : Byte → Cntr.Ent} (hf : Adds f d) (hg : Adds g e) :
    Adds (fun c => g (f c)) (fun x => plus (d x) (e x)) := by
  intro c x
  dsimp only
  rw [hg, hf, plus_assoc]

theorem adds_upd (ch : Byte) (f : Cntr.Ent → Cntr.Ent) (e : Cntr.Ent) (h : ∀ a, f a = plus a e) :
    Adds (fun c => Cntr.upd c ch f) (fun x => if x = ch ∧ Cntr.has ch then e else Cntr.Ent.zero) := by
  intro c x
  unfold Cntr.upd
  dsimp only
  split
  · exact h _
  · exact (plus_zero _).symm

/-- Commuting with everything that adds fixed numbers. -/
def Steady (f : Cntr.Cntr → Cntr.Cntr) : Prop := ∃ d, Adds f d

theorem steady_comm {f g : Cntr.Cntr → Cntr.Cntr} (hf : Steady f) (hg : Steady g) (c : Cntr.Cntr) :
    g (f c) = f (g c) := by
  obtain ⟨d, hf⟩ := hf
  obtain ⟨e, hg⟩ := hg
  funext x
  rw [hg, hf, hf, hg, plus_assoc, plus_assoc, plus_comm (d x)]

theorem steady_comp {f g : Cntr.Cntr → Cntr.Cntr} (hf : Steady f) (hg : Steady g) :
    Steady (fun c => g (f c)) := by
  obtain ⟨d, hf⟩ := hf
  obtain ⟨e, hg⟩ := hg
  exact ⟨_, adds_comp hf hg⟩

theorem steady_incrCount (ch : Byte) (v : UInt64) : Steady (fun c => Cntr.incrCount c ch v) :=
  ⟨_, adds_upd ch _ ⟨v, 0, 0, 0, 0⟩ (fun a => by simp [plus])⟩
theorem steady_incrChanged (ch : Byte) (v : UInt64) : Steady (fun c => Cntr.incrChanged c ch v) :=
  ⟨_, adds_upd ch _ ⟨0, v, 0, 0, 0⟩ (fun a => by simp [plus])⟩
theorem steady_incrSame (ch : Byte) (v : UInt64) : Steady (fun c => Cntr.incrSame c ch v) :=
  ⟨_, adds_upd ch _ ⟨0, 0, v, 0, 0⟩ (fun a => by simp [plus])⟩
theorem steady_incrDeleted (ch : Byte) (v : UInt64) : Steady (fun c => Cntr.incrDeleted c ch v) :=
  ⟨_, adds_upd ch _ ⟨0, 0, 0, v, 0⟩ (fun a => by simp [plus])⟩

theorem steady_id : Steady (fun c => c) := ⟨_, adds_id⟩

theorem steady_add (ch : Byte) : Steady (fun c => Cntr.add c ch) := by
  unfold Cntr.add
  by_cases h : ch = Cmd.fileChanged.toByte
  · simp only [h, if_true]
    exact steady_comp (steady_comp (steady_comp (steady_incrChanged _ _) (steady_incrChanged _ _))
      (steady_incrChanged _ _)) (steady_incrCount _ _)
  · simp only [h, if_false]
    by_cases h2 : ch = Cmd.warning.toByte ∨ ch = Cmd.message.toByte
    · simp only [h2, if_true]
      exact steady_incrCount _ _
    · simp only [h2, if_false]
      exact steady_comp (steady_comp (steady_incrCount _ _) (steady_incrCount _ _)) (steady_incrCount _ _)

theorem steady_addChanged (ch : Byte) (v : UInt64) : Steady (fun c => Cntr.addChanged c ch v) :=
  steady_comp (steady_comp (steady_incrChanged _ _) (steady_incrChanged _ _)) (steady_incrChanged _ _)
theorem steady_addSame (ch : Byte) (v : UInt64) : Steady (fun c => Cntr.addSame c ch v) :=
  steady_comp (steady_comp (steady_incrSame _ _) (steady_incrSame _ _)) (steady_incrSame _ _)
theorem steady_addDeleted (ch : Byte) : Steady (fun c => Cntr.addDeleted c ch) :=
  steady_comp (steady_comp (steady_incrDeleted _ _) (steady_incrDeleted _ _)) (steady_incrDeleted _ _)

theorem steady_addTo (r : Row) : Steady (fun c => addTo c r) := by
  obtain ⟨what, key⟩ := r
  cases what
  · exact steady_add _
  · exact steady_addChanged _ _
  · exact steady_addSame _ _
  · exact steady_addDeleted _

theorem steady_addLength (len : R → Option UInt64) (x : R) : Steady (fun c => addLength len c x) := by
  unfold addLength
  cases len x with
  | none => exact steady_id
  | some v => exact steady_incrCount _ _

/-- Counting a record is counting its row, and then its length. -/
theorem count_eq (w : Walk E) (recvd : E → UInt64) (kept : E → Option UInt64) (c : Cntr.Cntr) (o : Out E) :
    count w recvd kept c o = addLength (lengthOf w recvd kept) (addTo c (rowOf w o)) o := by
  cases o <;> rfl

theorem steady_count (w : Walk E) (recvd : E → UInt64) (kept : E → Option UInt64) (o : Out E) :
    Steady (fun c => count w recvd kept c o) := by
  have h : (fun c => count w recvd kept c o) =
      fun c => addLength (lengthOf w recvd kept) (addTo c (rowOf w o)) o := by
    funext c; exact count_eq w recvd kept c o
  rw [h]
  exact steady_comp (steady_addTo _) (steady_addLength _ _)

theorem foldl_perm {α : Type} (f : Cntr.Cntr → α → Cntr.Cntr) (hf : ∀ a, Steady (fun c => f c a))
    {l l' : List α} (h : l.Perm l') : ∀ c, l.foldl f c = l'.foldl f c := by
  induction h with
  | nil => intro c; rfl
  | cons a _ ih => intro c; exact ih _
  | swap a b l =>
    intro c
    simp only [List.foldl_cons]
    rw [steady_comm (hf b) (hf a)]
  | trans _ _ ih1 ih2 => intro c; rw [ih1, ih2]

/-- Something steady can be done before or after a list of steady things. -/
theorem foldl_out {α : Type} (f : Cntr.Cntr → α → Cntr.Cntr) (hf : ∀ a, Steady (fun c => f c a))
    {g : Cntr.Cntr → Cntr.Cntr} (hg : Steady g) : ∀ (l : List α) (c : Cntr.Cntr),
    l.foldl f (g c) = g (l.foldl f c)
  | [], c => rfl
  | a :: l, c => by
    simp only [List.foldl_cons]
    rw [← foldl_out f hf hg l (f c a), steady_comm (hf a) hg]

theorem foldl_swap {α β : Type} (f : Cntr.Cntr → α → Cntr.Cntr) (hf : ∀ a, Steady (fun c => f c a))
    (g : Cntr.Cntr → β → Cntr.Cntr) (hg : ∀ a, Steady (fun c => g c a)) (l : List α) : ∀ (k : List β)
    (c : Cntr.Cntr), k.foldl g (l.foldl f c) = l.foldl f (k.foldl g c)
  | [], c => rfl
  | b :: k, c => by
    simp only [List.foldl_cons]
    rw [← foldl_out f hf (hg b) l c, foldl_swap f hf g hg l k]

/-- Counting records is counting their rows, and then their lengths. -/
theorem count_list (w : Walk E) (recvd : E → UInt64) (kept : E → Option UInt64) : ∀ (l : List (Out E))
    (c : Cntr.Cntr), l.foldl (count w recvd kept) c =
      l.foldl (addLength (lengthOf w recvd kept)) ((l.map (rowOf w)).foldl addTo c)
  | [], c => rfl
  | o :: l, c => by
    simp only [List.foldl_cons, List.map_cons]
    rw [count_list w recvd kept l, count_eq,
      foldl_out addTo steady_addTo (steady_addLength (lengthOf w recvd kept) o)]

/-- The lengths are only in the number of bytes. -/
theorem addLength_other (len : R → Option UInt64) (c : Cntr.Cntr) (o : R) {x : Byte}
    (hx : x ≠ Cmd.bytes.toByte) : addLength len c o x = c x := by
  unfold addLength
  cases len o with
  | none => rfl
  | some v => simp [Cntr.incrCount, Cntr.upd, hx]

theorem lengths_other (len : R → Option UInt64) {x : Byte} (hx : x ≠ Cmd.bytes.toByte) : ∀ (l : List R)
    (c : Cntr.Cntr), l.foldl (addLength len) c x = c x
  | [], _ => rfl
  | o :: l, c => by
    rw [List.foldl_cons, lengths_other len hx l, addLength_other len c o hx]

/-- Steady things keep a difference that is in other counters. -/
theorem steady_at {f : Cntr.Cntr → Cntr.Cntr} (hf : Steady f) {c c' : Cntr.Cntr} {x : Byte} (h : c x = c' x) :
    f c x = f c' x := by
  obtain ⟨d, hf⟩ := hf
  rw [hf, hf, h]

theorem foldl_at {α : Type} (f : Cntr.Cntr → α → Cntr.Cntr) (hf : ∀ a, Steady (fun c => f c a)) {x : Byte} :
    ∀ (l : List α) {c c' : Cntr.Cntr}, c x = c' x → l.foldl f c x = l.foldl f c' x
  | [], _, _, h => h
  | a :: l, _, _, h => foldl_at f hf l (steady_at (hf a) h)

/-! ### The order of the records -/

/-- The key of the entry that a record is about. -/
def K (w : Walk E) (o : Out E) : Cmd × Option Str := w.key (subject o)

/-- Records are in order; only a new entry can be followed by one in the same place: the deletion of what
was there. -/
def Before (w : Walk E) (x y : Out E) : Prop :=
  EntryLt (K w x) (K w y) ∨ (SameKey (K w x) (K w y) ∧ (∃ p, x = .new p) ∧ ∃ c, y = .deleted c)

theorem flat_subject (w : Walk E) (ps cs : List E) {o : Out E} (h : o ∈ flat w ps cs) :
    (∃ p ∈ ps, o.scanned = some p ∧ subject o = p) ∨ ∃ c ∈ cs, o = .deleted c := by
  cases o with
  | deleted c =>
    refine Or.inr ⟨c, ?_, rfl⟩
    rw [← flat_previous w ps cs, List.mem_filterMap]
    exact ⟨_, h, rfl⟩
  | new p =>
    refine Or.inl ⟨p, ?_, rfl, rfl⟩
    rw [← flat_scanned w ps cs, List.mem_filterMap]
    exact ⟨_, h, rfl⟩
  | changed p c =>
    refine Or.inl ⟨p, ?_, rfl, rfl⟩
    rw [← flat_scanned w ps cs, List.mem_filterMap]
    exact ⟨_, h, rfl⟩
  | unchanged p c =>
    refine Or.inl ⟨p, ?_, rfl, rfl⟩
    rw [← flat_scanned w ps cs, List.mem_filterMap]
    exact ⟨_, h, rfl⟩

theorem flat_before (w : Walk E) (hd : ∀ c p, w.dec c p ≠ .doneDeleted) (ps cs : List E) :
    SortedBy w.key ps → SortedBy w.key cs → NoClash w.key (ps ++ cs) →
    (flat w ps cs).Pairwise (Before w) := by
  refine flat_ind w (P := fun ps cs => SortedBy w.key ps → SortedBy w.key cs → NoClash w.key (ps ++ cs) →
    (flat w ps cs).Pairwise (Before w)) ?_ ?_ ?_ ps cs
  · intro cs _ hc _
    rw [flat, List.pairwise_map]
    exact hc.imp (fun h => Or.inl h)
  · intro p ps ih hs hc hn
    have hs' := List.pairwise_cons.1 hs
    rw [flat, List.pairwise_cons]
    refine ⟨?_, ih hs'.2 hc (fun a ha b hb => hn a (by simp_all) b (by simp_all))⟩
    intro o ho
    rcases flat_subject w ps [] ho with ⟨q, hq, _, e⟩ | ⟨c, hc, _⟩
    · left
      unfold K
      rw [e]
      exact hs'.1 q hq
    · cases hc
  · intro p ps c cs ih1 ih2 ih3 hs hc hn
    have hs' := List.pairwise_cons.1 hs
    have hc' := List.pairwise_cons.1 hc
    have hcases := pcmp_cases w.key (a := c) (b := p) (hn c (by simp) p (by simp))
    rcases flat_cons w p ps c cs with ⟨e, h⟩ | ⟨e, h⟩ | ⟨e, h, _⟩ | ⟨e, h, _⟩
    · rw [e, List.pairwise_cons]
      have hlt : EntryLt (w.key c) (w.key p) := by
        rcases h with h | ⟨_, h⟩
        · rcases hcases with ⟨h2, _⟩ | ⟨_, h2⟩ | ⟨h2, _⟩
          · omega
          · exact h2
          · omega
        · exact absurd h (hd _ _)
      refine ⟨?_, ih1 hs hc'.2 (fun a ha b hb => hn a (by simp_all <;> grind) b (by simp_all <;> grind))⟩
      intro o ho
      left
      rcases flat_subject w (p :: ps) cs ho with ⟨q, hq, _, e⟩ | ⟨d, hd, rfl⟩
      · show EntryLt (w.key c) (w.key (subject o))
        rw [e]
        rcases List.mem_cons.1 hq with rfl | hq
        · exact hlt
        · exact hlt.trans (hs'.1 q hq)
      · exact hc'.1 d hd
    · rw [e, List.pairwise_cons]
      have hle : EntryLt (w.key p) (w.key c) ∨ SameKey (w.key p) (w.key c) := by
        rcases hcases with ⟨_, h2⟩ | ⟨h2, _⟩ | ⟨_, h2⟩
        · exact Or.inr h2.symm
        · rcases h with h | ⟨h, _⟩ <;> omega
        · exact Or.inl h2
      refine ⟨?_, ih2 hs'.2 hc (fun a ha b hb => hn a (by simp_all <;> grind) b (by simp_all <;> grind))⟩
      intro o ho
      rcases flat_subject w ps (c :: cs) ho with ⟨q, hq, _, e⟩ | ⟨d, hd, rfl⟩
      · left
        show EntryLt (w.key p) (w.key (subject o))
        rw [e]
        exact hs'.1 q hq
      · rcases List.mem_cons.1 hd with rfl | hd
        · rcases hle with hle | hle
          · exact Or.inl hle
          · exact Or.inr ⟨hle, ⟨p, rfl⟩, _, rfl⟩
        · left
          rcases hle with hle | hle
          · exact hle.trans (hc'.1 d hd)
          · exact (hc'.1 d hd).same_left hle.symm
    all_goals
      rw [e, List.pairwise_cons]
      have hsk : SameKey (w.key c) (w.key p) := by
        rcases hcases with ⟨_, h2⟩ | ⟨h2, _⟩ | ⟨h2, _⟩
        · exact h2
        · omega
        · omega
      refine ⟨?_, ih3 hs'.2 hc'.2 (fun a ha b hb => hn a (by simp_all <;> grind) b (by simp_all <;> grind))⟩
      intro o ho
      left
      rcases flat_subject w ps cs ho with ⟨q, hq, _, e⟩ | ⟨d, hd, rfl⟩
      · show EntryLt (w.key p) (w.key (subject o))
        rw [e]
        exact hs'.1 q hq
      · exact (hc'.1 d hd).same_left hsk

/-- The walk can be cut where both lists are cut at the same place. -/
theorem flat_cut (w : Walk E) (t : Cmd × Option Str) (B Q : List E)
    (hB : ∀ b ∈ B, EntryLt t (w.key b)) (hQ : ∀ q ∈ Q, EntryLt t (w.key q)) (A P : List E) :
    (∀ a ∈ A, EntryLt (w.key a) t ∨ SameKey t (w.key a)) →
    (∀ a ∈ P, EntryLt (w.key a) t ∨ SameKey t (w.key a)) →
    NoClash w.key ((A ++ B) ++ (P ++ Q)) →
    flat w (A ++ B) (P ++ Q) = flat w A P ++ flat w B Q := by
  have lt : ∀ {a b : E}, (EntryLt (w.key a) t ∨ SameKey t (w.key a)) → EntryLt t (w.key b) →
      EntryLt (w.key a) (w.key b) := by
    intro a b h1 h2
    rcases h1 with h1 | h1
    · exact h1.trans h2
    · exact h2.same_left h1
  refine flat_ind w (P := fun A P => (∀ a ∈ A, EntryLt (w.key a) t ∨ SameKey t (w.key a)) →
    (∀ a ∈ P, EntryLt (w.key a) t ∨ SameKey t (w.key a)) → NoClash w.key ((A ++ B) ++ (P ++ Q)) →
    flat w (A ++ B) (P ++ Q) = flat w A P ++ flat w B Q) ?_ ?_ ?_ A P
  · intro P _ hP hn
    rw [flat, List.nil_append]
    induction P with
    | nil => rfl
    | cons c P ih =>
      have ih := ih (fun a ha => hP a (by simp [ha]))
        (fun a ha b hb => hn a (by simp_all <;> grind) b (by simp_all <;> grind))
      cases B with
      | nil => rw [flat, flat]; simp
      | cons b B =>
        have hlt := lt (hP c (by simp)) (hB b (by simp))
        rcases flat_cons w b B c (P ++ Q) with ⟨e, _⟩ | ⟨_, h⟩ | ⟨_, h, _⟩ | ⟨_, h, _⟩
        · rw [List.cons_append, e, ih]; simp
        all_goals
          exfalso
          rcases pcmp_cases w.key (a := c) (b := b) (hn c (by simp) b (by simp)) with
            ⟨h1, h2⟩ | ⟨h1, h2⟩ | ⟨h1, h2⟩
          · exact hlt.not_same h2
          · omega
          · exact EntryLt.irrefl (hlt.trans h2)
  · intro p A ih hA hP hn
    have ih := ih (fun a ha => hA a (by simp [ha])) hP
      (fun a ha b hb => hn a (by simp_all <;> grind) b (by simp_all <;> grind))
    rw [List.nil_append] at ih ⊢
    rw [List.cons_append]
    rw [show flat w (p :: A) [] = .new p :: flat w A [] by rw [flat]]
    cases Q with
    | nil => rw [flat, ih]; simp
    | cons q Q =>
      have hlt := lt (hA p (by simp)) (hQ q (by simp))
      have hpc : 0 < pcmp w.key q p := by
        rcases pcmp_cases w.key (a := q) (b := p) (hn q (by simp) p (by simp)) with
            ⟨h1, h2⟩ | ⟨h1, h2⟩ | ⟨h1, h2⟩
        · exact absurd h2.symm hlt.not_same
        · exact absurd (hlt.trans h2) EntryLt.irrefl
        · exact h1
      rcases flat_cons w p (A ++ B) q Q with ⟨_, h⟩ | ⟨e, _⟩ | ⟨_, h, _⟩ | ⟨_, h, _⟩
      · omega
      · rw [e, ih]; simp
      · omega
      · omega
  · intro p A c P ih1 ih2 ih3 hA hP hn
    have i1 := ih1 hA (fun a ha => hP a (by simp [ha]))
      (fun a ha b hb => hn a (by simp_all <;> grind) b (by simp_all <;> grind))
    have i2 := ih2 (fun a ha => hA a (by simp [ha])) hP
      (fun a ha b hb => hn a (by simp_all <;> grind) b (by simp_all <;> grind))
    have i3 := ih3 (fun a ha => hA a (by simp [ha])) (fun a ha => hP a (by simp [ha]))
      (fun a ha b hb => hn a (by simp_all <;> grind) b (by simp_all <;> grind))
    rw [List.cons_append] at i1
    rw [List.cons_append] at i2
    rw [List.cons_append, List.cons_append]
    rw [flat, flat]
    generalize maybeProcess w c (some p) = r
    obtain ⟨o, k⟩ := r
    cases o <;> cases k <;> simp [i1, i2, i3]

/-! ### Positions in the files of counters -/

theorem forwardCounter_spec {target : Cmd × Option Str} : ∀ (l1 l2 : List Row) (c : Cntr.Cntr),
    (∀ x ∈ l1, EntryLt x.key target ∨ SameKey target x.key) →
    l1.Pairwise (fun x _ => EntryLt x.key target) →
    (∀ x ∈ l2, EntryLt target x.key) → (∀ x ∈ l1 ++ l2, ¬ Clash target x.key) →
    ((∀ x ∈ l1, EntryLt x.key target) ∨ l1 ≠ []) →
    forwardCounter target c (l1 ++ l2) = (l1.foldl addTo c, l1)
  | [], [], c, _, _, _, _, _ => rfl
  | [], x :: l2, c, _, _, h2, hc, _ => by
    have hlt := h2 x (by simp)
    have hcases := pcmp_cases (E := Cmd × Option Str) (fun z => z) (a := target) (b := x.key) (hc x (by simp))
    simp only [pcmp] at hcases
    rw [List.nil_append, forwardCounter]
    have : iobufPathcmp target x.key = -1 := by
      rcases hcases with ⟨_, h⟩ | ⟨h, _⟩ | ⟨_, h⟩
      · exact absurd h hlt.not_same
      · rcases iobufPathcmp_range target x.key with e | e | e <;> omega
      · exact absurd (h.trans hlt) EntryLt.irrefl
    simp only [this]
    rfl
  | x :: l1, l2, c, h1, hp, h2, hc, _ => by
    have hp' := List.pairwise_cons.1 hp
    have hcases := pcmp_cases (E := Cmd × Option Str) (fun z => z) (a := target) (b := x.key) (hc x (by simp))
    simp only [pcmp] at hcases
    rw [List.cons_append, forwardCounter]
    rcases hcases with ⟨h, hs⟩ | ⟨h, hl⟩ | ⟨h, hl⟩
    · have : l1 = [] := by
        cases l1 with
        | nil => rfl
        | cons y l1 => exact absurd hs.symm (hp'.1 y (by simp)).not_same
      subst this
      simp only [h, if_true]
      rfl
    · exfalso
      rcases h1 x (by simp) with h3 | h3
      · exact EntryLt.irrefl (h3.trans hl)
      · exact hl.not_same h3
    · have e1 : iobufPathcmp target x.key ≠ 0 := by omega
      have e2 : iobufPathcmp target x.key ≠ -1 := by omega
      simp only [e1, e2, if_false]
      rw [forwardCounter_spec l1 l2 (addTo c x) (fun y hy => h1 y (by simp [hy])) hp'.2 h2
        (fun y hy => hc y (by simp_all <;> grind)) (by
          cases l1 with
          | nil => left; simp
          | cons y l1 => right; simp)]
      rfl

theorem beforeCount_spec {target : Cmd × Option Str} (i : Info R) (len : R → Option UInt64) : ∀ (l : List R)
    (c : Cntr.Cntr), beforeCount target i len c l =
      (l.takeWhile (fun x => decide (0 < iobufPathcmp target (i.key x)))).foldl (addLength len) c
  | [], _ => rfl
  | x :: l, c => by
    rw [beforeCount]
    by_cases h : iobufPathcmp target (i.key x) ≤ 0
    · rw [if_pos h, List.takeWhile_cons_of_neg (by simp; omega)]
      rfl
    · rw [if_neg h, List.takeWhile_cons_of_pos (by simp; omega), List.foldl_cons]
      exact beforeCount_spec i len l _

/-! ### Where a backup stopped -/

/-- What is known of the lists after any number of interruptions. -/
structure Inv (w : Walk E) (sent : E → Bool) (scan : List E) (prev : Option (List E))
    (seen changed : List (Out E)) : Prop where
  pre : seen <+: phase2 w scan prev
  got : changed <+: seen.filter (fun o => toChanged w o && sent (subject o))
  same : ∀ o ∈ changed, ∀ x ∈ phase2 w scan prev, SameKey (K w o) (K w x) → x ∈ seen

theorem phase2_before (w : Walk E) (hd : ∀ c p, w.dec c p ≠ .doneDeleted) (scan : List E)
    (prev : Option (List E)) (hs : SortedBy w.key scan) (hp : SortedBy w.key (prev.getD []))
    (hn : NoClash w.key (scan ++ prev.getD [])) : (phase2 w scan prev).Pairwise (Before w) := by
  rw [phase2_flat]
  exact flat_before w hd scan (prev.getD []) hs hp hn

theorem before_irrefl {w : Walk E} {x : Out E} : ¬ Before w x x := by
  rintro (h | ⟨_, ⟨p, h1⟩, c, h2⟩)
  · exact EntryLt.irrefl h
  · rw [h1] at h2; cases h2

theorem stopped_inv {w : Walk E} {sent : E → Bool} (hd : ∀ c p, w.dec c p ≠ .doneDeleted) {scan : List E}
    {prev : Option (List E)} (hs : SortedBy w.key scan) (hp : SortedBy w.key (prev.getD []))
    (hn : NoClash w.key (scan ++ prev.getD [])) {seen changed : List (Out E)}
    (h : StoppedSeen w sent scan prev seen changed) : Inv w sent scan prev seen changed := by
  obtain ⟨h1, h2, h3⟩ := h
  refine ⟨h1, h2, ?_⟩
  intro o ho x hx hsk
  rcases h3 o ho with e | ⟨a, b, e, hb⟩
  · rw [e]; exact hx
  obtain ⟨v, hv⟩ := h1
  rw [← hv] at hx
  rcases List.mem_append.1 hx with hx | hx
  · exact hx
  exfalso
  have hpw := phase2_before w hd scan prev hs hp hn
  rw [← hv, List.pairwise_append] at hpw
  obtain ⟨hpw1, _, hpw2⟩ := hpw
  obtain ⟨p, hpm⟩ := List.exists_mem_of_ne_nil _ hb
  obtain ⟨y, hy, hys⟩ := List.mem_filterMap.1 hpm
  rw [e, List.pairwise_append] at hpw1
  have h4 := (List.pairwise_cons.1 hpw1.2.1).1 y hy
  have h5 := hpw2 y (by rw [e]; simp [hy]) x hx
  have h6 : EntryLt (K w o) (K w y) := by
    rcases h4 with h4 | ⟨_, _, c, h4⟩
    · exact h4
    · rw [h4] at hys; cases hys
  have h7 : EntryLt (K w o) (K w x) := by
    rcases h5 with h5 | ⟨h5, _⟩
    · exact h6.trans h5
    · exact h6.same_right h5
  exact h7.not_same hsk

/-- The records that are no deletions. -/
theorem records_seen {w : Walk E} {scan : List E} {prev : Option (List E)} {seen : List (Out E)}
    (h : seen <+: phase2 w scan prev) :
    ∃ n, (records w scan prev).take n =
      seen.filter (fun o => match o with | .deleted _ => false | _ => true) := by
  obtain ⟨v, hv⟩ := h
  refine ⟨(seen.filter (fun o => match o with | .deleted _ => false | _ => true)).length, ?_⟩
  unfold records
  rw [← hv, List.filter_append]
  exact List.take_left

theorem late_scanned {w : Walk E} {o : Out E} (h : toChanged w o = true) :
    (match o with | .deleted _ => false | _ => true) = true := by
  cases o with
  | deleted c => exact Bool.noConfusion h
  | new => rfl
  | changed => rfl
  | unchanged => rfl

theorem filter_late (w : Walk E) (sent : E → Bool) (l : List (Out E)) :
    (l.filter (fun o => match o with | .deleted _ => false | _ => true)).filter
        (fun o => toChanged w o && sent (subject o)) =
      l.filter (fun o => toChanged w o && sent (subject o)) := by
  rw [List.filter_filter]
  refine List.filter_congr ?_
  intro o _
  cases h : toChanged w o
  · simp
  · have := late_scanned h
    simp only [Bool.true_and]
    cases o <;> simp_all

theorem inv_stopped {w : Walk E} {sent : E → Bool} {scan : List E} {prev : Option (List E)}
    {seen changed : List (Out E)} (h : Inv w sent scan prev seen changed) :
    ∃ n, StoppedAfter w sent scan prev n changed (unchangedOf w seen) := by
  obtain ⟨n, hn⟩ := records_seen h.pre
  refine ⟨n, ?_, ?_⟩
  · rw [hn, filter_late]; exact h.got
  · rw [hn]; rfl

/-- Where a resumed backup goes on: the records are cut in two, what is kept is the first part, and what is
left to do is the second. -/
theorem resume_counters (w : Walk E) (isDir sent : E → Bool) (hd : ∀ c p, w.dec c p ≠ .doneDeleted)
    (len : Out E → Option UInt64) (c : Cntr.Cntr) (scan : List E) (prev : Option (List E))
    (hs : SortedBy w.key scan) (hp : SortedBy w.key (prev.getD [])) (hn : NoClash w.key (scan ++ prev.getD []))
    (seen ch : List (Out E)) (h : Inv w sent scan prev seen ch) :
    let p := resume (outInfo w isDir) w.key ch (unchangedOf w seen) scan prev
    let r := resumeCounters (outInfo w isDir) len c ch (unchangedOf w seen) (ch.map (rowOf w))
      ((seen.filter (fun o => !toChanged w o)).map (rowOf w))
    ∃ X, phase2 w scan prev = X ++ phase2 w p.scan p.prev ∧
      p.changed = X.filter (fun o => toChanged w o && sent (subject o)) ∧
      p.unchanged = unchangedOf w X ∧
      r.2.1 = (X.filter (fun o => toChanged w o && sent (subject o))).map (rowOf w) ∧
      r.2.2 = (X.filter (fun o => !toChanged w o)).map (rowOf w) ∧
      r.1 = r.2.2.foldl addTo (r.2.1.foldl addTo
        ((unchangedOf w X).foldl (addLength len) (ch.foldl (addLength len) c))) ∧
      (∀ x ∈ X, ∀ y ∈ phase2 w p.scan p.prev, EntryLt (K w x) (K w y)) ∧
      SortedBy w.key p.scan ∧ SortedBy w.key (p.prev.getD []) ∧ NoClash w.key (p.scan ++ p.prev.getD []) := by
  intro p r
  obtain ⟨n, hst⟩ := inv_stopped h
  obtain ⟨Z, z1, z2, z3, _⟩ := resume_point w isDir sent hd scan prev hs hp hn n ch _ hst
  rcases lastGood_spec (outInfo w isDir) ch with hg | ⟨q, o, hg, hq⟩
  · have hps : p.scan = scan := by simp only [p, resume, hg]
    have hpp : p.prev = prev := by simp only [p, resume, hg]
    have hr : r = (ch.foldl (addLength len) c, [], []) := by
      simp only [r, resumeCounters, hg]
      rfl
    rw [hps, hpp]
    refine ⟨[], by simp, by simp [p, resume, hg], by simp [p, resume, hg, unchangedOf], by rw [hr]; rfl,
      by rw [hr]; rfl, by rw [hr]; rfl, by simp, hs, hp, hn⟩
  · have hps : p.scan = forwardPast (K w o) w.key scan := by simp only [p, resume, hg]; rfl
    have hpp : p.prev = prev.map (forwardPast (K w o) w.key) := by simp only [p, resume, hg]; rfl
    have hr : r =
        (let d := forwardCounter (K w o)
            (beforeCount (K w o) (outInfo w isDir) len (ch.foldl (addLength len) c) (unchangedOf w seen))
            (ch.map (rowOf w))
         let n := forwardCounter (K w o) d.1 ((seen.filter (fun o => !toChanged w o)).map (rowOf w))
         (n.1, d.2, n.2)) := by
      simp only [r, resumeCounters, hg]
      rfl
    -- the entry that is the last good one
    have hoch : o ∈ ch := hq.subset (by simp)
    have hoseen := List.mem_filter.1 (h.got.subset hoch)
    have hofull : o ∈ phase2 w scan prev := h.pre.subset hoseen.1
    have holate : toChanged w o = true := by
      have := hoseen.2
      simp at this
      exact this.1
    have hosub : subject o ∈ scan := by
      rw [phase2_flat] at hofull
      rcases flat_subject w _ _ hofull with ⟨p, hp, _, e⟩ | ⟨c, _, e⟩
      · rw [e]; exact hp
      · rw [e] at holate; simp [toChanged] at holate
    -- the two cuts
    obtain ⟨A, eA, hA, hB⟩ := forwardPast_spec (target := K w o) hs
      (fun x hx => hn _ (by simp [hosub]) _ (by simp [hx]))
    obtain ⟨P, eP, hP, hQ⟩ : ∃ P, prev.getD [] = P ++ (prev.map (forwardPast (K w o) w.key)).getD [] ∧
        (∀ a ∈ P, EntryLt (w.key a) (K w o) ∨ SameKey (K w o) (w.key a)) ∧
        (∀ b ∈ (prev.map (forwardPast (K w o) w.key)).getD [], EntryLt (K w o) (w.key b)) := by
      cases prev with
      | none => exact ⟨[], by simp⟩
      | some l =>
        exact forwardPast_spec (target := K w o) hp (fun x hx => hn _ (by simp [hosub]) _ (List.mem_append_right _ hx))
    rw [hps, hpp]
    generalize hBe : forwardPast (K w o) w.key scan = B at *
    generalize hQe : prev.map (forwardPast (K w o) w.key) = prev' at *
    have hcut : phase2 w scan prev = flat w A P ++ phase2 w B prev' := by
      rw [phase2_flat, phase2_flat]
      have := flat_cut w (K w o) B (prev'.getD []) hB hQ A P hA hP (by rw [← eA, ← eP]; exact hn)
      rw [← eA, ← eP] at this
      exact this
    generalize hXe : flat w A P = X at *
    have hX1 : ∀ x ∈ X, EntryLt (K w x) (K w o) ∨ SameKey (K w o) (K w x) := by
      intro x hx
      rw [← hXe] at hx
      unfold K
      rcases flat_subject w A P hx with ⟨p, hp, _, e⟩ | ⟨c, hc, rfl⟩
      · rw [e]; exact hA p hp
      · exact hP c hc
    have hY1 : ∀ y ∈ phase2 w B prev', EntryLt (K w o) (K w y) := by
      intro y hy
      rw [phase2_flat] at hy
      rcases flat_subject w _ _ hy with ⟨p, hp, _, e⟩ | ⟨c, hc, rfl⟩
      · show EntryLt (K w o) (w.key (subject y))
        rw [e]; exact hB p hp
      · exact hQ c hc
    have hpw := phase2_before w hd scan prev hs hp hn
    have hclash : ∀ x ∈ phase2 w scan prev, ¬ Clash (K w o) (K w x) := by
      intro x hx
      rw [phase2_flat] at hx
      rcases flat_subject w _ _ hx with ⟨p, hp, _, e⟩ | ⟨c, hc, rfl⟩
      · show ¬ Clash (K w o) (w.key (subject x))
        rw [e]; exact hn _ (by simp [hosub]) _ (by simp [hp])
      · exact hn (subject o) (by simp [hosub]) c (by simp [hc])
    -- all of the first part has been seen
    obtain ⟨S, hS, hSp⟩ : ∃ S, seen = X ++ S ∧ S <+: phase2 w B prev' := by
      obtain ⟨v, hv⟩ := h.pre
      have hv' := hv
      rw [hcut, List.append_eq_append_iff] at hv
      rcases hv with ⟨a, e1, e2⟩ | ⟨a, e1, e2⟩
      · cases a with
        | nil => exact ⟨[], by rw [e1]; simp, by simp⟩
        | cons x a =>
          exfalso
          have hxX : x ∈ X := by rw [e1]; simp
          have hxv : x ∈ v := by rw [e2]; simp
          rw [← hv', List.pairwise_append] at hpw
          have h1 := hpw.2.2 o hoseen.1 x hxv
          rcases h1 with h1 | ⟨h1, _⟩
          · rcases hX1 x hxX with h2 | h2
            · exact EntryLt.irrefl (h1.trans h2)
            · exact h1.not_same h2
          · have := h.same o hoch x (by rw [hcut]; simp [hxX]) h1
            exact before_irrefl (hpw.2.2 x this x hxv)
      · exact ⟨a, e1, v, e2.symm⟩
    -- the other lists
    have hZ : Z = X.filter (fun o => match o with | .deleted _ => false | _ => true) := by
      have : records w scan prev =
          X.filter (fun o => match o with | .deleted _ => false | _ => true) ++ records w B prev' := by
        unfold records
        rw [hcut, List.filter_append]
        rfl
      rw [this] at z1
      have e1 : (resume (outInfo w isDir) w.key ch (unchangedOf w seen) scan prev).scan = B := hps
      have e2 : (resume (outInfo w isDir) w.key ch (unchangedOf w seen) scan prev).prev = prev' := hpp
      rw [e1, e2] at z1
      exact (List.append_cancel_right z1).symm
    have hchanged : p.changed = X.filter (fun o => toChanged w o && sent (subject o)) := by
      show (resume (outInfo w isDir) w.key ch (unchangedOf w seen) scan prev).changed = _
      rw [z2, hZ, filter_late]
    have hunchanged : p.unchanged = unchangedOf w X := by
      show (resume (outInfo w isDir) w.key ch (unchangedOf w seen) scan prev).unchanged = _
      rw [z3, hZ]
      rfl
    have hrow : ∀ x : Out E, (rowOf w x).key = K w x := by intro x; cases x <;> rfl
    have hpX : X.Pairwise (Before w) := by
      rw [hcut, List.pairwise_append] at hpw
      exact hpw.1
    -- in the first part, only deletions and the entry itself are in its place
    have hd1 : ∀ c0, forwardCounter (K w o) c0 (ch.map (rowOf w)) =
        ((X.filter (fun o => toChanged w o && sent (subject o))).map (rowOf w) |>.foldl addTo c0,
          (X.filter (fun o => toChanged w o && sent (subject o))).map (rowOf w)) := by
      intro c0
      have ech : ∃ v, ch = X.filter (fun o => toChanged w o && sent (subject o)) ++ v ∧
          ∀ x ∈ v, x ∈ phase2 w B prev' := by
        have e1 : X.filter (fun o => toChanged w o && sent (subject o)) = q ++ [o] := by
          rw [← hchanged]
          simp only [p, resume, hg]
          obtain ⟨v, rfl⟩ := hq
          rw [show q.length + 1 = (q ++ [o]).length by simp]
          exact List.take_left
        obtain ⟨v, hv⟩ := hq
        refine ⟨v, by rw [e1, hv], ?_⟩
        intro x hx
        have hpre := h.got
        rw [hS, List.filter_append, ← hv, ← e1, List.prefix_append_right_inj] at hpre
        exact hSp.subset (List.mem_filter.1 (hpre.subset hx)).1
      obtain ⟨v, ev, hv⟩ := ech
      rw [ev, List.map_append]
      refine forwardCounter_spec _ _ c0 ?_ ?_ ?_ ?_ ?_
      · intro x hx
        obtain ⟨y, hy, rfl⟩ := List.mem_map.1 hx
        rw [hrow]
        exact hX1 y (List.mem_filter.1 hy).1
      · rw [List.pairwise_map]
        have : (X.filter (fun o => toChanged w o && sent (subject o))).Pairwise
            (fun x y => Before w x y ∧ (x ∈ X ∧ y ∈ X) ∧ toChanged w y = true) := by
          rw [List.pairwise_iff_forall_sublist]
          intro x y hxy
          have hx : x ∈ X.filter (fun o => toChanged w o && sent (subject o)) := hxy.subset (by simp)
          have hy : y ∈ X.filter (fun o => toChanged w o && sent (subject o)) := hxy.subset (by simp)
          refine ⟨List.pairwise_iff_forall_sublist.1 hpX (hxy.trans List.filter_sublist),
            ⟨(List.mem_filter.1 hx).1, (List.mem_filter.1 hy).1⟩, ?_⟩
          have := (List.mem_filter.1 hy).2
          simp at this
          exact this.1
        refine this.imp ?_
        intro x y hxy
        rw [hrow]
        obtain ⟨hb, ⟨hx, hy⟩, hl⟩ := hxy
        have hlt : EntryLt (K w x) (K w y) := by
          rcases hb with hb | ⟨_, _, c, e⟩
          · exact hb
          · rw [e] at hl; simp [toChanged] at hl
        rcases hX1 y hy with h1 | h1
        · exact hlt.trans h1
        · exact hlt.same_right h1.symm
      · intro x hx
        obtain ⟨y, hy, rfl⟩ := List.mem_map.1 hx
        rw [hrow]
        exact hY1 y (hv y hy)
      · intro x hx
        rw [← List.map_append] at hx
        obtain ⟨y, hy, rfl⟩ := List.mem_map.1 hx
        rw [hrow]
        refine hclash y ?_
        rw [hcut]
        rcases List.mem_append.1 hy with hy | hy
        · exact List.mem_append_left _ (List.mem_filter.1 hy).1
        · exact List.mem_append_right _ (hv y hy)
      · cases X.filter (fun o => toChanged w o && sent (subject o)) with
        | nil => left; simp
        | cons => right; simp
    have hn1 : ∀ c0, forwardCounter (K w o) c0 ((seen.filter (fun o => !toChanged w o)).map (rowOf w)) =
        ((X.filter (fun o => !toChanged w o)).map (rowOf w) |>.foldl addTo c0,
          (X.filter (fun o => !toChanged w o)).map (rowOf w)) := by
      intro c0
      rw [hS, List.filter_append, List.map_append]
      refine forwardCounter_spec _ _ c0 ?_ ?_ ?_ ?_ ?_
      · intro x hx
        obtain ⟨y, hy, rfl⟩ := List.mem_map.1 hx
        rw [hrow]
        exact hX1 y (List.mem_filter.1 hy).1
      · rw [List.pairwise_map, List.pairwise_iff_forall_sublist]
        intro x y hxy
        rw [hrow]
        have hx : x ∈ X.filter (fun o => !toChanged w o) := hxy.subset (by simp)
        have hy : y ∈ X.filter (fun o => !toChanged w o) := hxy.subset (by simp)
        have hb := List.pairwise_iff_forall_sublist.1 hpX (hxy.trans List.filter_sublist)
        have hyX := hX1 y (List.mem_filter.1 hy).1
        rcases hb with hb | ⟨hb, ⟨p, e⟩, _⟩
        · rcases hyX with h1 | h1
          · exact hb.trans h1
          · exact hb.same_right h1.symm
        · rcases hX1 x (List.mem_filter.1 hx).1 with h1 | h1
          · exact h1
          · exfalso
            -- the entry in this place is the last good one itself, and that has data
            have hps : p ∈ scan := by
              have : x ∈ phase2 w scan prev := by
                rw [hcut]; exact List.mem_append_left _ (List.mem_filter.1 hx).1
              rw [phase2_flat] at this
              rw [← flat_scanned w scan (prev.getD []), List.mem_filterMap]
              exact ⟨x, this, by rw [e]; rfl⟩
            have heq : subject o = p := by
              refine sorted_same_eq hs hosub hps ?_
              rw [e] at h1
              exact h1
            have hl := (List.mem_filter.1 hx).2
            rw [e] at hl
            have : toChanged w (.new p) = true := by
              rw [← heq]
              cases o <;> simp_all [toChanged, subject]
            rw [this] at hl
            simp at hl
      · intro x hx
        obtain ⟨y, hy, rfl⟩ := List.mem_map.1 hx
        rw [hrow]
        exact hY1 y (hSp.subset (List.mem_filter.1 hy).1)
      · intro x hx
        rw [← List.map_append, ← List.filter_append, ← hS] at hx
        obtain ⟨y, hy, rfl⟩ := List.mem_map.1 hx
        rw [hrow]
        exact hclash y (h.pre.subset (List.mem_filter.1 hy).1)
      · cases X.filter (fun o => !toChanged w o) with
        | nil => left; simp
        | cons => right; simp
    have hu : beforeCount (K w o) (outInfo w isDir) len (ch.foldl (addLength len) c) (unchangedOf w seen) =
        (unchangedOf w X).foldl (addLength len) (ch.foldl (addLength len) c) := by
      rw [beforeCount_spec, ← forwardBefore_eq (outInfo_end w isDir), ← hunchanged]
      simp only [p, resume, hg]
      rfl
    refine ⟨X, hcut, hchanged, hunchanged, ?_, ?_, ?_, ?_, ?_, ?_, ?_⟩
    · rw [hr]; dsimp only; rw [hd1]
    · rw [hr]; dsimp only; rw [hn1]
    · rw [hr]; dsimp only; rw [hu, hd1, hn1]
    · intro x hx y hy
      rcases hX1 x hx with h1 | h1
      · exact h1.trans (hY1 y hy)
      · exact (hY1 y hy).same_left h1
    · rw [eA] at hs
      exact (List.pairwise_append.1 hs).2.1
    · rw [eP] at hp
      exact (List.pairwise_append.1 hp).2.1
    · intro a ha b hb
      refine hn a ?_ b ?_
      · rcases List.mem_append.1 ha with h | h
        · rw [eA]; simp [h]
        · rw [eP]; simp [h]
      · rcases List.mem_append.1 hb with h | h
        · rw [eA]; simp [h]
        · rw [eP]; simp [h]

/-- However often it has been interrupted and resumed, the files are as after one interruption. -/
theorem halted_inv (w : Walk E) (isDir sent : E → Bool) (len : Out E → Option UInt64)
    (hd : ∀ c p, w.dec c p ≠ .doneDeleted) (scan : List E) (prev : Option (List E))
    (hs : SortedBy w.key scan) (hp : SortedBy w.key (prev.getD [])) (hn : NoClash w.key (scan ++ prev.getD []))
    {ch un : List (Out E)} {cd cn : List Row} (h : Halted w isDir sent len scan prev ch un cd cn) :
    ∃ seen, Inv w sent scan prev seen ch ∧ un = unchangedOf w seen ∧ cd = ch.map (rowOf w) ∧
      cn = (seen.filter (fun o => !toChanged w o)).map (rowOf w) := by
  induction h with
  | first h => exact ⟨_, stopped_inv hd hs hp hn h, rfl, rfl, rfl⟩
  | @again ch un cd cn seen' changed' c _ h' ih =>
    obtain ⟨seen, hi, rfl, rfl, rfl⟩ := ih
    obtain ⟨X, x1, x2, x3, x4, x5, _, x6, y1, y2, y3⟩ :=
      resume_counters w isDir sent hd len c scan prev hs hp hn seen ch hi
    have hi' := stopped_inv hd y1 y2 y3 h'
    refine ⟨X ++ seen', ⟨?_, ?_, ?_⟩, ?_, ?_, ?_⟩
    · rw [x1, List.prefix_append_right_inj]
      exact hi'.pre
    · rw [x2, List.filter_append, List.prefix_append_right_inj]
      exact hi'.got
    · intro o ho x hx hsk
      rw [x1] at hx
      rw [List.mem_append] at ho hx ⊢
      rcases ho with ho | ho
      · rw [x2] at ho
        rcases hx with hx | hx
        · exact Or.inl hx
        · exact absurd hsk (x6 o (List.mem_filter.1 ho).1 x hx).not_same
      · have hoY := hi'.pre.subset (List.mem_filter.1 (hi'.got.subset ho)).1
        rcases hx with hx | hx
        · exact Or.inl hx
        · exact Or.inr (hi'.same o ho x hx hsk)
    · rw [x3]
      unfold unchangedOf
      simp only [List.filter_append]
    · rw [x4, x2, List.map_append]
    · rw [x5, List.filter_append, List.map_append]

end Verif.ResumeCntr
