import Verif.Spec.Cntr

/-!
# C47: counters
-/

namespace Verif
open Verif Cntr

namespace Cntr

abbrev tot : Byte := Cmd.total.toByte
abbrev gtot : Byte := Cmd.grandTotal.toByte

/-- A change to a kind and to both totals. -/
def three (c : Cntr) (ch : Byte) (f : Ent → Ent) : Cntr := upd (upd (upd c ch f) tot f) gtot f

theorem kinds_has : ∀ k ∈ kinds, has k = true ∧ k ≠ tot ∧ k ≠ gtot ∧ k ≠ Cmd.fileChanged.toByte
    ∧ k ≠ Cmd.warning.toByte ∧ k ≠ Cmd.message.toByte ∧ k ≠ Cmd.bytes.toByte
    ∧ k ≠ Cmd.bytesEstimated.toByte ∧ k ≠ Cmd.bytesSent.toByte ∧ k ≠ Cmd.bytesRecv.toByte := by decide

theorem kinds_nodup : kinds.Nodup := by decide

theorem three_apply {c : Cntr} {ch : Byte} (h : ch ∈ kinds) (f : Ent → Ent) (x : Byte) :
    three c ch f x = if x = ch ∨ x = tot ∨ x = gtot then f (c x) else c x := by
  obtain ⟨h1, h2, h3, -⟩ := kinds_has ch h
  have ht : has tot = true := by decide
  have hg : has gtot = true := by decide
  have hne : tot ≠ gtot := by decide
  unfold three upd
  simp only [h1, ht, hg, and_true]
  by_cases a : x = gtot
  · have b : x ≠ tot := fun e => hne (e.symm.trans a)
    have d : x ≠ ch := fun e => h3 (e.symm.trans a)
    simp [a, Ne.symm hne, Ne.symm h3]
  · by_cases b : x = tot
    · simp [b, hne, Ne.symm h2]
    · simp [a, b]

theorem sum_upd (g g' : Byte → UInt64) (k : Byte) (v : UInt64) (hk : g' k = g k + v)
    (ho : ∀ x, x ≠ k → g' x = g x) : ∀ l : List Byte, l.Nodup → k ∈ l →
      sum (l.map g') = sum (l.map g) + v := by
  have hout : ∀ l : List Byte, k ∉ l → sum (l.map g') = sum (l.map g) := by
    intro l hl
    congr 1
    exact List.map_congr_left fun x hx => ho x fun e => hl (e ▸ hx)
  intro l
  induction l with
  | nil => intro _ h; cases h
  | cons x xs ih =>
    intro hn hm
    obtain ⟨hx, hxs⟩ := List.nodup_cons.mp hn
    by_cases e : x = k
    · subst e
      have := hout xs hx
      simp only [sum, List.map_cons, List.foldr_cons] at this ⊢
      rw [this, hk, UInt64.add_assoc, UInt64.add_comm v, UInt64.add_assoc]
    · have hm' : k ∈ xs := by
        rcases List.mem_cons.mp hm with h | h
        · exact absurd h.symm e
        · exact h
      have := ih hxs hm'
      simp only [sum, List.map_cons, List.foldr_cons] at this ⊢
      rw [this, ho x e, UInt64.add_assoc]

/-- The totals of one column. -/
def Balanced (c : Cntr) (F : Ent → UInt64) : Prop := F (c gtot) = column c F ∧ F (c tot) = column c F

theorem balanced_three {c : Cntr} {F : Ent → UInt64} (h : Balanced c F) {ch : Byte} (hc : ch ∈ kinds)
    (f : Ent → Ent) (v : UInt64) (hf : ∀ e, F (f e) = F e + v) : Balanced (three c ch f) F := by
  obtain ⟨-, h2, h3, -⟩ := kinds_has ch hc
  have hs : column (three c ch f) F = column c F + v := by
    have e : kinds.map (fun k => F (three c ch f k))
        = kinds.map (fun k => F (if k = ch then f (c k) else c k)) := by
      refine List.map_congr_left fun x hx => ?_
      obtain ⟨-, a, b, -⟩ := kinds_has x hx
      rw [three_apply hc]
      simp [a, b]
    unfold column
    rw [e]
    refine sum_upd (fun k => F (c k)) _ ch v ?_ ?_ kinds kinds_nodup hc
    · simp [hf]
    · intro x hx
      simp [hx]
  have hg : three c ch f gtot = f (c gtot) := by rw [three_apply hc]; simp
  have ht : three c ch f tot = f (c tot) := by rw [three_apply hc]; simp
  exact ⟨by rw [hg, hf, hs, h.1], by rw [ht, hf, hs, h.2]⟩

theorem balanced_upd {c : Cntr} {F : Ent → UInt64} (h : Balanced c F) {ch : Byte} (hc : ch ∉ kinds)
    (ht : ch ≠ tot) (hg : ch ≠ gtot) (f : Ent → Ent) : Balanced (upd c ch f) F := by
  have ho : ∀ x, x ≠ ch → upd c ch f x = c x := fun x hx => by simp [upd, hx]
  have e : column (upd c ch f) F = column c F := by
    unfold column
    congr 1
    exact List.map_congr_left fun x hx => by rw [ho x fun e => hc (e ▸ hx)]
  unfold Balanced
  rw [e, ho _ (Ne.symm ht), ho _ (Ne.symm hg)]
  exact h

theorem upd_field (F : Ent → UInt64) (c : Cntr) (ch x : Byte) (f : Ent → Ent) (h : ∀ e, F (f e) = F e) :
    F (upd c ch f x) = F (c x) := by
  unfold upd
  split
  · exact h _
  · rfl

/-- What each call does, in one form. -/
theorem add_kind {c : Cntr} {ch : Byte} (h : ch ∈ kinds) :
    add c ch = three c ch (fun e => { e with count := e.count + 1 }) := by
  obtain ⟨-, -, -, h1, h2, h3, -⟩ := kinds_has ch h
  simp [add, h1, h2, h3, three, incrCount]

theorem add_log {c : Cntr} {ch : Byte} (h : ch = Cmd.warning.toByte ∨ ch = Cmd.message.toByte) :
    add c ch = incrCount c ch 1 := by
  have h1 : ch ≠ Cmd.fileChanged.toByte := by rcases h with rfl | rfl <;> decide
  simp [add, h1, h]

/-- The four columns. -/
def AllBalanced (c : Cntr) : Prop :=
  Balanced c Ent.count ∧ Balanced c Ent.changed ∧ Balanced c Ent.same ∧ Balanced c Ent.deleted

theorem balanced_step {c : Cntr} (h : AllBalanced c) {o : Op} (ho : Allowed o) :
    AllBalanced (step c o) := by
  obtain ⟨h1, h2, h3, h4⟩ := h
  have z : ∀ x : UInt64, x = x + 0 := fun x => (UInt64.add_zero x).symm
  have three_ok : ∀ ch ∈ kinds, ∀ f v1 v2 v3 v4, (∀ e : Ent, (f e).count = e.count + v1) →
      (∀ e : Ent, (f e).changed = e.changed + v2) → (∀ e : Ent, (f e).same = e.same + v3) →
      (∀ e : Ent, (f e).deleted = e.deleted + v4) → AllBalanced (three c ch f) :=
    fun ch hc f v1 v2 v3 v4 e1 e2 e3 e4 => ⟨balanced_three h1 hc f v1 e1, balanced_three h2 hc f v2 e2,
      balanced_three h3 hc f v3 e3, balanced_three h4 hc f v4 e4⟩
  have upd_ok : ∀ (c : Cntr), AllBalanced c → ∀ ch, ch ∉ kinds → ch ≠ tot → ch ≠ gtot → ∀ f,
      AllBalanced (upd c ch f) :=
    fun c h ch hc ht hg f => ⟨balanced_upd h.1 hc ht hg f, balanced_upd h.2.1 hc ht hg f,
      balanced_upd h.2.2.1 hc ht hg f, balanced_upd h.2.2.2 hc ht hg f⟩
  cases o with
  | add ch =>
    rcases ho with ho | ho
    · rw [step, add_kind ho]
      exact three_ok ch ho _ 1 0 0 0 (fun _ => rfl) (fun _ => z _) (fun _ => z _) (fun _ => z _)
    · rw [step, add_log ho]
      refine upd_ok c ⟨h1, h2, h3, h4⟩ ch ?_ ?_ ?_ _ <;> rcases ho with rfl | rfl <;> decide
  | same ch v => exact three_ok ch ho _ 0 0 v 0 (fun _ => z _) (fun _ => z _) (fun _ => rfl) (fun _ => z _)
  | changed ch v => exact three_ok ch ho _ 0 v 0 0 (fun _ => z _) (fun _ => rfl) (fun _ => z _) (fun _ => z _)
  | deleted ch => exact three_ok ch ho _ 0 0 0 1 (fun _ => z _) (fun _ => z _) (fun _ => z _) (fun _ => rfl)
  | phase1 ch =>
    obtain ⟨-, n2, n3, -⟩ := kinds_has ch ho
    have key : ∀ F : Ent → UInt64, (∀ e v, F { e with phase1 := v } = F e) → Balanced c F →
        Balanced (addPhase1 c ch) F := by
      intro F hF hb
      have e : ∀ x, F (addPhase1 c ch x) = F (c x) := by
        intro x
        simp only [addPhase1, incrPhase1, upd]
        split <;> split <;> simp [hF]
      unfold Balanced column at *
      simp only [e]
      exact hb
    exact ⟨key _ (fun _ _ => rfl) h1, key _ (fun _ _ => rfl) h2, key _ (fun _ _ => rfl) h3,
      key _ (fun _ _ => rfl) h4⟩
  | val ch v =>
    refine upd_ok c ⟨h1, h2, h3, h4⟩ ch ?_ ?_ ?_ _ <;> rcases ho with rfl | rfl <;> decide
  | setBytes s r =>
    exact upd_ok _ (upd_ok c ⟨h1, h2, h3, h4⟩ _ (by decide) (by decide) (by decide) _) _ (by decide)
      (by decide) (by decide) _

theorem run_snoc (ops : List Op) (o : Op) : run (ops ++ [o]) = step (run ops) o := by
  simp [run, List.foldl_append]

/-- Induction on the last call. -/
theorem snoc_ind {P : List Op → Prop} (h0 : P []) (hs : ∀ l o, P l → P (l ++ [o])) : ∀ l, P l := by
  intro l
  induction hn : l.length generalizing l with
  | zero =>
    have : l = [] := List.length_eq_zero_iff.mp hn
    exact this ▸ h0
  | succ n ih =>
    rcases List.eq_nil_or_concat l with e | ⟨l', o, e⟩
    · exact e ▸ h0
    · rw [List.concat_eq_append] at e
      subst e
      refine hs l' o (ih l' ?_)
      simp only [List.length_append, List.length_cons, List.length_nil] at hn
      omega

theorem all_balanced (ops : List Op) (h : ∀ o ∈ ops, Allowed o) : AllBalanced (run ops) := by
  revert h
  refine snoc_ind (P := fun ops => (∀ o ∈ ops, Allowed o) → AllBalanced (run ops)) ?_ ?_ ops
  · intro _
    refine ⟨⟨?_, ?_⟩, ⟨?_, ?_⟩, ⟨?_, ?_⟩, ⟨?_, ?_⟩⟩ <;> decide
  · intro l o ih h
    rw [run_snoc]
    exact balanced_step (ih fun x hx => h x (List.mem_append_left _ hx)) (h o (by simp))

theorem sum_snoc (l : List UInt64) (v : UInt64) : sum (l ++ [v]) = sum l + v := by
  induction l with
  | nil => simp [sum]
  | cons x xs ih =>
    simp only [sum, List.cons_append, List.foldr_cons] at ih ⊢
    rw [ih, UInt64.add_assoc]

/-- What a call does to a kind. -/
theorem step_kind (c : Cntr) {k : Byte} (hk : k ∈ kinds) {o : Op} (ho : Allowed o) :
    step c o k = ⟨(c k).count + newOf k o, (c k).changed + changedOf k o, (c k).same + sameOf k o,
      (c k).deleted + deletedOf k o, (c k).phase1 + scannedOf k o⟩ := by
  obtain ⟨k1, k2, k3, k4, k5, k6, k7, k8, k9, k10⟩ := kinds_has k hk
  have th : ∀ ch ∈ kinds, ∀ f, three c ch f k = if k = ch then f (c k) else c k := by
    intro ch hc f
    rw [three_apply hc]
    simp [k2, k3]
  cases o with
  | add ch =>
    rcases ho with ho | ho
    · rw [step, add_kind ho, th ch ho]
      by_cases e : k = ch
      · subst e; simp [newOf, changedOf, sameOf, deletedOf, scannedOf]
      · simp [newOf, changedOf, sameOf, deletedOf, scannedOf, e, Ne.symm e]
    · rw [step, add_log ho]
      have e : k ≠ ch := by rcases ho with rfl | rfl <;> assumption
      simp [newOf, changedOf, sameOf, deletedOf, scannedOf, incrCount, upd, e, Ne.symm e]
  | same ch v =>
    have := th ch ho (fun e => { e with same := e.same + v })
    rw [step, show addSame c ch v = three c ch (fun e => { e with same := e.same + v }) from rfl, this]
    by_cases e : k = ch
    · subst e; simp [newOf, changedOf, sameOf, deletedOf, scannedOf]
    · simp [newOf, changedOf, sameOf, deletedOf, scannedOf, e, Ne.symm e]
  | changed ch v =>
    have := th ch ho (fun e => { e with changed := e.changed + v })
    rw [step, show addChanged c ch v = three c ch (fun e => { e with changed := e.changed + v }) from rfl, this]
    by_cases e : k = ch
    · subst e; simp [newOf, changedOf, sameOf, deletedOf, scannedOf]
    · simp [newOf, changedOf, sameOf, deletedOf, scannedOf, e, Ne.symm e]
  | deleted ch =>
    have := th ch ho (fun e => { e with deleted := e.deleted + 1 })
    rw [step, show addDeleted c ch = three c ch (fun e => { e with deleted := e.deleted + 1 }) from rfl, this]
    by_cases e : k = ch
    · subst e; simp [newOf, changedOf, sameOf, deletedOf, scannedOf]
    · simp [newOf, changedOf, sameOf, deletedOf, scannedOf, e, Ne.symm e]
  | phase1 ch =>
    obtain ⟨hh, -⟩ := kinds_has ch ho
    by_cases e : k = ch
    · subst e
      simp [step, addPhase1, incrPhase1, upd, newOf, changedOf, sameOf, deletedOf, scannedOf, k1,
        show k ≠ Cmd.grandTotal.toByte from k3]
    · simp [step, addPhase1, incrPhase1, upd, newOf, changedOf, sameOf, deletedOf, scannedOf, e, Ne.symm e,
        show k ≠ Cmd.grandTotal.toByte from k3]
  | val ch v =>
    have e : k ≠ ch := by rcases ho with rfl | rfl <;> assumption
    simp [step, incrCount, upd, newOf, changedOf, sameOf, deletedOf, scannedOf, e]
  | setBytes s r =>
    simp [step, setCount, upd, newOf, changedOf, sameOf, deletedOf, scannedOf, k9, k10]

end Cntr

/-- **C47.** The row of each kind says how many entries of that kind were new, changed, unchanged,
deleted and scanned. -/
theorem C47_counts (ops : List Op) (h : ∀ o ∈ ops, Allowed o) (k : Byte) (hk : k ∈ kinds) :
    run ops k = ⟨sum (ops.map (newOf k)), sum (ops.map (changedOf k)), sum (ops.map (sameOf k)),
      sum (ops.map (deletedOf k)), sum (ops.map (scannedOf k))⟩ := by
  revert h
  refine snoc_ind (P := fun ops => (∀ o ∈ ops, Allowed o) → run ops k = ⟨sum (ops.map (newOf k)),
    sum (ops.map (changedOf k)), sum (ops.map (sameOf k)), sum (ops.map (deletedOf k)),
    sum (ops.map (scannedOf k))⟩) ?_ ?_ ops
  · intro _; rfl
  · intro l o ih h
    rw [run_snoc, step_kind _ hk (h o (by simp)), ih fun x hx => h x (List.mem_append_left _ hx)]
    simp only [List.map_append, List.map_cons, List.map_nil, sum_snoc]

/-- **C47.** For all histories of calls of the server, the totals are the sums of the rows. -/
theorem C47_totals (ops : List Op) (h : ∀ o ∈ ops, Allowed o) (t : Byte)
    (ht : t = Cmd.grandTotal.toByte ∨ t = Cmd.total.toByte) :
    (run ops t).count = column (run ops) Ent.count
    ∧ (run ops t).changed = column (run ops) Ent.changed
    ∧ (run ops t).same = column (run ops) Ent.same
    ∧ (run ops t).deleted = column (run ops) Ent.deleted := by
  obtain ⟨h1, h2, h3, h4⟩ := all_balanced ops h
  rcases ht with rfl | rfl
  · exact ⟨h1.1, h2.1, h3.1, h4.1⟩
  · exact ⟨h1.2, h2.2, h3.2, h4.2⟩

/-- **C47.** The grand total of what was scanned is the sum of the rows. -/
theorem C47_scanned (ops : List Op) (h : ∀ o ∈ ops, Allowed o) :
    (run ops Cmd.grandTotal.toByte).phase1 = column (run ops) Ent.phase1 := by
  revert h
  refine snoc_ind (P := fun ops => (∀ o ∈ ops, Allowed o) →
    (run ops Cmd.grandTotal.toByte).phase1 = column (run ops) Ent.phase1) ?_ ?_ ops
  · intro _; decide
  · intro l o ih h
    have ih := ih fun x hx => h x (List.mem_append_left _ hx)
    have ho := h o (by simp)
    rw [run_snoc]
    have keep : (∀ x, (step (run l) o x).phase1 = (run l x).phase1) →
        (step (run l) o Cmd.grandTotal.toByte).phase1 = column (step (run l) o) Ent.phase1 := by
      intro e
      unfold column
      simp only [e]
      exact ih
    cases o with
    | phase1 ch =>
      obtain ⟨hh, -, n3, -⟩ := kinds_has ch ho
      have hg : has Cmd.grandTotal.toByte = true := by decide
      have hs : column (addPhase1 (run l) ch) Ent.phase1 = column (run l) Ent.phase1 + 1 := by
        refine Eq.trans ?_ (sum_upd (fun k => (run l k).phase1)
          (fun k => (if k = ch then (run l k).phase1 + 1 else (run l k).phase1)) ch 1 (by simp)
          (fun x hx => by simp [hx]) kinds kinds_nodup ho)
        · unfold column
          congr 1
          refine List.map_congr_left fun x hx => ?_
          obtain ⟨-, -, b, -⟩ := kinds_has x hx
          simp only [addPhase1, incrPhase1, upd, hh, hg, and_true,
            show x ≠ Cmd.grandTotal.toByte from b, if_false]
          split <;> rfl
      rw [step, hs, ← ih]
      simp [addPhase1, incrPhase1, upd, hg, show Cmd.grandTotal.toByte ≠ ch from fun e => n3 e.symm]
    | add ch =>
      refine keep fun x => ?_
      simp only [step, add, incrCount, incrChanged]
      repeat' split
      all_goals simp only [upd_field, implies_true]
    | same ch v =>
      refine keep fun x => ?_
      simp only [step, addSame, incrSame, upd_field, implies_true]
    | changed ch v =>
      refine keep fun x => ?_
      simp only [step, addChanged, incrChanged, upd_field, implies_true]
    | deleted ch =>
      refine keep fun x => ?_
      simp only [step, addDeleted, incrDeleted, upd_field, implies_true]
    | val ch v =>
      refine keep fun x => ?_
      simp only [step, incrCount, upd_field, implies_true]
    | setBytes a b =>
      refine keep fun x => ?_
      simp only [step, setCount, upd_field, implies_true]

/-- Two new files, one directory changed, an unchanged link, a deletion, a warning and some bytes. -/
example : ∃ ops : List Op, (∀ o ∈ ops, Allowed o) ∧ (run ops Cmd.grandTotal.toByte).count = 2
    ∧ (run ops Cmd.grandTotal.toByte).changed = 1 ∧ (run ops Cmd.grandTotal.toByte).deleted = 1
    ∧ (run ops Cmd.warning.toByte).count = 1 ∧ (run ops Cmd.bytes.toByte).count = 512 :=
  ⟨[.add Cmd.file.toByte, .add Cmd.file.toByte, .changed Cmd.directory.toByte 1, .same Cmd.softLink.toByte 1,
    .deleted Cmd.file.toByte, .add Cmd.warning.toByte, .val Cmd.bytes.toByte 512], by decide⟩

/-- **C47 fails on the client.** A changed file is counted twice in the grand total of the client:
once as changed and once as new, though no file is new. -/
theorem C47_file_changed_violated :
    (run [.add Cmd.fileChanged.toByte] Cmd.grandTotal.toByte).count = 1
    ∧ column (run [.add Cmd.fileChanged.toByte]) Ent.count = 0
    ∧ printed (run [.add Cmd.fileChanged.toByte])
      = [⟨.file, 0, 1, 0, 0, 1, 0⟩, ⟨.grandTotal, 1, 1, 0, 0, 2, 0⟩] := by decide

/-- C47, bytes: the bytes sent and received are those of the last time they were set, whatever else was
counted, and the other byte counters are the sums of what was added to them. -/
theorem C47_bytes (before after : List Op) (sent rcvd : UInt64) (h : ∀ o ∈ before ++ after, Allowed o)
    (hl : ∀ s r, Op.setBytes s r ∉ after) (ch : Byte)
    (hch : ch = Cmd.bytes.toByte ∨ ch = Cmd.bytesEstimated.toByte) :
    (run (before ++ .setBytes sent rcvd :: after) Cmd.bytesSent.toByte).count = sent
    ∧ (run (before ++ .setBytes sent rcvd :: after) Cmd.bytesRecv.toByte).count = rcvd
    ∧ (run (before ++ .setBytes sent rcvd :: after) ch).count
      = sum ((before ++ after).map (fun o => match o with
        | .val c v => if c = ch then v else 0
        | _ => 0)) := by
  have other : ∀ (c : Cntr) (o : Op) (x : Byte), Allowed o → x ∉ kinds → x ≠ tot → x ≠ gtot →
      x ≠ Cmd.warning.toByte → x ≠ Cmd.message.toByte → (∀ v, o ≠ .val x v) → (∀ s r, o ≠ .setBytes s r) →
      (step c o x).count = (c x).count := by
    intro c o x ho h1 h2 h3 h4 h5 h6 h7
    have k3 : ∀ ch ∈ kinds, ∀ f, three c ch f x = c x := by
      intro ch hc f
      rw [three_apply hc]
      have : x ≠ ch := fun e => h1 (e ▸ hc)
      simp [this, h2, h3]
    have ku : ∀ ch, x ≠ ch → ∀ f, upd c ch f x = c x := fun ch hc f => by simp [upd, hc]
    cases o with
    | add ch =>
      rcases ho with ho | ho
      · show (add c ch x).count = _
        rw [add_kind ho, k3 ch ho]
      · show (add c ch x).count = _
        rw [add_log ho]
        have : x ≠ ch := by rcases ho with rfl | rfl <;> assumption
        rw [incrCount, ku ch this]
    | same ch v => exact congrArg Ent.count (k3 ch ho _)
    | changed ch v => exact congrArg Ent.count (k3 ch ho _)
    | deleted ch => exact congrArg Ent.count (k3 ch ho _)
    | phase1 ch =>
      have e : ∀ (c : Cntr) (ch : Byte) (f : Ent → Ent), (∀ e, (f e).count = e.count) →
          (upd c ch f x).count = (c x).count := fun c ch f hf => upd_field Ent.count c ch x f hf
      simp only [step, addPhase1, incrPhase1]
      refine (e _ _ _ ?_).trans (e _ _ _ ?_) <;> exact fun _ => rfl
    | val ch v =>
      have : x ≠ ch := fun e => h6 v (e ▸ rfl)
      show (incrCount c ch v x).count = _
      rw [incrCount, ku ch this]
    | setBytes s r => exact absurd rfl (h7 s r)
  have set1 : ∀ c : Cntr, (step c (.setBytes sent rcvd) Cmd.bytesSent.toByte).count = sent
      ∧ (step c (.setBytes sent rcvd) Cmd.bytesRecv.toByte).count = rcvd := by
    intro c
    have a : has Cmd.bytesSent.toByte = true := by decide
    have b : has Cmd.bytesRecv.toByte = true := by decide
    have n : ¬ Cmd.bytesSent.toByte = Cmd.bytesRecv.toByte := by decide
    simp [step, setCount, upd, a, b, n]
  have main : ∀ x, x = Cmd.bytesSent.toByte ∨ x = Cmd.bytesRecv.toByte → ∀ (l : List Op) (c : Cntr),
      (∀ o ∈ l, Allowed o) → (∀ s r, Op.setBytes s r ∉ l) → (l.foldl step c x).count = (c x).count := by
    intro x hx l
    induction l with
    | nil => intro c _ _; rfl
    | cons o l ih =>
      intro c h h'
      rw [List.foldl_cons, ih _ (fun o ho => h o (List.mem_cons_of_mem _ ho))
        (fun s r hm => h' s r (List.mem_cons_of_mem _ hm))]
      have ho := h o List.mem_cons_self
      refine other c o x ho ?_ ?_ ?_ ?_ ?_ ?_ (fun s r e => h' s r (e ▸ List.mem_cons_self))
      all_goals first
        | (rcases hx with rfl | rfl <;> decide)
        | skip
      rintro v rfl
      have nb : x ≠ Cmd.bytes.toByte ∧ x ≠ Cmd.bytesEstimated.toByte := by rcases hx with rfl | rfl <;> decide
      exact ho.elim nb.1 nb.2
  have run_app : ∀ a b : List Op, run (a ++ b) = b.foldl step (run a) := by
    intro a b; exact List.foldl_append ..
  refine ⟨?_, ?_, ?_⟩
  · rw [run_app, List.foldl_cons, main _ (.inl rfl) after _ (fun o ho => h o (List.mem_append_right _ ho)) hl]
    exact (set1 _).1
  · rw [run_app, List.foldl_cons, main _ (.inr rfl) after _ (fun o ho => h o (List.mem_append_right _ ho)) hl]
    exact (set1 _).2
  · have gen : ∀ l : List Op, (∀ o ∈ l, Allowed o) → (run l ch).count = sum (l.map (fun o => match o with
        | .val c v => if c = ch then v else 0
        | _ => 0)) := by
      intro l
      refine snoc_ind (P := fun l => (∀ o ∈ l, Allowed o) → (run l ch).count = sum (l.map (fun o => match o with
        | .val c v => if c = ch then v else 0
        | _ => 0))) ?_ ?_ l
      · intro _; rfl
      · intro l o ih h
        rw [run_snoc, List.map_append, List.map_cons, List.map_nil, sum_snoc,
          ← ih (fun o ho => h o (List.mem_append_left _ ho))]
        have ho := h o (by simp)
        have hb : has ch = true := by rcases hch with rfl | rfl <;> decide
        by_cases hv : ∃ v, o = .val ch v
        · obtain ⟨v, rfl⟩ := hv
          simp [step, incrCount, upd, hb]
        · by_cases hs : ∃ s r, o = .setBytes s r
          · obtain ⟨s, r, rfl⟩ := hs
            have n1 : ch ≠ Cmd.bytesSent.toByte := by rcases hch with rfl | rfl <;> decide
            have n2 : ch ≠ Cmd.bytesRecv.toByte := by rcases hch with rfl | rfl <;> decide
            simp [step, setCount, upd, n1, n2]
          · rw [other _ o ch ho _ _ _ _ _ (fun v e => hv ⟨v, e⟩) (fun s r e => hs ⟨s, r, e⟩)]
            all_goals first
              | (rcases hch with rfl | rfl <;> decide)
              | skip
            cases o with
            | val c v =>
              have : c ≠ ch := fun e => hv ⟨v, e ▸ rfl⟩
              simp [this]
            | _ => simp
    rw [gen _ (by
      intro o ho
      rcases List.mem_append.1 ho with ho | ho
      · exact h o (List.mem_append_left _ ho)
      · rcases List.mem_cons.1 ho with rfl | ho
        · trivial
        · exact h o (List.mem_append_right _ ho))]
    have s0 : ∀ a b : List UInt64, sum (a ++ 0 :: b) = sum (a ++ b) := by
      intro a b
      induction a with
      | nil => simp [sum]
      | cons x a ih => simp only [sum, List.cons_append, List.foldr_cons] at ih ⊢; rw [ih]
    rw [List.map_append, List.map_cons, List.map_append, s0]

/-- **C47 fails for the table.** A kind of which entries were only deleted has no row in the printed
table, so the column of deletions does not add up. -/
theorem C47_deleted_row_violated :
    printed (run [.add Cmd.file.toByte, .deleted Cmd.directory.toByte])
      = [⟨.file, 1, 0, 0, 0, 1, 0⟩, ⟨.grandTotal, 1, 0, 0, 1, 1, 0⟩] := by decide

namespace Cntr

theorem sum_filterMap {α : Type} (l : List α) (g : α → UInt64) {β : Type} (f : α → Option β) (w : β → UInt64)
    (h : ∀ a ∈ l, (f a).elim 0 w = g a) : sum ((l.filterMap f).map w) = sum (l.map g) := by
  induction l with
  | nil => rfl
  | cons a l ih =>
    have ih := ih fun x hx => h x (List.mem_cons_of_mem _ hx)
    have ha := h a (List.mem_cons_self ..)
    simp only [List.filterMap_cons]
    cases hf : f a with
    | none =>
      rw [hf] at ha
      simp only [Option.elim] at ha
      simp only [sum, List.map_cons, List.foldr_cons] at ih ⊢
      rw [ih, ← ha, UInt64.zero_add]
    | some b =>
      rw [hf] at ha
      simp only [Option.elim] at ha
      simp only [sum, List.map_cons, List.foldr_cons] at ih ⊢
      rw [ih, ha]

/-- The rows of the table that stand for kinds. -/
def kindRows : List (Cmd × Flag) := table.filter (fun r => kinds.contains r.1.toByte)

theorem kindRows_map : kindRows.map (fun r => r.1.toByte) = kinds := by decide

theorem column_eq (c : Cntr) (f : Ent → UInt64) : column c f = sum (kindRows.map (fun r => f (c r.1.toByte))) := by
  unfold column
  rw [← kindRows_map, List.map_map]
  rfl

end Cntr

/-- **C47.** In the printed table of a backup, the columns of new, changed, duplicate, all and scanned
entries add up to the row of the grand total. -/
theorem C47_printed (ops : List Op) (h : ∀ o ∈ ops, Allowed o) (g : Row) (hg : g ∈ printed (run ops))
    (hz : g.cmd = .grandTotal) :
    g.new = sum (((printed (run ops)).filter (fun r => kinds.contains r.cmd.toByte)).map Row.new)
    ∧ g.changed = sum (((printed (run ops)).filter (fun r => kinds.contains r.cmd.toByte)).map Row.changed)
    ∧ g.duplicate = sum (((printed (run ops)).filter (fun r => kinds.contains r.cmd.toByte)).map Row.duplicate)
    ∧ g.scanned = sum (((printed (run ops)).filter (fun r => kinds.contains r.cmd.toByte)).map Row.scanned)
    ∧ g.total = g.new + g.changed + g.duplicate := by
  obtain ⟨h1, h2, h3, -⟩ := C47_totals ops h _ (.inl rfl)
  have h5 := C47_scanned ops h
  generalize run ops = c at *
  have hrow : g = ⟨.grandTotal, (c Cmd.grandTotal.toByte).count, (c Cmd.grandTotal.toByte).changed,
      (c Cmd.grandTotal.toByte).same, (c Cmd.grandTotal.toByte).deleted,
      (c Cmd.grandTotal.toByte).count + (c Cmd.grandTotal.toByte).changed + (c Cmd.grandTotal.toByte).same,
      (c Cmd.grandTotal.toByte).phase1⟩ := by
    obtain ⟨r, -, hr⟩ := List.mem_filterMap.mp hg
    unfold printRow at hr
    simp only at hr
    split at hr
    · cases hr
    · split at hr
      · cases hr
      · have e := Option.some.inj hr
        have : r.1 = .grandTotal := by rw [← e] at hz; exact hz
        rw [← e, this]
  have hf : (printed c).filter (fun r => kinds.contains r.cmd.toByte) = kindRows.filterMap (printRow c) := by
    have cmdEq : ∀ r x, printRow c r = some x → x.cmd = r.1 := by
      intro r x hr
      unfold printRow at hr
      simp only at hr
      split at hr
      · cases hr
      · split at hr
        · cases hr
        · rw [← Option.some.inj hr]
    unfold printed kindRows
    generalize table = t
    induction t with
    | nil => rfl
    | cons r t ih =>
      simp only [List.filterMap_cons, List.filter_cons]
      cases hr : printRow c r with
      | none =>
        simp only
        by_cases hk : kinds.contains r.1.toByte = true
        · rw [if_pos hk, List.filterMap_cons, hr]; exact ih
        · rw [if_neg hk]; exact ih
      | some x =>
        simp only [List.filter_cons, cmdEq r x hr]
        by_cases hk : kinds.contains r.1.toByte = true
        · rw [if_pos hk, if_pos hk, List.filterMap_cons, hr]
          simp only
          rw [ih]
        · rw [if_neg hk, if_neg hk]; exact ih
  have htab : ∀ r ∈ kindRows, r.2 = .tabulate := by decide
  have key : ∀ (w : Row → UInt64) (F : Ent → UInt64),
      (∀ e : Ent, e.phase1 = 0 ∧ e.count = 0 ∧ e.changed = 0 ∧ e.same = 0 → F e = 0) →
      (∀ k (e : Ent), w ⟨k, e.count, e.changed, e.same, e.deleted, e.count + e.changed + e.same, e.phase1⟩ = F e) →
      column c F = sum (((printed c).filter (fun r => kinds.contains r.cmd.toByte)).map w) := by
    intro w F h0 hw
    rw [hf, column_eq]
    refine (sum_filterMap kindRows _ (printRow c) w ?_).symm
    intro r hr
    unfold printRow
    simp only [htab r hr, ne_eq, not_true_eq_false, if_false]
    split
    · rename_i hz
      exact (h0 _ hz).symm
    · exact hw _ _
  rw [hrow]
  refine ⟨?_, ?_, ?_, ?_, rfl⟩
  · rw [h1]; exact key _ _ (fun e h => h.2.1) (fun _ _ => rfl)
  · rw [h2]; exact key _ _ (fun e h => h.2.2.1) (fun _ _ => rfl)
  · rw [h3]; exact key _ _ (fun e h => h.2.2.2) (fun _ _ => rfl)
  · rw [h5]; exact key _ _ (fun e h => h.1) (fun _ _ => rfl)

/-- **C47.** In the statistics file of a backup, all the columns add up to the row of the grand total,
the deletions too. -/
theorem C47_stats (ops : List Op) (h : ∀ o ∈ ops, Allowed o) (g : Ent)
    (hg : (Cmd.grandTotal, g) ∈ jsonRows (run ops)) (f : Ent → UInt64)
    (hf : f = Ent.count ∨ f = Ent.changed ∨ f = Ent.same ∨ f = Ent.deleted ∨ f = Ent.phase1) :
    f g = sum (((jsonRows (run ops)).filter (fun r => kinds.contains r.1.toByte)).map (fun r => f r.2)) := by
  obtain ⟨h1, h2, h3, h4⟩ := C47_totals ops h _ (.inl rfl)
  have h5 := C47_scanned ops h
  generalize run ops = c at *
  have hrow : g = c Cmd.grandTotal.toByte := by
    obtain ⟨r, hr, e⟩ := List.mem_filterMap.mp hg
    have tb : ∀ r ∈ table, r.1 = .grandTotal → r.2 = .tabulate := by decide
    have cmdEq : r.1 = .grandTotal := by
      unfold jsonRow at e
      simp only at e
      split at e <;> (try split at e) <;> simp_all
    unfold jsonRow at e
    rw [tb r hr cmdEq, cmdEq] at e
    simp only at e
    split at e
    · cases e
    · exact (Prod.mk.inj (Option.some.inj e)).2.symm
  have hfl : (jsonRows c).filter (fun r => kinds.contains r.1.toByte) = kindRows.filterMap (jsonRow c) := by
    have cmdEq : ∀ r x, jsonRow c r = some x → x.1 = r.1 := by
      intro r x e
      unfold jsonRow at e
      simp only at e
      split at e <;> (try split at e) <;> simp_all
      all_goals rw [← e]
    unfold jsonRows kindRows
    generalize table = t
    induction t with
    | nil => rfl
    | cons r t ih =>
      simp only [List.filterMap_cons, List.filter_cons]
      cases hr : jsonRow c r with
      | none =>
        simp only
        by_cases hk : kinds.contains r.1.toByte = true
        · rw [if_pos hk, List.filterMap_cons, hr]; exact ih
        · rw [if_neg hk]; exact ih
      | some x =>
        simp only [List.filter_cons, cmdEq r x hr]
        by_cases hk : kinds.contains r.1.toByte = true
        · rw [if_pos hk, if_pos hk, List.filterMap_cons, hr]
          simp only
          rw [ih]
        · rw [if_neg hk, if_neg hk]; exact ih
  have htab : ∀ r ∈ kindRows, r.2 = .tabulate := by decide
  have key : ∀ (F : Ent → UInt64),
      (∀ e : Ent, e.count = 0 ∧ e.changed = 0 ∧ e.same = 0 ∧ e.deleted = 0 ∧ e.phase1 = 0 → F e = 0) →
      column c F = sum (((jsonRows c).filter (fun r => kinds.contains r.1.toByte)).map (fun r => F r.2)) := by
    intro F h0
    rw [hfl, column_eq]
    refine (sum_filterMap kindRows _ (jsonRow c) (fun r => F r.2) ?_).symm
    intro r hr
    unfold jsonRow
    simp only [htab r hr]
    split
    · rename_i hz
      exact (h0 _ hz).symm
    · rfl
  rw [hrow]
  rcases hf with rfl | rfl | rfl | rfl | rfl
  · rw [h1]; exact key _ (fun e h => h.1)
  · rw [h2]; exact key _ (fun e h => h.2.1)
  · rw [h3]; exact key _ (fun e h => h.2.2.1)
  · rw [h4]; exact key _ (fun e h => h.2.2.2.1)
  · rw [h5]; exact key _ (fun e h => h.2.2.2.2)

/-- The row that the printed table leaves out is in the statistics file. -/
example : jsonRows (run [.add Cmd.file.toByte, .deleted Cmd.directory.toByte])
    = [(.file, ⟨1, 0, 0, 0, 0⟩), (.directory, ⟨0, 0, 0, 1, 0⟩), (.grandTotal, ⟨1, 0, 0, 1, 0⟩)] := by decide

/-- **C47.** With `fail_on_warning`, a backup goes on only if no warning was counted. -/
theorem C47_warnings (ops : List Op) (h : ∀ o ∈ ops, Allowed o)
    (hl : ops.length < 2 ^ 64) :
    failOnWarning true (run ops) = decide (Op.add Cmd.warning.toByte ∈ ops) := by
  have key : ∀ l : List Op, (∀ o ∈ l, Allowed o) →
      (run l Cmd.warning.toByte).count = UInt64.ofNat (l.filter (fun o => o = .add Cmd.warning.toByte)).length := by
    intro l
    refine snoc_ind (P := fun l => (∀ o ∈ l, Allowed o) → (run l Cmd.warning.toByte).count
      = UInt64.ofNat (l.filter (fun o => o = .add Cmd.warning.toByte)).length) ?_ ?_ l
    · intro _; rfl
    · intro l o ih h
      have ih := ih fun x hx => h x (List.mem_append_left _ hx)
      have ho := h o (by simp)
      rw [run_snoc, List.filter_append]
      have keep : o ≠ .add Cmd.warning.toByte →
          (step (run l) o Cmd.warning.toByte).count = (run l Cmd.warning.toByte).count →
          (step (run l) o Cmd.warning.toByte).count = UInt64.ofNat
            (l.filter (fun o => o = .add Cmd.warning.toByte) ++ [o].filter (fun o => o = .add Cmd.warning.toByte)).length := by
        intro hn e
        rw [e, ih]
        simp [hn]
      have wk : Cmd.warning.toByte ∉ kinds := by decide
      have wt : Cmd.warning.toByte ≠ tot ∧ Cmd.warning.toByte ≠ gtot := by decide
      have th : ∀ ch ∈ kinds, ∀ f, three (run l) ch f Cmd.warning.toByte = run l Cmd.warning.toByte := by
        intro ch hc f
        rw [three_apply hc, if_neg]
        rintro (e | e | e)
        · exact wk (e ▸ hc)
        · exact wt.1 e
        · exact wt.2 e
      have up : ∀ (c : Cntr) ch f, Cmd.warning.toByte ≠ ch → upd c ch f Cmd.warning.toByte = c Cmd.warning.toByte :=
        fun c ch f e => by simp [upd, e]
      cases o with
      | add ch =>
        rcases ho with ho | rfl | rfl
        · refine keep ?_ ?_
          · intro e; exact wk ((Op.add.inj e) ▸ ho)
          · rw [step, add_kind ho, th ch ho]
        · rw [step, add_log (.inl rfl)]
          have hw : has Cmd.warning.toByte = true := by decide
          simp only [incrCount, upd, hw, and_self, if_true, ih, List.length_append, List.filter_cons, decide_true,
            List.filter_nil, List.length_cons, List.length_nil, UInt64.ofNat_add]
          rfl
        · refine keep (by decide) ?_
          rw [step, add_log (.inr rfl), incrCount, up _ _ _ (by decide)]
      | same ch v => exact keep nofun (congrArg Ent.count (th ch ho (fun e => { e with same := e.same + v })))
      | changed ch v => exact keep nofun (congrArg Ent.count (th ch ho (fun e => { e with changed := e.changed + v })))
      | deleted ch => exact keep nofun (congrArg Ent.count (th ch ho (fun e => { e with deleted := e.deleted + 1 })))
      | phase1 ch =>
        refine keep nofun ?_
        simp only [step, addPhase1, incrPhase1]
        rw [up _ _ _ (by decide), up _ _ _ (fun e => wk (e ▸ ho))]
      | val ch v =>
        refine keep nofun ?_
        simp only [step, incrCount]
        rw [up _ _ _ (by rcases ho with rfl | rfl <;> decide)]
      | setBytes a b =>
        refine keep nofun ?_
        simp only [step, setCount]
        rw [up _ _ _ (by decide), up _ _ _ (by decide)]
  have hle : (ops.filter (fun o => o = .add Cmd.warning.toByte)).length < 2 ^ 64 :=
    Nat.lt_of_le_of_lt (List.length_filter_le ..) hl
  simp only [failOnWarning, Bool.true_and, key ops h, decide_eq_decide]
  constructor
  · intro hne
    by_cases hm : Op.add Cmd.warning.toByte ∈ ops
    · exact hm
    · exfalso
      apply hne
      rw [List.filter_eq_nil_iff.mpr]
      · rfl
      · intro o ho e
        exact hm ((of_decide_eq_true e) ▸ ho)
  · intro hm e
    have e := congrArg UInt64.toNat e
    rw [UInt64.toNat_ofNat', Nat.mod_eq_of_lt hle] at e
    have : Op.add Cmd.warning.toByte ∈ ops.filter (fun o => o = .add Cmd.warning.toByte) :=
      List.mem_filter.mpr ⟨hm, by simp⟩
    rw [List.length_eq_zero_iff.mp e] at this
    cases this

example : failOnWarning true (run [.add Cmd.file.toByte, .add Cmd.warning.toByte]) = true
    ∧ failOnWarning true (run [.add Cmd.file.toByte, .add Cmd.message.toByte]) = false
    ∧ failOnWarning false (run [.add Cmd.warning.toByte]) = false := by decide

end Verif
