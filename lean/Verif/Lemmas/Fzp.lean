import Verif.Spec.Fzp

/-!
# Lemmas: the calls, and what they leave alone
-/

namespace Verif.Fzp
open Verif

variable {w : World}

/-- Nothing but the file `n` changes on the way. -/
def Only (n : Str) (s s' : S) : Prop := Always (fun d => ∀ m, m ≠ n → d m = s.dir m) s s'

theorem Always.refl {P : Dir → Prop} {s : S} (h : P s.dir) : Always P s s := ⟨h, [], rfl, fun _ c => by cases c⟩

theorem Always.trans {P : Dir → Prop} {a b c : S} (h1 : Always P a b) (h2 : Always P b c) : Always P a c := by
  obtain ⟨_, x, hx, px⟩ := h1
  obtain ⟨pc, y, hy, py⟩ := h2
  refine ⟨pc, y ++ x, by rw [hy, hx, List.append_assoc], fun d hd => ?_⟩
  rcases List.mem_append.mp hd with h | h
  · exact py d h
  · exact px d h

theorem Always.mono {P Q : Dir → Prop} {a b : S} (h : Always P a b) (i : ∀ d, P d → Q d) : Always Q a b := by
  obtain ⟨h1, x, hx, px⟩ := h
  exact ⟨i _ h1, x, hx, fun d hd => i d (px d hd)⟩

theorem Always.step {P : Dir → Prop} (s : S) (d : Dir) (h : P d) : Always P s (step s d) :=
  ⟨h, [d], rfl, fun x hx => by
    rcases List.mem_cons.mp hx with rfl | c
    · exact h
    · cases c⟩

theorem Only.refl (n : Str) (s : S) : Only n s s := Always.refl (fun _ _ => rfl)

theorem Only.trans {n : Str} {a b c : S} (h1 : Only n a b) (h2 : Only n b c) : Only n a c :=
  Always.trans h1 (h2.mono fun _ hd m hm => (hd m hm).trans (h1.1 m hm))

theorem Only.step {n : Str} (s : S) (d : Dir) (h : ∀ m, m ≠ n → d m = s.dir m) : Only n s (step s d) := Always.step s d h

theorem put_other {d : Dir} {n : Str} {f : Option File} {m : Str} (h : m ≠ n) : put d n f m = d m := if_neg h

theorem put_same (d : Dir) (n : Str) (f : Option File) : put d n f n = f := if_pos rfl

theorem append_other (d : Dir) {n m : Str} (bs : Str) (h : m ≠ n) : append d n bs m = d m := by
  unfold append
  cases d n with
  | some f => exact put_other h
  | none => rfl

theorem openR_only (n m : Str) (s : S) : Only n s (openR w s m).2 := by
  unfold openR
  split <;> exact Only.step s _ (fun _ _ => rfl)

theorem openW_only (n : Str) (s : S) (gz : Bool) : Only n s (openW w s n gz).2 := by
  unfold openW
  split
  · exact Only.step s _ (fun _ _ => rfl)
  · exact Only.step s _ (fun _ h => put_other h)

theorem write_only (n : Str) (s : S) (bs : Str) : Only n s (write w s n bs).2 := by
  unfold write
  split <;> exact Only.step s _ (fun _ h => append_other _ _ h)

theorem close_only (n : Str) (s : S) : Only n s (close w s n).2 := by
  unfold close
  split <;> refine Only.step s _ (fun m h => ?_) <;> cases s.dir n <;> first | exact put_other h | rfl

theorem unlink_only (n : Str) (s : S) : Only n s (unlink w s n) := by
  unfold unlink
  split
  · exact Only.step s _ (fun _ _ => rfl)
  · exact Only.step s _ (fun _ h => put_other h)

theorem truncate_only (n : Str) (s : S) (len : Nat) : Only n s (truncate w s n len).2 := by
  unfold truncate
  split
  · exact Only.step s _ (fun _ _ => rfl)
  · split
    · exact Only.step s _ (fun _ h => put_other h)
    · exact Only.step s _ (fun _ _ => rfl)

theorem openR_some {s s' : S} {n : Str} {f : File} (h : openR w s n = (some f, s')) : s.dir n = some f ∧ s'.dir = s.dir := by
  unfold openR at h
  split at h
  · cases h
  · obtain ⟨h1, h2⟩ := Prod.mk.inj h
    exact ⟨h1, by rw [← h2]; rfl⟩

theorem openW_ok {s s' : S} {n : Str} {gz : Bool} (h : openW w s n gz = (true, s')) :
    s'.dir n = some ⟨[], gz, if gz then .cut else .eof⟩ := by
  unfold openW at h
  split at h
  · cases h
  · obtain ⟨_, h2⟩ := Prod.mk.inj h
    rw [← h2]
    exact put_same _ _ _

theorem write_ok {s s' : S} {n bs : Str} {f : File} (h : write w s n bs = (true, s')) (hf : s.dir n = some f) :
    s'.dir n = some { f with data := f.data ++ bs } := by
  unfold write at h
  split at h
  · cases h
  · obtain ⟨_, h2⟩ := Prod.mk.inj h
    rw [← h2]
    show append s.dir n bs n = _
    unfold append
    rw [hf]
    exact put_same _ _ _

theorem close_ok {s s' : S} {n : Str} {f : File} (h : close w s n = (true, s')) (hf : s.dir n = some f) :
    s'.dir n = some { f with tail := .eof } := by
  unfold close at h
  split at h
  · cases h
  · obtain ⟨_, h2⟩ := Prod.mk.inj h
    rw [← h2, hf]
    exact put_same _ _ _

theorem truncate_ok {s s' : S} {n : Str} {len : Nat} {f : File} (h : truncate w s n len = (true, s')) (hf : s.dir n = some f) :
    s'.dir n = some { f with data := cutTo len f.data } := by
  unfold truncate at h
  split at h
  · cases h
  · rw [hf] at h
    obtain ⟨_, h2⟩ := Prod.mk.inj h
    rw [← h2]
    exact put_same _ _ _

theorem unlink_dir (s : S) (n : Str) : (unlink w s n).dir n = none ∨ (unlink w s n).dir n = s.dir n := by
  unfold unlink
  split
  · exact .inr rfl
  · exact .inl (put_same _ _ _)

theorem copy_only (n : Str) (tail : Tail) : ∀ (k : Nat) (rest : Str) (s : S), Only n s (copy w n tail k rest s).2
  | 0, _, s => Only.refl n s
  | k + 1, rest, s => by
    unfold copy
    split
    · rename_i b _
      have hw := write_only (w := w) n s b
      generalize write w s n b = o at *
      obtain ⟨r, s1⟩ := o
      cases r with
      | false => exact hw
      | true => exact hw.trans (copy_only n tail k _ s1)
    · exact Only.refl n s

theorem read_bytes {gz : Bool} {n : Nat} {rest b : Str} {tail : Tail} (h : read gz n rest tail = .bytes b) :
    b = rest.take n ∧ b ≠ [] := by
  unfold read at h
  split at h
  · rename_i hne
    cases h; exact ⟨rfl, hne⟩
  · split at h <;> cases h

theorem read_none {gz : Bool} {n : Nat} {rest : Str} {tail : Tail} (hn : 0 < n) (h : ∀ b, read gz n rest tail ≠ .bytes b) :
    rest = [] := by
  unfold read at h
  split at h
  · exact absurd rfl (h _)
  · rename_i hc
    have := Decidable.of_not_not hc
    rcases List.take_eq_nil_iff.mp this with c | c
    · omega
    · exact c

theorem copy_ok (hc : 0 < w.chunk) (n : Str) (tail : Tail) : ∀ (k : Nat) (rest : Str) (s s' : S) (f : File),
    rest.length < k → s.dir n = some f → copy w n tail k rest s = (true, s') →
    s'.dir n = some { f with data := f.data ++ rest }
  | 0, _, _, _, _, hk, _, _ => by omega
  | k + 1, rest, s, s', f, hk, hf, h => by
    unfold copy at h
    split at h
    · rename_i b hb
      obtain ⟨rfl, hne⟩ := read_bytes hb
      cases hw : write w s n (rest.take w.chunk) with
      | mk r s1 =>
        rw [hw] at h
        cases r with
        | false => cases h
        | true =>
          have h1 := write_ok hw hf
          have hlen : (rest.drop w.chunk).length < k := by
            have : rest ≠ [] := fun c => hne (by rw [c]; exact List.take_nil)
            have := List.length_pos_iff.mpr this
            rw [List.length_drop]; omega
          have := copy_ok hc n tail k _ s1 s' _ hlen h1 h
          rw [this]
          simp only [List.append_assoc, List.take_append_drop]
    · rename_i hnb
      have hr := read_none hc (fun b hb => hnb b hb)
      obtain ⟨_, h2⟩ := Prod.mk.inj h
      rw [← h2, hr, hf]
      simp only [List.append_nil]

theorem bcompress_only (src dst : Str) (s : S) : Only dst s (bcompress w s src dst).2 := by
  unfold bcompress
  have h1 := openR_only (w := w) dst src s
  generalize openR w s src = o at *
  obtain ⟨f, s1⟩ := o
  cases f with
  | none => exact h1
  | some f =>
    dsimp only at h1 ⊢
    have h2 := openW_only (w := w) dst s1 true
    generalize openW w s1 dst true = o at *
    obtain ⟨r, s2⟩ := o
    cases r with
    | false => exact h1.trans h2
    | true =>
      dsimp only at h2 ⊢
      have h3 := copy_only (w := w) dst f.tail (f.data.length + 1) f.data s2
      generalize copy w dst f.tail (f.data.length + 1) f.data s2 = o at *
      obtain ⟨r, s3⟩ := o
      cases r <;> exact ((h1.trans h2).trans h3).trans (close_only dst s3)

theorem bcompress_ok (hc : 0 < w.chunk) {src dst : Str} {s s' : S} {f : File} (hf : s.dir src = some f)
    (h : bcompress w s src dst = (true, s')) : s'.dir dst = some (whole f.data) := by
  unfold bcompress at h
  cases h1 : openR w s src with
  | mk g s1 =>
    rw [h1] at h
    cases g with
    | none => cases h
    | some g =>
      obtain ⟨hg, _⟩ := openR_some h1
      rw [hf] at hg; cases hg
      dsimp only at h
      cases h2 : openW w s1 dst true with
      | mk r s2 =>
        rw [h2] at h
        cases r with
        | false => cases h
        | true =>
          dsimp only at h
          cases h3 : copy w dst f.tail (f.data.length + 1) f.data s2 with
          | mk r s3 =>
            rw [h3] at h
            cases r with
            | false => cases h
            | true =>
              have e1 := openW_ok h2
              have e2 := copy_ok hc dst f.tail _ _ s2 s3 _ (Nat.lt_succ_self _) e1 h3
              exact close_ok h e2

theorem inflateLoop_only (n : Str) (tail : Tail) : ∀ (k : Nat) (rest : Str) (s : S), Only n s (inflateLoop w n tail k rest s).2
  | 0, _, s => Only.refl n s
  | k + 1, rest, s => by
    unfold inflateLoop
    split
    · exact Only.refl n s
    · split <;> exact Only.refl n s
    · rename_i b _
      have hw := write_only (w := w) n s b
      generalize write w s n b = o at *
      obtain ⟨r, s1⟩ := o
      cases r with
      | false => exact hw
      | true => exact hw.trans (inflateLoop_only n tail k _ s1)

theorem inflateLoop_ok (hc : 0 < w.chunk) (n : Str) (tail : Tail) : ∀ (k : Nat) (rest : Str) (s s' : S) (f : File),
    s.dir n = some f → inflateLoop w n tail k rest s = (.ok, s') → s'.dir n = some { f with data := f.data ++ rest }
  | 0, _, _, _, _, _, h => by cases h
  | k + 1, rest, s, s', f, hf, h => by
    unfold inflateLoop at h
    split at h
    · cases h
    · rename_i hz
      have hr := read_none hc (fun b hb => by rw [hz] at hb; cases hb)
      split at h
      · obtain ⟨_, h2⟩ := Prod.mk.inj h
        rw [← h2, hr, hf]
        simp only [List.append_nil]
      · cases h
    · rename_i b hb
      obtain ⟨rfl, hne⟩ := read_bytes hb
      cases hw : write w s n (rest.take w.chunk) with
      | mk r s1 =>
        rw [hw] at h
        cases r with
        | false => cases h
        | true =>
          have := inflateLoop_ok hc n tail k _ s1 s' _ (write_ok hw hf) h
          rw [this]
          simp only [List.append_assoc, List.take_append_drop]

/-- Nothing undefined happens without a failing read. -/
theorem inflateLoop_defined (n : Str) (tail : Tail) (ht : tail ≠ .broken) : ∀ (k : Nat) (rest : Str) (s : S),
    (inflateLoop w n tail k rest s).1 ≠ .undefined
  | 0, _, _ => fun c => by cases c
  | k + 1, rest, s => by
    unfold inflateLoop
    split
    · rename_i hm
      unfold read at hm
      split at hm
      · cases hm
      · split at hm
        · rename_i c; exact absurd c.2 ht
        · cases hm
    · split <;> exact fun c => by cases c
    · rename_i b _
      generalize write w s n b = o
      obtain ⟨r, s1⟩ := o
      cases r with
      | false => exact fun c => by cases c
      | true => exact inflateLoop_defined n tail ht k _ s1

theorem inflate_only (src dst : Str) (s : S) : Only dst s (inflate w s src dst).2 := by
  unfold inflate
  have h1 := openR_only (w := w) dst src s
  generalize openR w s src = o at *
  obtain ⟨f, s1⟩ := o
  cases f with
  | none => exact h1
  | some f =>
    dsimp only at h1 ⊢
    have h2 := openW_only (w := w) dst s1 false
    generalize openW w s1 dst false = o at *
    obtain ⟨r, s2⟩ := o
    cases r with
    | false => exact h1.trans h2
    | true =>
      dsimp only at h2 ⊢
      have h3 := inflateLoop_only (w := w) dst f.tail (f.data.length + 1) f.data s2
      generalize inflateLoop w dst f.tail (f.data.length + 1) f.data s2 = o at *
      obtain ⟨r, s3⟩ := o
      have h4 := ((h1.trans h2).trans h3)
      cases r with
      | ok => dsimp only; split <;> exact h4.trans (close_only dst s3)
      | failed => exact h4.trans (close_only dst s3)
      | undefined => exact h4

theorem inflate_ok (hc : 0 < w.chunk) {src dst : Str} {s s' : S} {f : File} (hf : s.dir src = some f)
    (h : inflate w s src dst = (.ok, s')) : s'.dir dst = some ⟨f.data, false, .eof⟩ := by
  unfold inflate at h
  cases h1 : openR w s src with
  | mk g s1 =>
    rw [h1] at h
    cases g with
    | none => cases h
    | some g =>
      obtain ⟨hg, _⟩ := openR_some h1
      rw [hf] at hg; cases hg
      dsimp only at h
      cases h2 : openW w s1 dst false with
      | mk r s2 =>
        rw [h2] at h
        cases r with
        | false => cases h
        | true =>
          dsimp only at h
          cases h3 : inflateLoop w dst f.tail (f.data.length + 1) f.data s2 with
          | mk r s3 =>
            rw [h3] at h
            cases r with
            | failed => cases h
            | undefined => cases h
            | ok =>
              dsimp only at h
              have e2 := inflateLoop_ok hc dst f.tail _ _ s2 s3 _ (openW_ok h2) h3
              cases h4 : close w s3 dst with
              | mk r s4 =>
                rw [h4] at h
                cases r with
                | false => cases h
                | true =>
                  obtain ⟨_, h5⟩ := Prod.mk.inj h
                  rw [← h5]
                  exact close_ok h4 e2

theorem inflate_defined {src dst : Str} {s : S} {f : File} (hf : s.dir src = some f) (ht : f.tail ≠ .broken) :
    (inflate w s src dst).1 ≠ .undefined := by
  unfold inflate
  cases h1 : openR w s src with
  | mk g s1 =>
    cases g with
    | none => exact fun c => by cases c
    | some g =>
      obtain ⟨hg, _⟩ := openR_some h1
      rw [hf] at hg; cases hg
      dsimp only
      generalize openW w s1 dst false = o
      obtain ⟨r, s2⟩ := o
      cases r with
      | false => exact fun c => by cases c
      | true =>
        dsimp only
        have := inflateLoop_defined (w := w) dst f.tail ht (f.data.length + 1) f.data s2
        generalize inflateLoop w dst f.tail (f.data.length + 1) f.data s2 = o at *
        obtain ⟨r, s3⟩ := o
        cases r with
        | ok => dsimp only; split <;> exact fun c => by cases c
        | failed => exact fun c => by cases c
        | undefined => exact absurd rfl this

end Verif.Fzp
