import Verif.Lemmas.Fzp

/-!
# C92: files are compressed, inflated and cut without loss
-/

namespace Verif.Fzp
open Verif

variable {w : World}

theorem append_ne {a b : Str} (h : b ≠ []) : a ++ b ≠ a := fun c => h (by
  have := congrArg List.length c
  rw [List.length_append] at this
  exact List.eq_nil_of_length_eq_zero (by omega))

theorem rename_cases (s : S) (a b : Str) :
    ((rename w s a b).1 = false ∧ (rename w s a b).2 = step s s.dir) ∨
    ((rename w s a b).1 = true ∧
      (rename w s a b).2 = step s (fun m => if m = b then s.dir a else if m = a then none else s.dir m)) := by
  unfold rename
  split
  · exact .inl ⟨rfl, rfl⟩
  · exact .inr ⟨rfl, rfl⟩

/-- All about `compress_file` but what it needs to work. -/
theorem compress_all (hc : 0 < w.chunk) (hp : w.pid ≠ []) {src dst : Str} (hsd : src ≠ dst) (hst : src ≠ dst ++ w.pid)
    {s : S} {f : File} (hf : s.dir src = some f) :
    Always (fun d => Safe src dst f (s.dir dst) d ∧ ∀ m, m ≠ src → m ≠ dst → m ≠ dst ++ w.pid → d m = s.dir m) s
      (compressFile w s src dst).2 ∧
    ((compressFile w s src dst).1 = true → (compressFile w s src dst).2.dir dst = some (whole f.data) ∧
      ((compressFile w s src dst).2.dir src = none ∨ (compressFile w s src dst).2.dir src = some f)) ∧
    ((compressFile w s src dst).1 = false → (compressFile w s src dst).2.dir dst = s.dir dst ∧
      (compressFile w s src dst).2.dir src = some f) := by
  have htd : dst ++ w.pid ≠ dst := append_ne hp
  unfold compressFile
  have h1 := bcompress_only (w := w) src (dst ++ w.pid) s
  have h1k := fun s' => bcompress_ok (w := w) (s' := s') (dst := dst ++ w.pid) hc hf
  generalize bcompress w s src (dst ++ w.pid) = o at *
  obtain ⟨r, s1⟩ := o
  -- while only the temporary file has changed
  have only : ∀ s' : S, Only (dst ++ w.pid) s s' →
      Always (fun d => Safe src dst f (s.dir dst) d ∧ ∀ m, m ≠ src → m ≠ dst → m ≠ dst ++ w.pid → d m = s.dir m) s s' := by
    intro s' h
    refine h.mono fun d hd => ⟨.inl ⟨?_, .inl (hd dst htd.symm)⟩, fun m _ _ hm => hd m hm⟩
    rw [hd src hst]; exact hf
  have gone : ∀ s' : S, Only (dst ++ w.pid) s s' → s'.dir dst = s.dir dst ∧ s'.dir src = some f :=
    fun s' h => ⟨h.1 dst htd.symm, (h.1 src hst).trans hf⟩
  cases r with
  | false =>
    dsimp only at h1 ⊢
    have h2 := h1.trans (unlink_only (w := w) (dst ++ w.pid) s1)
    exact ⟨only _ h2, fun c => (by cases c), fun _ => gone _ h2⟩
  | true =>
    dsimp only at h1 ⊢
    have hw := h1k s1 rfl
    rcases rename_cases (w := w) s1 (dst ++ w.pid) dst with ⟨r1, r2⟩ | ⟨r1, r2⟩ <;>
      generalize rename w s1 (dst ++ w.pid) dst = o at * <;> obtain ⟨r, s2⟩ := o <;> dsimp only at r1 r2 <;> subst r1
    · dsimp only
      have h2 : Only (dst ++ w.pid) s (unlink w s2 (dst ++ w.pid)) :=
        (h1.trans (r2 ▸ Only.step s1 _ (fun _ _ => rfl))).trans (unlink_only _ _)
      exact ⟨only _ h2, fun c => (by cases c), fun _ => gone _ h2⟩
    · dsimp only
      have e1 : s2.dir dst = some (whole f.data) := by
        rw [r2]
        show (if dst = dst then s1.dir (dst ++ w.pid) else _) = _
        rw [if_pos rfl]; exact hw
      have e2 : s2.dir src = some f := by
        rw [r2]
        show (if src = dst then s1.dir (dst ++ w.pid) else if src = dst ++ w.pid then none else s1.dir src) = _
        rw [if_neg hsd, if_neg hst]; exact (gone s1 h1).2
      have e3 : ∀ m, m ≠ src → m ≠ dst → m ≠ dst ++ w.pid → s2.dir m = s.dir m := by
        intro m _ hm2 hm3
        rw [r2]
        show (if m = dst then s1.dir (dst ++ w.pid) else if m = dst ++ w.pid then none else s1.dir m) = _
        rw [if_neg hm2, if_neg hm3]; exact h1.1 m hm3
      have h3 : Always (fun d => Safe src dst f (s.dir dst) d ∧ ∀ m, m ≠ src → m ≠ dst → m ≠ dst ++ w.pid → d m = s.dir m)
          s1 s2 := by
        have hP : Safe src dst f (s.dir dst) s2.dir ∧ ∀ m, m ≠ src → m ≠ dst → m ≠ dst ++ w.pid → s2.dir m = s.dir m :=
          ⟨.inr e1, e3⟩
        rw [r2] at hP ⊢
        exact Always.step s1 _ hP
      have h4 := unlink_only (w := w) src s2
      have e4 : (unlink w s2 src).dir dst = some (whole f.data) := (h4.1 dst (Ne.symm hsd)).trans e1
      refine ⟨((only s1 h1).trans h3).trans (h4.mono fun d hd => ?_), fun _ => ⟨e4, ?_⟩, fun c => (by cases c)⟩
      · exact ⟨.inr ((hd dst (Ne.symm hsd)).trans e1), fun m a b c => (hd m a).trans (e3 m a b c)⟩
      · rcases unlink_dir (w := w) s2 src with c | c
        · exact .inl c
        · exact .inr (c.trans e2)

theorem whole_works (hc : 0 < w.chunk) (hw : ∀ n, w.fails n = false) {n : Str} (tail : Tail) : ∀ (k : Nat) (rest : Str) (s : S),
    (copy w n tail k rest s).1 = true
  | 0, _, _ => rfl
  | k + 1, rest, s => by
    unfold copy
    split
    · rename_i b _
      have : write w s n b = (true, step s (append s.dir n b)) := by
        unfold write; rw [if_neg (by rw [hw]; exact fun c => by cases c)]
      rw [this]
      exact whole_works hc hw tail k _ _
    · rfl

theorem inflateLoop_works (hc : 0 < w.chunk) (hw : ∀ n, w.fails n = false) {n : Str} (tail : Tail) (ht : tail ≠ .broken) :
    ∀ (k : Nat) (rest : Str) (s : S), rest.length < k → (inflateLoop w n tail k rest s).1 = .ok
  | 0, _, _, h => by omega
  | k + 1, rest, s, h => by
    unfold inflateLoop
    cases hr : read true w.chunk rest tail with
    | minus =>
      unfold read at hr
      split at hr
      · cases hr
      · split at hr
        · rename_i c; exact absurd c.2 ht
        · cases hr
    | zero =>
      dsimp only
      rw [if_pos (show eof tail = true from decide_eq_true ht)]
    | bytes b =>
      dsimp only
      obtain ⟨rfl, hne⟩ := read_bytes hr
      have : write w s n (rest.take w.chunk) = (true, step s (append s.dir n (rest.take w.chunk))) := by
        unfold write; rw [if_neg (by rw [hw]; exact fun c => by cases c)]
      rw [this]
      refine inflateLoop_works hc hw tail ht k _ _ ?_
      have : rest ≠ [] := fun c => hne (by rw [c]; exact List.take_nil)
      have := List.length_pos_iff.mpr this
      rw [List.length_drop]; omega

theorem openR_works (hw : ∀ n, w.fails n = false) (s : S) (n : Str) : openR w s n = (s.dir n, step s s.dir) := by
  unfold openR; rw [if_neg (by rw [hw]; exact fun c => by cases c)]

theorem openW_works (hw : ∀ n, w.fails n = false) (s : S) (n : Str) (gz : Bool) : (openW w s n gz).1 = true := by
  unfold openW; rw [if_neg (by rw [hw]; exact fun c => by cases c)]

theorem close_works (hw : ∀ n, w.fails n = false) (s : S) (n : Str) : (close w s n).1 = true := by
  unfold close; rw [if_neg (by rw [hw]; exact fun c => by cases c)]

theorem unlink_works (hw : ∀ n, w.fails n = false) (s : S) (n : Str) : unlink w s n = step s (put s.dir n none) := by
  unfold unlink; rw [if_neg (by rw [hw]; exact fun c => by cases c)]

theorem rename_works (hw : ∀ n, w.fails n = false) (s : S) (a b : Str) (h : s.dir a ≠ none) :
    rename w s a b = (true, step s (fun m => if m = b then s.dir a else if m = a then none else s.dir m)) := by
  unfold rename
  rw [if_neg (fun c => c.elim (fun c => by rw [hw] at c; cases c) h)]

theorem bcompress_works (hc : 0 < w.chunk) (hw : ∀ n, w.fails n = false) {src dst : Str} {s : S} {f : File}
    (hf : s.dir src = some f) : (bcompress w s src dst).1 = true := by
  unfold bcompress
  rw [openR_works hw, hf]
  dsimp only
  have h1 := openW_works hw (step s s.dir) dst true
  generalize openW w (step s s.dir) dst true = o at *
  obtain ⟨r, s1⟩ := o
  dsimp only at h1; subst h1
  dsimp only
  have h2 := whole_works (n := dst) hc hw f.tail (f.data.length + 1) f.data s1
  generalize copy w dst f.tail (f.data.length + 1) f.data s1 = o at *
  obtain ⟨r, s2⟩ := o
  dsimp only at h2; subst h2
  exact close_works hw s2 dst

theorem compress_works (hc : 0 < w.chunk) (hw : ∀ n, w.fails n = false) {src dst : Str} {s : S} {f : File}
    (hf : s.dir src = some f) : (compressFile w s src dst).1 = true ∧ (compressFile w s src dst).2.dir src = none ∧
      (dst ++ w.pid ≠ dst → (compressFile w s src dst).2.dir (dst ++ w.pid) = none) := by
  unfold compressFile
  have h1 := bcompress_works (dst := dst ++ w.pid) hc hw hf
  have h1k := fun s' => bcompress_ok (w := w) (s' := s') (dst := dst ++ w.pid) hc hf
  generalize bcompress w s src (dst ++ w.pid) = o at *
  obtain ⟨r, s1⟩ := o
  dsimp only at h1; subst h1
  dsimp only
  rw [rename_works hw s1 _ _ (by rw [h1k s1 rfl]; exact fun c => by cases c)]
  dsimp only
  rw [unlink_works hw]
  refine ⟨rfl, put_same _ _ _, fun hd => ?_⟩
  show (if dst ++ w.pid = src then none else (if dst ++ w.pid = dst then s1.dir (dst ++ w.pid)
    else if dst ++ w.pid = dst ++ w.pid then none else s1.dir (dst ++ w.pid))) = none
  by_cases h : dst ++ w.pid = src
  · rw [if_pos h]
  · rw [if_neg h, if_neg hd, if_pos rfl]

theorem inflate_works (hc : 0 < w.chunk) (hw : ∀ n, w.fails n = false) {src dst : Str} {s : S} {f : File}
    (hf : s.dir src = some f) (ht : f.tail ≠ .broken) : (inflate w s src dst).1 = .ok := by
  unfold inflate
  rw [openR_works hw, hf]
  dsimp only
  have h1 := openW_works hw (step s s.dir) dst false
  generalize openW w (step s s.dir) dst false = o at *
  obtain ⟨r, s1⟩ := o
  dsimp only at h1; subst h1
  dsimp only
  have h2 := inflateLoop_works (n := dst) hc hw f.tail ht (f.data.length + 1) f.data s1 (Nat.lt_succ_self _)
  generalize inflateLoop w dst f.tail (f.data.length + 1) f.data s1 = o at *
  obtain ⟨r, s2⟩ := o
  dsimp only at h2; subst h2
  dsimp only
  rw [if_pos (close_works hw s2 dst)]

theorem truncate_works (hw : ∀ n, w.fails n = false) (s : S) (n : Str) (len : Nat) (h : s.dir n ≠ none) :
    (truncate w s n len).1 = true := by
  unfold truncate
  rw [if_neg (by rw [hw]; exact fun c => by cases c)]
  cases hn : s.dir n with
  | none => exact absurd hn h
  | some f => rfl

theorem truncate_all (hc : 0 < w.chunk) (hp : w.pid ≠ []) {path : Str} {len : Nat} {s : S} {f : File}
    (hf : s.dir path = some f) (ht : f.tail ≠ .broken) :
    Always (fun d => d path = some f ∨ d path = some (whole (cutTo len f.data))) s (gztruncate w s path len).2 ∧
    (gztruncate w s path len).1 ≠ .undefined ∧
    ((gztruncate w s path len).1 = .ok → (gztruncate w s path len).2.dir path = some (whole (cutTo len f.data))) ∧
    ((gztruncate w s path len).1 = .failed → (gztruncate w s path len).2.dir path = some f) ∧
    ((∀ n, w.fails n = false) → (gztruncate w s path len).1 = .ok) := by
  unfold gztruncate
  dsimp only
  have hdot : bytes "." ≠ [] := by decide
  have h2 : bytes "-2" ≠ [] := by decide
  have n1 : path ++ bytes "." ++ w.pid ≠ path := by
    rw [List.append_assoc]
    exact append_ne (fun c => hdot (List.append_eq_nil_iff.mp c).1)
  have n2 : path ++ bytes "." ++ w.pid ++ bytes "-2" ≠ path := by
    rw [List.append_assoc, List.append_assoc]
    exact append_ne (fun c => hdot (List.append_eq_nil_iff.mp c).1)
  have n3 : path ++ bytes "." ++ w.pid ++ bytes "-2" ++ w.pid ≠ path := by
    rw [List.append_assoc, List.append_assoc, List.append_assoc]
    exact append_ne (fun c => hdot (List.append_eq_nil_iff.mp c).1)
  have n4 : path ++ bytes "." ++ w.pid ++ bytes "-2" ≠ path ++ bytes "." ++ w.pid := append_ne h2
  have n5 : path ++ bytes "." ++ w.pid ++ bytes "-2" ++ w.pid ≠ path ++ bytes "." ++ w.pid := by
    rw [List.append_assoc]
    exact append_ne (fun c => h2 (List.append_eq_nil_iff.mp c).1)
  generalize path ++ bytes "." ++ w.pid = dest at *
  generalize dest ++ bytes "-2" = dest2 at *
  -- the file is as it was
  have same : ∀ {a b : S} {n : Str}, a.dir path = some f → n ≠ path → Only n a b → Always (fun d => d path = some f) a b :=
    fun ha hn h => h.mono fun d hd => (hd path (Ne.symm hn)).trans ha
  have tidy : ∀ (s : S) (o : Option File), s.dir path = o →
      Always (fun d => d path = o) s (unlink w (unlink w s dest) dest2) := by
    intro s o ho
    have u1 : Always (fun d => d path = o) s (unlink w s dest) :=
      (unlink_only (w := w) dest s).mono fun d hd => (hd path (Ne.symm n1)).trans ho
    exact u1.trans ((unlink_only (w := w) dest2 _).mono fun d hd => (hd path (Ne.symm n2)).trans u1.1)
  have weak : ∀ {a b : S}, Always (fun d => d path = some f) a b →
      Always (fun d => d path = some f ∨ d path = some (whole (cutTo len f.data))) a b := fun h => h.mono fun _ h => .inl h
  have fail : ∀ (s1 : S), Always (fun d => d path = some f) s s1 →
      Always (fun d => d path = some f ∨ d path = some (whole (cutTo len f.data))) s (unlink w (unlink w s1 dest) dest2) ∧
      End.failed ≠ .undefined ∧ (End.failed = .ok → (unlink w (unlink w s1 dest) dest2).dir path = some (whole (cutTo len f.data))) ∧
      (End.failed = .failed → (unlink w (unlink w s1 dest) dest2).dir path = some f) := by
    intro s1 h
    have ht := tidy s1 (some f) h.1
    exact ⟨weak (h.trans ht), fun c => (by cases c), fun c => (by cases c), fun _ => ht.1⟩
  -- inflating
  have i1 := same hf n1 (inflate_only (w := w) path dest s)
  have i2 := inflate_defined (w := w) (dst := dest) hf ht
  have i3 := fun s' => inflate_ok (w := w) (s' := s') (dst := dest) hc hf
  have i4 : (∀ n, w.fails n = false) → (inflate w s path dest).1 = .ok := fun hw => inflate_works hc hw hf ht
  generalize inflate w s path dest = o at *
  obtain ⟨r, s1⟩ := o
  cases r with
  | undefined => exact absurd rfl i2
  | failed =>
    obtain ⟨a, b, c, d⟩ := fail s1 i1
    exact ⟨a, b, c, d, fun hw => (by have := i4 hw; cases this)⟩
  | ok =>
    dsimp only at i1 i3 ⊢
    have e1 := i3 s1 rfl
    clear i2 i3 i4
    -- cutting
    have t1 := i1.trans (same i1.1 n1 (truncate_only (w := w) dest s1 len))
    have t2 := fun s' => fun h => truncate_ok (w := w) (s' := s') (len := len) h e1
    have t3 : (∀ n, w.fails n = false) → (truncate w s1 dest len).1 = true := fun hw =>
      truncate_works hw s1 dest len (by rw [e1]; exact fun c => by cases c)
    generalize truncate w s1 dest len = o at *
    obtain ⟨r, s2⟩ := o
    cases r with
    | false =>
      obtain ⟨a, b, c, d⟩ := fail s2 t1
      exact ⟨a, b, c, d, fun hw => (by have := t3 hw; cases this)⟩
    | true =>
      dsimp only at t1 t2 ⊢
      have e2 := t2 s2 rfl
      clear t2 t3
      -- compressing
      obtain ⟨c1, c2, _⟩ := compress_all (w := w) hc hp (Ne.symm n4) (Ne.symm n5) e2
      have c3 : Always (fun d => d path = some f) s2 (compressFile w s2 dest dest2).2 :=
        c1.mono fun d hd => (hd.2 path (Ne.symm n1) (Ne.symm n2) (Ne.symm n3)).trans t1.1
      have c4 : (∀ n, w.fails n = false) → (compressFile w s2 dest dest2).1 = true := fun hw =>
        (compress_works hc hw e2).1
      generalize compressFile w s2 dest dest2 = o at *
      obtain ⟨r, s3⟩ := o
      cases r with
      | false =>
        obtain ⟨a, b, c, d⟩ := fail s3 (t1.trans c3)
        exact ⟨a, b, c, d, fun hw => (by have := c4 hw; cases this)⟩
      | true =>
        dsimp only at c2 c3 ⊢
        have e3 := (c2 rfl).1
        have u1 := (t1.trans c3).trans (same c3.1 n1 (unlink_only (w := w) dest s3))
        have e4 : (unlink w s3 dest).dir dest2 = some (whole (cutTo len f.data)) :=
          ((unlink_only (w := w) dest s3).1 dest2 n4).trans e3
        have r3 : (∀ n, w.fails n = false) → (rename w (unlink w s3 dest) dest2 path).1 = true := fun hw => by
          rw [rename_works hw _ _ _ (by rw [e4]; exact fun c => by cases c)]
        generalize unlink w s3 dest = s4 at *
        rcases rename_cases (w := w) s4 dest2 path with ⟨r1, r2⟩ | ⟨r1, r2⟩ <;>
          generalize rename w s4 dest2 path = o at * <;> obtain ⟨r, s5⟩ := o <;> dsimp only at r1 r2 <;> subst r1
        · have hs : Always (fun d => d path = some f) s4 s5 := by rw [r2]; exact Always.step s4 _ u1.1
          obtain ⟨a, b, c, d⟩ := fail s5 (u1.trans hs)
          exact ⟨a, b, c, d, fun hw => (by have := r3 hw; cases this)⟩
        · dsimp only
          have e5 : s5.dir path = some (whole (cutTo len f.data)) := by
            rw [r2]
            show (if path = path then s4.dir dest2 else _) = _
            rw [if_pos rfl]; exact e4
          have hs : Always (fun d => d path = some f ∨ d path = some (whole (cutTo len f.data))) s4 s5 := by
            rw [r2] at e5 ⊢
            exact Always.step s4 _ (.inr e5)
          have ht := tidy s5 _ e5
          exact ⟨((weak u1).trans hs).trans (ht.mono fun _ h => .inr h), fun c => (by cases c), fun _ => ht.1,
            fun c => (by cases c), fun _ => rfl⟩

theorem grow_spec (len : Nat) : ∀ (d size : Nat), 0 < size → len + 1 - size ≤ d →
    ∃ k r, (∀ j, k ≤ j → grow j size len = some r) ∧ len + 1 ≤ r ∧ (r = size ∨ r < 2 * (len + 1))
  | d, size, h0, hd => by
    by_cases h : size < len + 1
    · match d with
      | 0 => omega
      | d + 1 =>
        obtain ⟨k, r, h1, h2, h3⟩ := grow_spec len d (size * 2) (by omega) (by omega)
        refine ⟨k + 1, r, fun j hj => ?_, h2, .inr (by omega)⟩
        obtain ⟨j, rfl⟩ : ∃ i, j = i + 1 := ⟨j - 1, by omega⟩
        unfold grow
        rw [if_pos h]
        exact h1 j (by omega)
    · refine ⟨1, size, fun j hj => ?_, by omega, .inl rfl⟩
      obtain ⟨j, rfl⟩ : ∃ i, j = i + 1 := ⟨j - 1, by omega⟩
      unfold grow
      rw [if_neg h]

end Verif.Fzp

namespace Verif
open Fzp

/-- **C92.** Whichever calls fail and wherever a crash comes: when a file that can be read is compressed, all
that is in it can be had, from the file itself or from a complete compressed file; the compressed file is never
half there; and no other files change but a temporary one. -/
theorem C92_compress_safe (w : World) (hc : 0 < w.chunk) (hp : w.pid ≠ []) (src dst : Str) (hsd : src ≠ dst)
    (hst : src ≠ dst ++ w.pid) (s : S) (f : File) (hf : s.dir src = some f) :
    Always (fun d => Safe src dst f (s.dir dst) d ∧ ∀ m, m ≠ src → m ≠ dst → m ≠ dst ++ w.pid → d m = s.dir m) s
      (compressFile w s src dst).2 :=
  (compress_all hc hp hsd hst hf).1

/-- **C92.** That it has been compressed is reported exactly when it has; else everything is as it was. When no
call fails it is, and neither the file nor the temporary one is left. -/
theorem C92_compress_result (w : World) (hc : 0 < w.chunk) (hp : w.pid ≠ []) (src dst : Str) (hsd : src ≠ dst)
    (hst : src ≠ dst ++ w.pid) (s : S) (f : File) (hf : s.dir src = some f) :
    ((compressFile w s src dst).1 = true → (compressFile w s src dst).2.dir dst = some (whole f.data)) ∧
    ((compressFile w s src dst).1 = false → (compressFile w s src dst).2.dir dst = s.dir dst ∧
      (compressFile w s src dst).2.dir src = some f) ∧
    ((∀ n, w.fails n = false) → (compressFile w s src dst).1 = true ∧ (compressFile w s src dst).2.dir src = none ∧
      (compressFile w s src dst).2.dir (dst ++ w.pid) = none) := by
  obtain ⟨_, h2, h3⟩ := compress_all hc hp hsd hst hf
  refine ⟨fun h => (h2 h).1, h3, fun hw => ?_⟩
  obtain ⟨a, b, c⟩ := compress_works (dst := dst) hc hw hf
  exact ⟨a, b, c (append_ne hp)⟩

/-- **C92.** A file that was inflated has what was compressed, and only it has changed; when the file can be read
to its end and no call fails it is inflated, and nothing undefined happens. -/
theorem C92_inflate (w : World) (hc : 0 < w.chunk) (src dst : Str) (s : S) (f : File) (hf : s.dir src = some f) :
    ((inflate w s src dst).1 = .ok → (inflate w s src dst).2.dir dst = some ⟨f.data, false, .eof⟩) ∧
    (∀ m, m ≠ dst → (inflate w s src dst).2.dir m = s.dir m) ∧
    (f.tail ≠ .broken → (inflate w s src dst).1 ≠ .undefined) ∧
    (f.tail ≠ .broken → (∀ n, w.fails n = false) → (inflate w s src dst).1 = .ok) := by
  refine ⟨fun h => ?_, (inflate_only src dst s).1, inflate_defined hf, fun ht hw => inflate_works hc hw hf ht⟩
  refine inflate_ok (s' := (inflate w s src dst).2) hc hf ?_
  rw [← h]

/-- **C92.** What is inflated and then compressed is the same again. -/
theorem C92_round_trip (w : World) (hc : 0 < w.chunk) (hp : w.pid ≠ []) (src tmp dst : Str) (h1 : tmp ≠ dst)
    (h2 : tmp ≠ dst ++ w.pid) (s : S) (bs : Str) (hf : s.dir src = some (whole bs)) (hi : (inflate w s src tmp).1 = .ok)
    (hk : (compressFile w (inflate w s src tmp).2 tmp dst).1 = true) :
    (compressFile w (inflate w s src tmp).2 tmp dst).2.dir dst = some (whole bs) :=
  (C92_compress_result w hc hp tmp dst h1 h2 _ ⟨bs, false, .eof⟩ ((C92_inflate w hc src tmp s _ hf).1 hi)).1 hk

/-- **C92.** Cutting a compressed file to a length: whichever calls fail and wherever a crash comes, it is what
it was or a complete file with the right contents; and that it was cut is reported exactly when it was. -/
theorem C92_truncate (w : World) (hc : 0 < w.chunk) (hp : w.pid ≠ []) (path : Str) (len : Nat) (s : S) (f : File)
    (hf : s.dir path = some f) (ht : f.tail ≠ .broken) :
    Always (fun d => d path = some f ∨ d path = some (whole (cutTo len f.data))) s (gztruncate w s path len).2 ∧
    (gztruncate w s path len).1 ≠ .undefined ∧
    ((gztruncate w s path len).1 = .ok → (gztruncate w s path len).2.dir path = some (whole (cutTo len f.data))) ∧
    ((gztruncate w s path len).1 = .failed → (gztruncate w s path len).2.dir path = some f) ∧
    ((∀ n, w.fails n = false) → (gztruncate w s path len).1 = .ok) :=
  truncate_all hc hp hf ht

/-- **C92.** Reading so many bytes gives all of them, or says that the file has ended, or fails when it ends in
between. -/
theorem C92_read_ensure (gz : Bool) (tail : Tail) (n : Nat) (rest : Str) (h : gz = true ∨ tail ≠ .broken ∨ n ≤ rest.length)
    (k : Nat) (hk : 3 ≤ k) : ensure gz tail k n rest [] =
      some (if n ≤ rest.length then .whole (rest.take n)
        else if rest = [] ∧ tail ≠ .broken then .ended else .failed) := by
  obtain ⟨k, rfl⟩ : ∃ j, k = j + 1 + 1 + 1 := ⟨k - 3, by omega⟩
  by_cases hn : n = 0
  · subst hn
    rw [if_pos (Nat.zero_le _)]
    rfl
  have hstart : ensure gz tail (k + 1 + 1 + 1) n rest [] =
      (match Fzp.read gz n rest tail with
      | .bytes b => ensure gz tail (k + 1 + 1) n (rest.drop n) b
      | .minus => some .failed
      | .zero => if eof tail then some .ended else ensure gz tail (k + 1 + 1) n rest []) := by
    rw [show k + 1 + 1 + 1 = (k + 1 + 1) + 1 from rfl, ensure]
    rw [if_neg (fun c : ([] : Str).length = n => hn c.symm)]
    rfl
  rw [hstart]
  by_cases hl : n ≤ rest.length
  · have hne : rest.take n ≠ [] := fun c => (List.take_eq_nil_iff.mp c).elim hn (fun c => by
      rw [c, List.length_nil] at hl; omega)
    rw [show Fzp.read gz n rest tail = .bytes (rest.take n) from if_pos hne, if_pos hl]
    show ensure gz tail (k + 1 + 1) n (rest.drop n) (rest.take n) = _
    rw [ensure, if_pos (show (rest.take n).length = n by rw [List.length_take]; omega)]
  · have hend : ∀ j, Fzp.read gz j [] tail = if gz = true ∧ tail = .broken then .minus else .zero := fun j => by
      unfold Fzp.read
      rw [List.take_nil, if_neg (fun c : ([] : Str) ≠ [] => c rfl)]
    have hend' : ∀ j, (tail = .broken → Fzp.read gz j [] tail = .minus) ∧ (tail ≠ .broken → Fzp.read gz j [] tail = .zero) := by
      refine fun j => ⟨fun hb => ?_, fun hb => ?_⟩
      · rw [hend, if_pos ⟨h.elim id (fun h => h.elim (fun h => absurd hb h) (fun h => absurd h hl)), hb⟩]
      · rw [hend, if_neg (fun c => hb c.2)]
    rw [if_neg hl]
    by_cases hr0 : rest = []
    · subst hr0
      by_cases hb : tail = .broken
      · rw [(hend' n).1 hb, if_neg (show ¬ (([] : Str) = [] ∧ tail ≠ .broken) from fun c => c.2 hb)]
      · rw [(hend' n).2 hb, if_pos (show ([] : Str) = [] ∧ tail ≠ .broken from ⟨rfl, hb⟩)]
        show (if eof tail = true then _ else _) = _
        rw [if_pos (show eof tail = true from decide_eq_true hb)]
    · have htk : rest.take n = rest := List.take_of_length_le (by omega)
      have hne : rest.take n ≠ [] := by rw [htk]; exact hr0
      rw [show Fzp.read gz n rest tail = .bytes (rest.take n) from if_pos hne,
        if_neg (show ¬ (rest = [] ∧ tail ≠ .broken) from fun c => hr0 c.1)]
      show ensure gz tail (k + 1 + 1) n (rest.drop n) (rest.take n) = _
      have hd : rest.drop n = [] := List.drop_eq_nil_of_le (by omega)
      rw [ensure, hd, htk, if_neg (show ¬ rest.length = n by omega)]
      by_cases hb : tail = .broken
      · rw [(hend' _).1 hb]
      · rw [(hend' _).2 hb]
        show (if eof tail = true then (if rest = [] then _ else _) else _) = _
        rw [if_pos (show eof tail = true from decide_eq_true hb), if_neg hr0]

/-- **C92.** The buffer of `fzp_printf` gets as large as a text needs, and not more than twice that. -/
theorem C92_printf_grows (size len : Nat) (h : 0 < size) : ∃ k r, (∀ j, k ≤ j → grow j size len = some r) ∧
    len + 1 ≤ r ∧ (r = size ∨ r < 2 * (len + 1)) :=
  grow_spec len _ size h (Nat.le_refl _)

end Verif
