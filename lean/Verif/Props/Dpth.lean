import Verif.Lemmas.Dpth
import Verif.Model.History

/-!
# C19, C20: storage paths

`Dpth.Ok`, `Dpth.rank`, `after`, `Name`, `Stored` and `Recorded` are in `Verif/Spec/Dpth.lean`.
-/

namespace Verif
open Verif.Iobuf Verif.Dpth

/-! ### C19 -/

/-- C19, within one backup: as long as the allocator has not reported that it has run out, all paths
that it handed out are different, compressed or not, whatever the limit is and wherever it started.
What is missing: see `C19_exhausted_violated` and `C19_deleted_reused_violated`. -/
theorem C19_session_distinct_partial (maxSub : Int) (d : Dpth) (hd : d.Ok) (gzs : List Bool)
    (h : ∀ k, k + 1 < gzs.length → (dpthIncr maxSub (after maxSub d k)).2 = true) :
    (allocateAll maxSub d gzs).Nodup := by
  rw [List.nodup_iff_pairwise_ne, List.pairwise_iff_getElem]
  intro i j hi hj hij heq
  have hl := allocateAll_length maxSub d gzs
  rw [allocateAll_getElem maxSub d gzs i hi (by omega),
    allocateAll_getElem maxSub d gzs j hj (by omega)] at heq
  have h1 := (dpthMk_inj (after_Ok hd i) (after_Ok hd j) heq).1
  have h2 := rank_after hd hij (fun k _ hk => h k (by omega))
  rw [h1] at h2
  omega

/-- C19: how many paths there are. With the limit `m`, the allocator at `a/b/c` hands out different
paths until all of the `(m+1)²·65536` are used. -/
theorem C19_until_space_used_partial (m : Nat) (hm : m < 65536) (d : Dpth) (hd : d.Ok)
    (ha : d.a ≤ m) (hb : d.b ≤ m) (gzs : List Bool)
    (h : (d.a * (m + 1) + d.b) * 65536 + d.c + gzs.length ≤ (m + 1) * (m + 1) * 65536) :
    (allocateAll m d gzs).Nodup := by
  apply C19_session_distinct_partial _ _ hd
  intro k hk
  apply after_ok hm hd ha hb
  unfold mixed
  omega

/-- C19, the files there are: a backup that starts from the data directory `ls` of the previous one
never hands out the path of a file in it, with or without `.gz`. -/
theorem C19_avoids_current (maxSub : Int) (ls : Str → List Str) (hls : ∀ p, ∀ s ∈ ls p, Name s)
    (d : Dpth) (hd : init maxSub ls = some d) (gzs : List Bool)
    (h : ∀ k, k + 1 < gzs.length → (dpthIncr maxSub (after maxSub d k)).2 = true)
    (e : Dpth) (he : Stored ls e) (gz : Bool) : dpthMk e gz ∉ allocateAll maxSub d gzs := by
  intro hmem
  obtain ⟨hok, habove⟩ := init_above hls hd
  obtain ⟨i, hi, hi2⟩ := List.mem_iff_getElem.1 hmem
  have hl := allocateAll_length maxSub d gzs
  rw [allocateAll_getElem maxSub d gzs i hi (by omega)] at hi2
  have h1 := (dpthMk_inj (after_Ok hok i) he.1 hi2).1
  have h2 := habove e he
  cases i with
  | zero => simp only [after] at h1; rw [h1] at h2; omega
  | succ i =>
    have h3 := rank_after hok (i := 0) (j := i + 1) (by omega) (fun k _ hk => h k (by omega))
    rw [h1] at h3
    simp only [after] at h3
    omega

/-- When all paths are used, the failure of `dpth_incr` is not noticed, and the first paths are
handed out a second time within the same backup. -/
theorem C19_exhausted_violated (m : Nat) (hm : m < 65536) (gz : Bool) :
    ¬ (allocateAll m ⟨0, 0, 0⟩ (List.replicate ((m + 1) * (m + 1) * 65536 + 1) gz)).Nodup := by
  have h0 : (⟨0, 0, 0⟩ : Dpth).Ok := by decide
  let cap := (m + 1) * (m + 1) * 65536
  have hcap : 0 < cap := Nat.mul_pos (Nat.mul_pos (by omega) (by omega)) (by decide)
  have hm0 : mixed m ⟨0, 0, 0⟩ = 0 := by simp [mixed]
  have hlast : after m ⟨0, 0, 0⟩ cap = ⟨0, 0, 0⟩ := by
    obtain ⟨k1, k2, k3⟩ := after_mixed hm h0 (by simp) (by simp) (cap - 1) (by
      rw [hm0]; show 0 + (cap - 1) < cap; omega)
    rw [hm0] at k3
    obtain ⟨_, _, h⟩ := dpthIncr_mixed hm (after_Ok h0 (cap - 1)) k1 k2
    have e : cap = cap - 1 + 1 := by omega
    rw [e, after_succ]
    obtain ⟨a1, a2, a3⟩ := dpthIncr_mixed hm (after_Ok h0 (cap - 1)) k1 k2
    rcases a3 with ⟨_, h⟩ | ⟨_, _, h⟩
    · exfalso
      have b : ∀ d : Dpth, d.a ≤ m → d.b ≤ m → d.Ok → mixed m d < cap := by
        intro d x y z
        have z3 := z.2.2
        have : d.a * (m + 1) ≤ m * (m + 1) := Nat.mul_le_mul_right _ x
        have e4 : (m + 1) * (m + 1) = m * (m + 1) + (m + 1) := by rw [Nat.succ_mul]
        show mixed m d < (m + 1) * (m + 1) * 65536
        rw [e4]
        unfold mixed
        omega
      have := b _ a1 a2 (dpthIncr_Ok (after_Ok h0 (cap - 1)))
      omega
    · exact h
  intro hn
  rw [List.nodup_iff_pairwise_ne, List.pairwise_iff_getElem] at hn
  have hl := allocateAll_length m ⟨0, 0, 0⟩ (List.replicate (cap + 1) gz)
  rw [List.length_replicate] at hl
  have l1 : cap < (allocateAll m ⟨0, 0, 0⟩ (List.replicate (cap + 1) gz)).length := by
    rw [hl]; exact Nat.lt_succ_self _
  refine hn 0 cap (Nat.lt_trans hcap l1) l1 hcap ?_
  rw [allocateAll_getElem _ _ _ 0 (Nat.lt_trans hcap l1) (by simp),
    allocateAll_getElem _ _ _ cap l1 (by simp [cap]), hlast]
  simp [after]

/-- The data directory with the given files in `0000/0000`. -/
def flatDir (names : List String) (p : Str) : List Str :=
  if p = [] ∨ p = bytes "0000" then [bytes "0000"]
  else if p = bytes "0000/0000" then names.map bytes else []

/-- A storage path is used again when the file that had it is gone from the client: the next backup
but one starts from a directory without it, while the backup that has it is still there. -/
theorem C19_deleted_reused_violated :
    ∃ d, init 30000 (flatDir ["0001"]) = some d ∧
      allocateAll 30000 d [false] = [bytes "0000/0000/0002"] ∧
      Stored (flatDir ["0001", "0002"]) ⟨0, 0, 2⟩ := by
  have h0 : hex04 0 = bytes "0000" := by rw [hex04_small (by decide)]; decide
  have h2 : hex04 2 = bytes "0002" := by rw [hex04_small (by decide)]; decide
  refine ⟨⟨0, 0, 2⟩, ?_, ?_, by decide, ?_, ?_, false, ?_⟩
  · have e : highest (flatDir ["0001"] []) = 0 := by decide
    have e1 : highest (flatDir ["0001"] (bytes "0000")) = 0 := by decide
    have e2 : highest (flatDir ["0001"] (bytes "0000" ++ [slash] ++ bytes "0000")) = 1 := by decide
    unfold init
    simp only [e, h0, e1, e2]
    decide
  · unfold allocateAll allocate allocateAll dpthMk
    simp only [h0, h2]
    decide
  · show hex04 0 ∈ _
    rw [h0]; decide
  · show hex04 0 ∈ flatDir _ (hex04 0)
    rw [h0]; decide
  · show hex04 2 ++ _ ∈ flatDir _ (hex04 0 ++ [slash] ++ hex04 0)
    rw [h0, h2]; decide

/-- The hypotheses of the theorems are met: two carries happen between these paths. -/
example : (⟨1, 30000, 65535⟩ : Dpth).Ok ∧
    (dpthIncr 30000 ⟨1, 30000, 65535⟩) = (⟨2, 0, 0⟩, true) ∧
    allocateAll 30000 ⟨1, 30000, 65535⟩ [true, false] =
      [bytes "0001/7530/FFFF.gz", bytes "0002/0000/0000"] := by
  refine ⟨by decide, by decide, ?_⟩
  have e : dpthIncr 30000 ⟨1, 30000, 65535⟩ = (⟨2, 0, 0⟩, true) := by decide
  simp only [allocateAll, allocate, e, dpthMk]
  rw [hex04_small (n := 1) (by decide), hex04_small (n := 30000) (by decide),
    hex04_small (n := 65535) (by decide), hex04_small (n := 2) (by decide),
    hex04_small (n := 0) (by decide)]
  decide

example : ∀ p, ∀ s ∈ flatDir ["0001", "0002.gz"] p, Name s := by
  have h0 : hex04 0 = bytes "0000" := by rw [hex04_small (by decide)]; decide
  have h1 : hex04 1 = bytes "0001" := by rw [hex04_small (by decide)]; decide
  have h2 : hex04 2 = bytes "0002" := by rw [hex04_small (by decide)]; decide
  intro p s hs
  unfold flatDir at hs
  split at hs
  · rw [List.mem_singleton.1 hs]; exact Or.inl ⟨0, by decide, Or.inl h0.symm⟩
  · split at hs
    · simp only [List.map_cons, List.map_nil, List.mem_cons, List.not_mem_nil, or_false] at hs
      rcases hs with rfl | rfl
      · exact Or.inl ⟨1, by decide, Or.inl h1.symm⟩
      · exact Or.inl ⟨2, by decide, Or.inr (by rw [h2]; decide)⟩
    · simp at hs

/-! ### C20 -/

/-- C20: after an interruption the allocator is above where this backup began, and above every path
that was recorded. So (`C19_session_distinct_partial`) nothing recorded is overwritten. It fails only if the
last path of all is recorded, or this backup began with it. -/
theorem C20_resume_above (maxSub : Int) (d : Dpth) (hd : d.Ok) (entries : List (Option Str))
    (hr : ∀ s, some s ∈ entries → Recorded s) :
    match resume maxSub d entries with
    | some d' => d'.Ok ∧ d.rank < d'.rank ∧
        ∀ (e : Dpth) gz, e.Ok → some (dpthMk e gz) ∈ entries → e.rank < d'.rank
    | none => ∃ e : Dpth, e.Ok ∧ d.rank ≤ e.rank ∧ (e = d ∨ ∃ gz, some (dpthMk e gz) ∈ entries) ∧
        (maxSub % 65536).toNat ≤ e.a ∧ (maxSub % 65536).toNat ≤ e.b ∧ e.c = 65535 := by
  obtain ⟨d1, h1, h2, h3, h4⟩ := setAll_spec hd entries hr
  have h5 := setAll_or hr h1
  unfold resume
  rw [h1]
  simp only
  cases hok : (dpthIncr maxSub d1).2 with
  | true =>
    simp only [if_true]
    obtain ⟨k1, k2⟩ := dpthIncr_ok h2 hok
    refine ⟨k2, by omega, ?_⟩
    intro e gz he hm
    have := h4 e gz he hm
    omega
  | false =>
    simp only [Bool.false_eq_true, if_false]
    obtain ⟨_, k1, k2, k3⟩ := dpthIncr_fail hok
    have := h2.2.2
    exact ⟨d1, h2, h3, h5, k1, k2, by omega⟩

/-- C20: a resumed backup never hands out a path that was recorded before the interruption. -/
theorem C20_resume_no_overwrite (maxSub : Int) (d d' : Dpth) (hd : d.Ok) (entries : List (Option Str))
    (hr : ∀ s, some s ∈ entries → Recorded s) (h : resume maxSub d entries = some d')
    (gzs : List Bool)
    (hk : ∀ k, k + 1 < gzs.length → (dpthIncr maxSub (after maxSub d' k)).2 = true)
    (s : Str) (hs : s ∈ allocateAll maxSub d' gzs) : some s ∉ entries := by
  have := C20_resume_above maxSub d hd entries hr
  rw [h] at this
  obtain ⟨hok, _, habove⟩ := this
  intro hmem
  obtain ⟨i, hi, hi2⟩ := List.mem_iff_getElem.1 hs
  have hl := allocateAll_length maxSub d' gzs
  rw [allocateAll_getElem maxSub d' gzs i hi (by omega)] at hi2
  have h2 := habove (after maxSub d' i) _ (after_Ok hok i) (by rw [hi2]; exact hmem)
  cases i with
  | zero => simp only [after] at h2; omega
  | succ i =>
    have h3 := rank_after hok (i := 0) (j := i + 1) (by omega) (fun k _ hk' => hk k (by omega))
    simp only [after] at h2 h3
    omega

private theorem lt_app {s t u v : Str} (h : s.length = t.length) :
    s ++ u < t ++ v ↔ s < t ∨ (s = t ∧ u < v) := by
  induction s generalizing t with
  | nil =>
    cases t with
    | nil => simp
    | cons y t => simp at h
  | cons x s ih =>
    cases t with
    | nil => simp at h
    | cons y t =>
      simp only [List.cons_append, List.cons_lt_cons_iff, List.cons.injEq, ih (by simpa using h)]
      grind

private theorem hexDigit_lt (m n : Nat) : (hexDigit m < hexDigit n ↔ m % 16 < n % 16) ∧
    (hexDigit m = hexDigit n ↔ m % 16 = n % 16) := by
  have h : ∀ a b : Fin 16, (hexDigit a.val < hexDigit b.val ↔ a.val < b.val) ∧
      (hexDigit a.val = hexDigit b.val ↔ a.val = b.val) := by decide
  rw [hexDigit_mod m, hexDigit_mod n]
  exact h ⟨m % 16, Nat.mod_lt _ (by decide)⟩ ⟨n % 16, Nat.mod_lt _ (by decide)⟩

private theorem hex04_lt {m n : Nat} (hm : m < 65536) (hn : n < 65536) :
    hex04 m < hex04 n ↔ m < n := by
  rw [hex04_small hm, hex04_small hn]
  have a := hexDigit_lt (m / 4096) (n / 4096)
  have b := hexDigit_lt (m / 256) (n / 256)
  have c := hexDigit_lt (m / 16) (n / 16)
  have d := hexDigit_lt m n
  simp only [List.cons_lt_cons_iff, a.1, a.2, b.1, b.2, c.1, c.2, d.1, d.2]
  have : ¬ ([] : Str) < [] := List.not_lt_nil _
  simp only [this, and_false, or_false]
  have dec : ∀ x, x < 65536 → x = (x / 4096 % 16) * 4096 + (x / 256 % 16) * 256 + (x / 16 % 16) * 16 +
      x % 16 ∧ x / 4096 % 16 < 16 ∧ x / 256 % 16 < 16 ∧ x / 16 % 16 < 16 ∧ x % 16 < 16 := by
    intro x hx; omega
  have dm := dec m hm
  have dn := dec n hn
  generalize m / 4096 % 16 = a1 at *
  generalize m / 256 % 16 = a2 at *
  generalize m / 16 % 16 = a3 at *
  generalize m % 16 = a4 at *
  generalize n / 4096 % 16 = b1 at *
  generalize n / 256 % 16 = b2 at *
  generalize n / 16 % 16 = b3 at *
  generalize n % 16 = b4 at *
  clear a b c d dec
  omega

/-- C20: the order of paths as text is the order in which they are handed out. -/
theorem C20_text_order (d e : Dpth) (hd : d.Ok) (he : e.Ok) :
    dpthMk d false < dpthMk e false ↔ d.rank < e.rank := by
  obtain ⟨h1, h2, h3⟩ := hd
  obtain ⟨k1, k2, k3⟩ := he
  unfold dpthMk
  simp only [Bool.false_eq_true, if_false, List.append_assoc, List.append_nil]
  have i1 : hex04 d.a = hex04 e.a ↔ d.a = e.a := ⟨hex04_inj h1 k1, fun h => by rw [h]⟩
  have i2 : hex04 d.b = hex04 e.b ↔ d.b = e.b := ⟨hex04_inj h2 k2, fun h => by rw [h]⟩
  have hs : ¬ [slash] < [slash] := by decide
  rw [lt_app (by rw [hex04_len h1, hex04_len k1]), lt_app rfl,
    lt_app (by rw [hex04_len h2, hex04_len k2]), lt_app rfl, hex04_lt h1 k1, hex04_lt h2 k2,
    hex04_lt h3 k3, i1, i2]
  simp only [hs, false_or, true_and]
  unfold Dpth.rank
  omega

/-- What is missing: a file that was being received when the backup was interrupted is not recorded.
Its path is handed out again, and if the next use of it is for a hard link that has become a file,
whose content phase 2 puts in `relink`, then phase 4 takes the half received file instead. -/
theorem C20_half_received_violated :
    ∃ d1, resume 30000 ⟨0, 0, 1⟩ [some (bytes "0000/0000/0001")] = some d1 ∧
      -- the allocator before the interruption had handed out this path:
      after 30000 ⟨0, 0, 1⟩ 1 = d1 ∧
      ∀ (L : History.Librsync Nat Nat Nat) (half good : Nat),
        History.jiggle L false { tmp := some half, rel := some good } =
          some ({ fin := some half, rel := some good }, false) := by
  have e : scanPath (cstr (bytes "0000/0000/0001")) = some (0, 0, 1) := by decide
  refine ⟨⟨0, 0, 2⟩, ?_, by decide, fun _ _ _ => rfl⟩
  unfold resume setAll setFromString
  rw [if_neg (by decide), e]
  decide

/-- The hypotheses are met by a list with a tree path, an entry without data and two data paths. -/
example : (∀ s, some s ∈ [some (bytes "t/home/a"), none, some (dpthMk ⟨0, 1, 5⟩ true),
      some (dpthMk ⟨0, 1, 4⟩ false)] → Recorded s) ∧ (⟨0, 0, 7⟩ : Dpth).Ok := by
  refine ⟨?_, by decide⟩
  intro s hs
  simp only [List.mem_cons, Option.some.injEq, reduceCtorEq, false_or, List.not_mem_nil, or_false] at hs
  rcases hs with rfl | rfl | rfl
  · exact Or.inr (by decide)
  · exact Or.inl ⟨_, _, by decide, rfl⟩
  · exact Or.inl ⟨_, _, by decide, rfl⟩

end Verif
