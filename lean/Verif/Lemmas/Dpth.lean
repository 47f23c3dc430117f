import Verif.Model.Dpth
import Verif.Spec.Dpth
import Verif.Lemmas.Iobuf

namespace Verif.Dpth
open Verif.Iobuf

theorem hexDigit_inj {m n : Nat} (hm : m < 16) (hn : n < 16) (h : hexDigit m = hexDigit n) :
    m = n := by
  have a := (hexDigit_facts m).1
  have b := (hexDigit_facts n).1
  rw [h, b] at a
  simp only [Option.some.injEq] at a
  omega

theorem hex04_len {n : Nat} (h : n < 65536) : (hex04 n).length = 4 := (hex04_length n).2 h

theorem hex04_inj {m n : Nat} (hm : m < 65536) (hn : n < 65536) (h : hex04 m = hex04 n) : m = n := by
  have a := scanX_hex04 hm []
  have b := scanX_hex04 hn []
  rw [h, b] at a
  exact (Option.some.inj a).symm

theorem dpthMk_inj {d e : Dpth} (hd : d.Ok) (he : e.Ok) {g k : Bool} (h : dpthMk d g = dpthMk e k) :
    d = e ∧ g = k := by
  unfold dpthMk at h
  simp only [List.append_assoc] at h
  obtain ⟨h1, h⟩ := List.append_inj h (by rw [hex04_len hd.1, hex04_len he.1])
  obtain ⟨_, h⟩ := List.append_inj h rfl
  obtain ⟨h2, h⟩ := List.append_inj h (by rw [hex04_len hd.2.1, hex04_len he.2.1])
  obtain ⟨_, h⟩ := List.append_inj h rfl
  obtain ⟨h3, h⟩ := List.append_inj h (by rw [hex04_len hd.2.2, hex04_len he.2.2])
  refine ⟨?_, ?_⟩
  · have e1 := hex04_inj hd.1 he.1 h1
    have e2 := hex04_inj hd.2.1 he.2.1 h2
    have e3 := hex04_inj hd.2.2 he.2.2 h3
    cases d; cases e; simp_all
  · cases g <;> cases k <;> first | rfl | exact absurd h (by decide)

/-- The limit as the `uint16_t` that it becomes. -/
theorem lim_lt (m : Int) : (m % 65536).toNat < 65536 := by omega

theorem dpthIncr_ok {m : Int} {d : Dpth} (hd : d.Ok) (h : (dpthIncr m d).2 = true) :
    d.rank < (dpthIncr m d).1.rank ∧ (dpthIncr m d).1.Ok := by
  obtain ⟨h1, h2, h3⟩ := hd
  have hl := lim_lt m
  unfold dpthIncr incr at h ⊢
  unfold Dpth.rank Dpth.Ok
  by_cases hc : d.c < 0xFFFF
  · simp only [hc, if_true] at h ⊢; omega
  · by_cases hb : d.b < (m % 65536).toNat
    · simp only [hc, hb, if_true, if_false, Bool.false_eq_true] at h ⊢; omega
    · by_cases ha : d.a < (m % 65536).toNat
      · simp only [hc, hb, ha, if_true, if_false, Bool.false_eq_true] at h ⊢; omega
      · simp [hc, hb, ha] at h

theorem dpthIncr_Ok {m : Int} {d : Dpth} (hd : d.Ok) : (dpthIncr m d).1.Ok := by
  obtain ⟨h1, h2, h3⟩ := hd
  have hl := lim_lt m
  unfold dpthIncr incr Dpth.Ok
  by_cases hc : d.c < 0xFFFF
  · simp only [hc, if_true]; omega
  · by_cases hb : d.b < (m % 65536).toNat
    · simp only [hc, hb, if_true, if_false, Bool.false_eq_true]; omega
    · by_cases ha : d.a < (m % 65536).toNat
      · simp only [hc, hb, ha, if_true, if_false, Bool.false_eq_true]; omega
      · simp [hc, hb, ha]

theorem dpthIncr_fail {m : Int} {d : Dpth} (h : (dpthIncr m d).2 = false) :
    (dpthIncr m d).1 = ⟨0, 0, 0⟩ ∧ (m % 65536).toNat ≤ d.a ∧ (m % 65536).toNat ≤ d.b ∧ 65535 ≤ d.c := by
  unfold dpthIncr incr at h ⊢
  by_cases hc : d.c < 0xFFFF
  · simp [hc] at h
  · by_cases hb : d.b < (m % 65536).toNat
    · simp [hc, hb] at h
    · by_cases ha : d.a < (m % 65536).toNat
      · simp [hc, hb, ha] at h
      · simp only [hc, hb, ha, if_false, Bool.false_eq_true]; refine ⟨trivial, by omega, by omega, by omega⟩

theorem after_Ok {m : Int} {d : Dpth} (hd : d.Ok) (n : Nat) : (after m d n).Ok := by
  induction n generalizing d with
  | zero => exact hd
  | succ n ih => exact ih (dpthIncr_Ok hd)

theorem after_add (m : Int) (d : Dpth) (i j : Nat) : after m d (i + j) = after m (after m d i) j := by
  induction i generalizing d with
  | zero => simp [after]
  | succ i ih => rw [Nat.succ_add]; exact ih _

theorem after_succ (m : Int) (d : Dpth) (n : Nat) :
    after m d (n + 1) = (dpthIncr m (after m d n)).1 := after_add m d n 1

/-- The paths are those of the successive values of the counter. -/
theorem allocateAll_getElem (m : Int) (d : Dpth) (gzs : List Bool) (i : Nat)
    (h : i < (allocateAll m d gzs).length) (h' : i < gzs.length) :
    (allocateAll m d gzs)[i] = dpthMk (after m d i) gzs[i] := by
  induction gzs generalizing d i with
  | nil => simp at h'
  | cons g gs ih =>
    cases i with
    | zero => rfl
    | succ i =>
      simp only [allocateAll, List.getElem_cons_succ]
      exact ih _ i (by simpa [allocateAll] using h) (by simpa using h')

theorem allocateAll_length (m : Int) (d : Dpth) (gzs : List Bool) :
    (allocateAll m d gzs).length = gzs.length := by
  induction gzs generalizing d with
  | nil => rfl
  | cons g gs ih => simp [allocateAll, ih]

theorem rank_after {m : Int} {d : Dpth} (hd : d.Ok) {i j : Nat} (hij : i < j)
    (h : ∀ k, i ≤ k → k < j → (dpthIncr m (after m d k)).2 = true) :
    (after m d i).rank < (after m d j).rank := by
  induction j with
  | zero => omega
  | succ j ih =>
    rw [after_succ]
    have h1 := (dpthIncr_ok (after_Ok hd j) (h j (by omega) (by omega))).1
    by_cases e : i = j
    · subst e; exact h1
    · have := ih (by omega) (fun k hk hk' => h k hk (by omega))
      omega

theorem rank_inj {d e : Dpth} (hd : d.Ok) (he : e.Ok) (h : d.rank = e.rank) : d = e := by
  unfold Dpth.rank Dpth.Ok at *
  have : d.c = e.c := by omega
  have : d.b = e.b := by omega
  have : d.a = e.a := by omega
  cases d; cases e; simp_all

/-- The counter in mixed radix. -/
def mixed (m : Nat) (d : Dpth) : Nat := (d.a * (m + 1) + d.b) * 65536 + d.c

theorem dpthIncr_mixed {m : Nat} (hm : m < 65536) {d : Dpth} (hd : d.Ok) (ha : d.a ≤ m) (hb : d.b ≤ m) :
    (dpthIncr m d).1.a ≤ m ∧ (dpthIncr m d).1.b ≤ m ∧
    (((dpthIncr m d).2 = true ∧ mixed m (dpthIncr m d).1 = mixed m d + 1) ∨
      ((dpthIncr m d).2 = false ∧ mixed m d + 1 = (m + 1) * (m + 1) * 65536 ∧
        (dpthIncr m d).1 = ⟨0, 0, 0⟩)) := by
  obtain ⟨h1, h2, h3⟩ := hd
  have e : ((m : Int) % 65536).toNat = m := by omega
  unfold dpthIncr incr mixed
  rw [e]
  by_cases hc : d.c < 0xFFFF
  · simp only [hc, if_true]
    exact ⟨ha, hb, Or.inl ⟨trivial, by omega⟩⟩
  · by_cases hb' : d.b < m
    · simp only [hc, hb', if_true, if_false, Bool.false_eq_true]
      refine ⟨ha, by omega, Or.inl ⟨trivial, ?_⟩⟩
      omega
    · by_cases ha' : d.a < m
      · simp only [hc, hb', ha', if_true, if_false, Bool.false_eq_true]
        refine ⟨by omega, by omega, Or.inl ⟨trivial, ?_⟩⟩
        have : (d.a + 1) * (m + 1) = d.a * (m + 1) + (m + 1) := by rw [Nat.succ_mul]
        omega
      · simp only [hc, hb', ha', if_false, Bool.false_eq_true]
        refine ⟨by omega, by omega, Or.inr ⟨trivial, ?_, trivial⟩⟩
        have e1 : d.a = m := by omega
        have e2 : d.b = m := by omega
        have e3 : d.c = 65535 := by omega
        have e4 : (m + 1) * (m + 1) = m * (m + 1) + (m + 1) := by rw [Nat.succ_mul]
        rw [e1, e2, e3, e4]
        omega

theorem after_mixed {m : Nat} (hm : m < 65536) {d : Dpth} (hd : d.Ok) (ha : d.a ≤ m) (hb : d.b ≤ m)
    (n : Nat) (hn : mixed m d + n < (m + 1) * (m + 1) * 65536) :
    (after m d n).a ≤ m ∧ (after m d n).b ≤ m ∧ mixed m (after m d n) = mixed m d + n := by
  induction n with
  | zero => exact ⟨ha, hb, by simp [after]⟩
  | succ n ih =>
    obtain ⟨h1, h2, h3⟩ := ih (by omega)
    rw [after_succ]
    obtain ⟨k1, k2, k3⟩ := dpthIncr_mixed hm (after_Ok hd n) h1 h2
    rcases k3 with ⟨_, k3⟩ | ⟨_, k3, _⟩
    · exact ⟨k1, k2, by omega⟩
    · omega

theorem after_ok {m : Nat} (hm : m < 65536) {d : Dpth} (hd : d.Ok) (ha : d.a ≤ m) (hb : d.b ≤ m)
    (n : Nat) (hn : mixed m d + n + 1 < (m + 1) * (m + 1) * 65536) :
    (dpthIncr m (after m d n)).2 = true := by
  obtain ⟨h1, h2, h3⟩ := after_mixed hm hd ha hb n (by omega)
  rcases (dpthIncr_mixed hm (after_Ok hd n) h1 h2).2.2 with ⟨k, _⟩ | ⟨_, k, _⟩
  · exact k
  · omega

/-! ### Directories -/

theorem scanDigits_acc (w : Nat) (x : Byte) (s : Str) (acc : Nat) (h : hexVal x = none) :
    scanDigits w (x :: s) (some acc) = some acc := by
  cases w with
  | zero => rfl
  | succ w => simp [scanDigits, h]

theorem strtolHex_hex04 {n : Nat} (h : n < 65536) (t : Str) (ht : t = [] ∨ ∃ x s, t = x :: s ∧ hexVal x = none) :
    strtolHex (hex04 n ++ t) = n := by
  have hl : (hex04 n ++ t).length = 4 + t.length := by rw [List.length_append, hex04_len h]
  unfold strtolHex
  rw [hl, hex04_small h]
  have a1 := (hexDigit_facts (n / 4096)).1
  have b1 := (hexDigit_facts (n / 256)).1
  have c1 := (hexDigit_facts (n / 16)).1
  have d1 := (hexDigit_facts n).1
  have hv : ((((none : Option Nat).getD 0 * 16 + n / 4096 % 16) * 16 + n / 256 % 16) * 16
      + n / 16 % 16) * 16 + n % 16 = n := by
    simp only [Option.getD_none]; omega
  have e4 : 4 + t.length = t.length + 1 + 1 + 1 + 1 := by omega
  rw [e4]
  simp only [List.cons_append, List.nil_append, scanDigits, a1, b1, c1, d1, Option.getD_some, hv]
  rcases ht with rfl | ⟨x, s, rfl, hx⟩
  · simp [scanDigits]
  · rw [scanDigits_acc _ _ _ _ hx]; rfl

theorem highest_spec {names : List Str} (h : ∀ s ∈ names, strtolHex s < 65536) :
    highest names < 65536 ∧ ∀ s ∈ names, strtolHex s ≤ highest names := by
  unfold highest
  have key : ∀ (names : List Str) (m : Nat), (∀ s ∈ names, strtolHex s < 65536) → m < 65536 →
      let r := names.foldl (fun m s => if m < strtolHex s then strtolHex s % 65536 else m) m
      r < 65536 ∧ m ≤ r ∧ ∀ s ∈ names, strtolHex s ≤ r := by
    intro names
    induction names with
    | nil => intro m _ hm; exact ⟨hm, Nat.le_refl _, by simp⟩
    | cons s ss ih =>
      intro m hs hm
      have h1 := hs s (by simp)
      simp only [List.foldl_cons]
      have hm' : (if m < strtolHex s then strtolHex s % 65536 else m) < 65536 := by split <;> omega
      obtain ⟨k1, k2, k3⟩ := ih _ (fun s h => hs s (by simp [h])) hm'
      refine ⟨k1, ?_, ?_⟩
      · refine Nat.le_trans ?_ k2
        split <;> omega
      · intro x hx
        rcases List.mem_cons.1 hx with rfl | hx
        · refine Nat.le_trans ?_ k2
          split <;> omega
        · exact k3 x hx
  obtain ⟨k1, _, k3⟩ := key names 0 h (by decide)
  exact ⟨k1, k3⟩

theorem strtol_name {s : Str} (h : Name s) : strtolHex s < 65536 := by
  rcases h with ⟨n, hn, rfl | rfl⟩ | rfl
  · have := strtolHex_hex04 hn [] (Or.inl rfl)
    rw [List.append_nil] at this; omega
  · rw [strtolHex_hex04 hn (bytes ".gz") (Or.inr ⟨46, [103, 122], by decide, by decide⟩)]; exact hn
  · decide

theorem strtol_hex04 {n : Nat} (hn : n < 65536) : strtolHex (hex04 n) = n := by
  have := strtolHex_hex04 hn [] (Or.inl rfl)
  rwa [List.append_nil] at this

theorem init_above {m : Int} {ls : Str → List Str} {d : Dpth} (hls : ∀ p, ∀ s ∈ ls p, Name s)
    (h : init m ls = some d) : d.Ok ∧ ∀ e, Stored ls e → e.rank < d.rank := by
  unfold init at h
  simp only at h
  split at h
  · rename_i hok
    simp only [Option.some.injEq] at h
    subst h
    have ha := highest_spec (names := ls []) (fun s hs => strtol_name (hls _ s hs))
    generalize hA : highest (ls []) = a at *
    have hb := highest_spec (names := ls (hex04 a)) (fun s hs => strtol_name (hls _ s hs))
    generalize hB : highest (ls (hex04 a)) = b at *
    have hc := highest_spec (names := ls (hex04 a ++ [slash] ++ hex04 b))
      (fun s hs => strtol_name (hls _ s hs))
    generalize hC : highest (ls (hex04 a ++ [slash] ++ hex04 b)) = c at *
    obtain ⟨k1, k2⟩ := dpthIncr_ok (m := m) (d := ⟨a, b, c⟩) ⟨ha.1, hb.1, hc.1⟩ hok
    refine ⟨k2, ?_⟩
    rintro e ⟨⟨e1, e2, e3⟩, s1, s2, g, s3⟩
    have l1 := ha.2 _ s1
    rw [strtol_hex04 e1] at l1
    refine Nat.lt_of_le_of_lt ?_ k1
    unfold Dpth.rank
    by_cases ea : e.a = a
    · rw [ea] at s2 s3
      have l2 := hb.2 _ s2
      rw [strtol_hex04 e2] at l2
      by_cases eb : e.b = b
      · rw [eb] at s3
        have l3 := hc.2 _ s3
        have : strtolHex (hex04 e.c ++ (if g then bytes ".gz" else [])) = e.c := by
          cases g
          · exact strtolHex_hex04 e3 _ (Or.inl rfl)
          · exact strtolHex_hex04 e3 (bytes ".gz") (Or.inr ⟨46, [103, 122], by decide, by decide⟩)
        rw [this] at l3
        simp only
        omega
      · simp only
        omega
    · simp only
      omega
  · cases h

/-! ### Strings -/

theorem afterX_hex04 {n : Nat} (h : n < 65536) (t : Str) : afterX (hex04 n ++ t) = t := by
  unfold afterX
  rw [hex04_small h]
  have a1 := (hexDigit_facts (n / 4096)).1
  have b1 := (hexDigit_facts (n / 256)).1
  have c1 := (hexDigit_facts (n / 16)).1
  have d1 := (hexDigit_facts n).1
  simp [a1, b1, c1, d1]

theorem scanPath_mk {d : Dpth} (hd : d.Ok) (g : Bool) :
    scanPath (cstr (dpthMk d g)) = some (d.a, d.b, d.c) := by
  obtain ⟨h1, h2, h3⟩ := hd
  unfold dpthMk
  simp only [List.append_assoc]
  have e1 : ∀ t : Str, cstr ([slash] ++ t) = slash :: cstr t := by intro t; simp [cstr, slash]
  rw [cstr_hex04 h1, e1, cstr_hex04 h2, e1, cstr_hex04 h3]
  unfold scanPath
  rw [scanX_hex04 h1, afterX_hex04 h1]
  simp only [ne_eq, not_true_eq_false, if_false, scanX_hex04 h2, afterX_hex04 h2, scanX_hex04 h3,
    Option.map_some]

theorem head_mk {d : Dpth} (hd : d.Ok) (g : Bool) : (dpthMk d g).head? ≠ some 116 := by
  unfold dpthMk
  rw [hex04_small hd.1]
  simp only [List.cons_append, List.head?_cons, ne_eq, Option.some.injEq]
  have : ∀ k : Fin 16, hexDigit k.val ≠ 116 := by decide
  rw [hexDigit_mod]
  exact this ⟨_, Nat.mod_lt _ (by decide)⟩

theorem setFromString_mk {d e : Dpth} (hd : d.Ok) (he : e.Ok) (g : Bool) :
    ∃ d', setFromString d (dpthMk e g) = some d' ∧ d'.Ok ∧ d.rank ≤ d'.rank ∧ e.rank ≤ d'.rank := by
  unfold setFromString
  rw [if_neg (head_mk he g), scanPath_mk he g]
  obtain ⟨h1, h2, h3⟩ := hd
  obtain ⟨k1, k2, k3⟩ := he
  simp only
  by_cases c1 : d.a = e.a ∧ d.b = e.b ∧ d.c > e.c
  · rw [if_pos c1]; exact ⟨d, rfl, ⟨h1, h2, h3⟩, Nat.le_refl _, by unfold Dpth.rank; omega⟩
  · rw [if_neg c1]
    by_cases c2 : d.a = e.a ∧ d.b > e.b
    · rw [if_pos c2]; exact ⟨d, rfl, ⟨h1, h2, h3⟩, Nat.le_refl _, by unfold Dpth.rank; omega⟩
    · rw [if_neg c2]
      by_cases c3 : d.a > e.a
      · rw [if_pos c3]; exact ⟨d, rfl, ⟨h1, h2, h3⟩, Nat.le_refl _, by unfold Dpth.rank; omega⟩
      · rw [if_neg c3]
        refine ⟨_, rfl, ⟨?_, ?_, ?_⟩, ?_, ?_⟩
        all_goals simp only [Dpth.rank]
        all_goals omega

theorem setAll_spec {d : Dpth} (hd : d.Ok) (es : List (Option Str)) (h : ∀ s, some s ∈ es → Recorded s) :
    ∃ d', setAll d es = some d' ∧ d'.Ok ∧ d.rank ≤ d'.rank ∧
      ∀ e g, e.Ok → some (dpthMk e g) ∈ es → e.rank ≤ d'.rank := by
  induction es generalizing d with
  | nil => exact ⟨d, rfl, hd, Nat.le_refl _, by simp⟩
  | cons x xs ih =>
    cases x with
    | none =>
      obtain ⟨d', h1, h2, h3, h4⟩ := ih hd (fun s hs => h s (by simp [hs]))
      exact ⟨d', h1, h2, h3, fun e g he hm => h4 e g he (by simpa using hm)⟩
    | some s =>
      have key : ∃ d1, setFromString d s = some d1 ∧ d1.Ok ∧ d.rank ≤ d1.rank ∧
          ∀ e g, e.Ok → s = dpthMk e g → e.rank ≤ d1.rank := by
        rcases h s (by simp) with ⟨e, g, he, rfl⟩ | ht
        · obtain ⟨d1, k1, k2, k3, k4⟩ := setFromString_mk hd he g
          refine ⟨d1, k1, k2, k3, ?_⟩
          intro e' g' he' heq
          obtain ⟨rfl, _⟩ := dpthMk_inj he he' heq
          exact k4
        · refine ⟨d, ?_, hd, Nat.le_refl _, ?_⟩
          · unfold setFromString; rw [if_pos ht]
          · rintro e g he rfl
            exact absurd ht (head_mk he g)
      obtain ⟨d1, k1, k2, k3, k4⟩ := key
      obtain ⟨d', h1, h2, h3, h4⟩ := ih k2 (fun s hs => h s (by simp [hs]))
      refine ⟨d', by simp only [setAll, k1]; exact h1, h2, by omega, ?_⟩
      intro e g he hm
      rcases List.mem_cons.1 hm with hm | hm
      · have := k4 e g he (Option.some.inj hm).symm
        omega
      · exact h4 e g he hm

theorem setFromString_or {d e d' : Dpth} (he : e.Ok) (g : Bool) (h : setFromString d (dpthMk e g) = some d') :
    d' = d ∨ d' = e := by
  unfold setFromString at h
  rw [if_neg (head_mk he g), scanPath_mk he g] at h
  obtain ⟨k1, k2, k3⟩ := he
  simp only at h
  split at h
  · exact Or.inl (Option.some.inj h).symm
  · split at h
    · exact Or.inl (Option.some.inj h).symm
    · split at h
      · exact Or.inl (Option.some.inj h).symm
      · right
        rw [← Option.some.inj h, Nat.mod_eq_of_lt k1, Nat.mod_eq_of_lt k2, Nat.mod_eq_of_lt k3]

/-- The allocator is where it was or at one of the recorded paths. -/
theorem setAll_or {d d' : Dpth} {es : List (Option Str)} (h : ∀ s, some s ∈ es → Recorded s)
    (hs : setAll d es = some d') : d' = d ∨ ∃ g, some (dpthMk d' g) ∈ es := by
  induction es generalizing d with
  | nil => exact Or.inl (Option.some.inj hs).symm
  | cons x xs ih =>
    cases x with
    | none =>
      rcases ih (fun s hs => h s (by simp [hs])) hs with e | ⟨g, hg⟩
      · exact Or.inl e
      · exact Or.inr ⟨g, by simp [hg]⟩
    | some s =>
      simp only [setAll] at hs
      cases h1 : setFromString d s with
      | none => rw [h1] at hs; cases hs
      | some d1 =>
        rw [h1] at hs
        rcases ih (fun s hs => h s (by simp [hs])) hs with e | ⟨g, hg⟩
        · subst e
          rcases h s (by simp) with ⟨e, g, he, rfl⟩ | ht
          · rcases setFromString_or he g h1 with r | r
            · exact Or.inl r
            · exact Or.inr ⟨g, by simp [r]⟩
          · unfold setFromString at h1
            rw [if_pos ht] at h1
            exact Or.inl (Option.some.inj h1).symm
        · exact Or.inr ⟨g, by simp [hg]⟩

end Verif.Dpth
