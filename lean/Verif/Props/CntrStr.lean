import Verif.Spec.Cntr
import Verif.Lemmas.Decimal

/-!
# C66: the status line
-/

namespace Verif
open Verif Cntr BackupNumber

namespace Cntr

theorem isDigit_plain {c : Byte} (h : isDigit c = true) :
    c ≠ tab ∧ c ≠ newline ∧ c ≠ slash ∧ c ≠ dot ∧ isSpace c = false ∧ c ≠ 45 ∧ c ≠ 43 := by
  simp only [isDigit, Bool.and_eq_true, decide_eq_true_eq] at h
  have ne : ∀ d : Byte, (d.toNat < 48 ∨ 57 < d.toNat) → c ≠ d := by
    rintro d hd rfl
    omega
  refine ⟨ne _ (by decide), ne _ (by decide), ne _ (by decide), ne _ (by decide), ?_, ne _ (by decide), ne _ (by decide)⟩
  have h32 : c ≠ 32 := ne _ (by decide)
  have h13 : ¬ c ≤ 13 := by
    rw [UInt8.le_iff_toNat_le]
    have : (13 : UInt8).toNat = 13 := rfl
    omega
  simp [isSpace, h32, h13]

theorem digits_plain (n : Nat) : tab ∉ decimal n ∧ newline ∉ decimal n ∧ slash ∉ decimal n ∧ dot ∉ decimal n :=
  ⟨fun h => (isDigit_plain ((decimal_digits n).1 _ h)).1 rfl,
   fun h => (isDigit_plain ((decimal_digits n).1 _ h)).2.1 rfl,
   fun h => (isDigit_plain ((decimal_digits n).1 _ h)).2.2.1 rfl,
   fun h => (isDigit_plain ((decimal_digits n).1 _ h)).2.2.2.1 rfl⟩

theorem decimal_cons (n : Nat) : ∃ c r, decimal n = c :: r ∧ isDigit c = true := by
  obtain ⟨h, hn⟩ := decimal_digits n
  cases hd : decimal n with
  | nil => exact absurd hd hn
  | cons c r => exact ⟨c, r, rfl, h c (hd ▸ List.mem_cons_self ..)⟩

theorem strtoull_decimal (n : UInt64) : strtoull (showU n) = n := by
  obtain ⟨c, r, e, hc⟩ := decimal_cons n.toNat
  obtain ⟨-, -, -, -, h1, h2, h3⟩ := isDigit_plain hc
  have hv : strtoul (decimal n.toNat) = n.toNat := by
    have := n.toNat_lt
    rw [strtoul, decValue_decimal]
    omega
  have hd : (decimal n.toNat).dropWhile isSpace = decimal n.toNat := by
    rw [e, List.dropWhile_cons]
    simp [h1]
  unfold strtoull showU
  rw [hd]
  split
  · rename_i r' e'
    rw [e] at e'
    exact absurd (List.cons.inj e').1 h2
  · rename_i r' e'
    rw [e] at e'
    exact absurd (List.cons.inj e').1 h3
  · rw [hv, UInt64.ofNat_toNat]

theorem atoi_decimal (n : Nat) : atoi (decimal n) = n := by
  obtain ⟨c, r, e, hc⟩ := decimal_cons n
  obtain ⟨-, -, -, -, h1, h2, h3⟩ := isDigit_plain hc
  have hd : (decimal n).dropWhile isSpace = decimal n := by
    rw [e, List.dropWhile_cons]
    simp [h1]
  unfold atoi
  rw [hd]
  split
  · rename_i r' e'
    rw [e] at e'
    exact absurd (List.cons.inj e').1 h2
  · rename_i r' e'
    rw [e] at e'
    exact absurd (List.cons.inj e').1 h3
  · rw [decValue_decimal]

theorem splitFirst_append {x : Byte} {a : Str} (h : x ∉ a) (r : Str) :
    splitFirst x (a ++ x :: r) = some (a, r) := by
  induction a with
  | nil => simp [splitFirst]
  | cons c a ih =>
    have hc : c ≠ x := fun e => h (e ▸ List.mem_cons_self ..)
    have := ih fun hm => h (List.mem_cons_of_mem _ hm)
    simp [splitFirst, hc, this]

theorem splitFirst_none {x : Byte} {a : Str} (h : x ∉ a) : splitFirst x a = none := by
  induction a with
  | nil => rfl
  | cons c a ih =>
    have hc : c ≠ x := fun e => h (e ▸ List.mem_cons_self ..)
    have := ih fun hm => h (List.mem_cons_of_mem _ hm)
    simp [splitFirst, hc, this]

theorem splitLast_append {x : Byte} (a : Str) {b : Str} (h : x ∉ b) :
    splitLast x (a ++ x :: b) = some (a, b) := by
  have : (a ++ x :: b).reverse = b.reverse ++ x :: a.reverse := by simp
  rw [splitLast, this, splitFirst_append (by simpa using h)]
  simp

theorem clientPidBno_header (cname : Str) (pid bno : Nat) :
    clientPidBno (cname ++ [dot] ++ decimal pid ++ [dot] ++ decimal bno) = (cname, (pid : Int), (bno : Int)) := by
  have e : cname ++ [dot] ++ decimal pid ++ [dot] ++ decimal bno
      = (cname ++ [dot] ++ decimal pid) ++ dot :: decimal bno := by simp
  have e2 : cname ++ [dot] ++ decimal pid = cname ++ dot :: decimal pid := by simp
  unfold clientPidBno
  rw [e, splitLast_append _ (digits_plain bno).2.2.2]
  simp only
  rw [e2, splitLast_append _ (digits_plain pid).2.2.2]
  simp only [atoi_decimal]

theorem tokens_word {w : Str} (hw : Plain w) (hne : w ≠ []) {x : Byte} (hx : x = tab ∨ x = newline) (r : Str) :
    tokens [] (w ++ x :: r) = w :: tokens [] r := by
  have gen : ∀ (w cur : Str), Plain w → cur ++ w ≠ [] → tokens cur (w ++ x :: r) = (cur ++ w) :: tokens [] r := by
    intro w
    induction w with
    | nil =>
      intro cur _ hne
      simp only [List.append_nil] at hne
      simp [tokens, hx, hne]
    | cons c w ih =>
      intro cur hp hne
      have h1 : c ≠ tab := fun e => hp.1 (e ▸ List.mem_cons_self ..)
      have h2 : c ≠ newline := fun e => hp.2 (e ▸ List.mem_cons_self ..)
      have := ih (cur ++ [c]) ⟨fun h => hp.1 (List.mem_cons_of_mem _ h), fun h => hp.2 (List.mem_cons_of_mem _ h)⟩
        (by simp)
      simp only [List.cons_append, tokens, h1, h2, or_self, if_false, this]
      simp
  simpa using gen w [] hw (by simpa using hne)

/-- The last word needs no separator after it. -/
theorem tokens_last {w : Str} (hw : Plain w) (hne : w ≠ []) : tokens [] w = [w] := by
  have gen : ∀ (w cur : Str), Plain w → cur ++ w ≠ [] → tokens cur w = [cur ++ w] := by
    intro w
    induction w with
    | nil =>
      intro cur _ hne
      simp only [List.append_nil] at hne
      simp [tokens, hne]
    | cons c w ih =>
      intro cur hp hne
      have h1 : c ≠ tab := fun e => hp.1 (e ▸ List.mem_cons_self ..)
      have h2 : c ≠ newline := fun e => hp.2 (e ▸ List.mem_cons_self ..)
      have := ih (cur ++ [c]) ⟨fun h => hp.1 (List.mem_cons_of_mem _ h), fun h => hp.2 (List.mem_cons_of_mem _ h)⟩
        (by simp)
      simp only [tokens, h1, h2, or_self, if_false, this]
      simp
  simpa using gen w [] hw (by simpa using hne)

theorem decimal_length (n k : Nat) (h : n < 10 ^ (k + 1)) : (decimal n).length ≤ k + 1 := by
  induction k generalizing n with
  | zero =>
    rw [decimal, if_pos (by simpa using h)]
    simp
  | succ k ih =>
    rw [decimal]
    split
    · simp
    · have := ih (n / 10) (by rw [Nat.div_lt_iff_lt_mul (by decide)]; rw [Nat.pow_succ] at h; exact h)
      simp only [List.length_append, List.length_cons, List.length_nil]
      omega

theorem showU_length (n : UInt64) : (showU n).length ≤ 20 :=
  decimal_length n.toNat 19 (Nat.lt_of_lt_of_le n.toNat_lt (by decide))

/-- One counter in the status line, as a word and a tab. -/
def entWord (c : Cntr) (r : Cmd × Flag) : Str :=
  let e := c r.1.toByte
  if r.2 = .single then showU e.count
  else showU e.count ++ slash :: (showU e.changed ++ slash :: (showU e.same ++ slash :: (showU e.deleted
    ++ slash :: showU e.phase1)))

theorem entWord_length (c : Cntr) (r : Cmd × Flag) :
    (entWord c r).length ≤ if r.2 = .single then 20 else 104 := by
  have := showU_length (c r.1.toByte).count
  have := showU_length (c r.1.toByte).changed
  have := showU_length (c r.1.toByte).same
  have := showU_length (c r.1.toByte).deleted
  have := showU_length (c r.1.toByte).phase1
  unfold entWord
  simp only
  split
  · omega
  · simp only [List.length_append, List.length_cons]
    omega

theorem entStr_eq (c : Cntr) (r : Cmd × Flag) : entStr c r = r.1.toByte :: entWord c r ++ [tab] := by
  have hl := entWord_length c r
  unfold entStr
  have e : (if r.2 = .single then [r.1.toByte] ++ showU (c r.1.toByte).count ++ [tab]
      else [r.1.toByte] ++ showU (c r.1.toByte).count ++ [slash] ++ showU (c r.1.toByte).changed ++ [slash]
        ++ showU (c r.1.toByte).same ++ [slash]
        ++ showU (c r.1.toByte).deleted ++ [slash] ++ showU (c r.1.toByte).phase1 ++ [tab])
      = r.1.toByte :: entWord c r ++ [tab] := by
    unfold entWord
    simp only
    split <;> simp
  simp only at e ⊢
  rw [e]
  apply List.take_of_length_le
  simp only [List.length_append, List.length_cons, List.length_nil]
  split at hl <;> omega

theorem entWord_plain (c : Cntr) (r : Cmd × Flag) : Plain (entWord c r) := by
  have h : ∀ n : UInt64, tab ∉ showU n ∧ newline ∉ showU n := fun n => ⟨(digits_plain _).1, (digits_plain _).2.1⟩
  unfold entWord Plain
  simp only
  split
  · exact h _
  · have h1 : ¬ tab = slash := by decide
    have h2 : ¬ newline = slash := by decide
    constructor <;> simp [h, h1, h2, List.mem_append, List.mem_cons]

theorem tokens_entries (c : Cntr) (rest : Str) : ∀ t : List (Cmd × Flag), (∀ r ∈ t, r ∈ table) →
    tokens [] ((t.map (entStr c)).flatten ++ rest) = t.map (fun r => r.1.toByte :: entWord c r) ++ tokens [] rest := by
  have kp : ∀ r ∈ table, r.1.toByte ≠ tab ∧ r.1.toByte ≠ newline := by decide
  intro t
  induction t with
  | nil => intro _; rfl
  | cons r t ih =>
    intro h
    have ih := ih fun x hx => h x (List.mem_cons_of_mem _ hx)
    obtain ⟨k1, k2⟩ := kp r (h r (List.mem_cons_self ..))
    have hp := entWord_plain c r
    simp only [List.map_cons, List.flatten_cons, entStr_eq]
    rw [List.append_assoc, show (r.1.toByte :: entWord c r ++ [tab]) ++ ((t.map (entStr c)).flatten ++ rest)
        = (r.1.toByte :: entWord c r) ++ tab :: ((t.map (entStr c)).flatten ++ rest) by simp]
    rw [tokens_word ⟨by simp [hp.1, Ne.symm k1], by simp [hp.2, Ne.symm k2]⟩ (by simp) (.inl rfl), ih]
    simp

theorem extractUl_entWord (c : Cntr) (r : Cmd × Flag) (e : Ent) :
    extractUl (entWord c r) e = if r.2 = .single then { e with count := (c r.1.toByte).count } else c r.1.toByte := by
  have hs : ∀ n : UInt64, slash ∉ showU n := fun n => (digits_plain _).2.2.1
  unfold entWord
  simp only
  split
  · rw [extractUl, splitFirst_none (hs _)]
    simp only [strtoull_decimal]
  · simp only [extractUl, splitFirst_append (hs _), strtoull_decimal]

theorem foldl_entries (c : Cntr) : ∀ (t : List (Cmd × Flag)) (r : Reader), r.ents = true → (∀ x ∈ t, x ∈ table) →
    (t.map (fun x => x.1.toByte)).Nodup →
    ∃ r' : Reader, (t.map (fun x => x.1.toByte :: entWord c x)).foldl extractOne r = r'
      ∧ r'.ents = true ∧ r'.pid = r.pid ∧ r'.bno = r.bno ∧ r'.status = r.status ∧ r'.path = r.path
      ∧ (∀ x ∈ t, r'.ent x.1.toByte = extractUl (entWord c x) (r.ent x.1.toByte))
      ∧ (∀ k, k ∉ t.map (fun x => x.1.toByte) → r'.ent k = r.ent k) := by
  have kp : ∀ r ∈ table, r.1.toByte ≠ Cmd.datapth.toByte ∧ has r.1.toByte = true := by decide
  intro t
  induction t with
  | nil => intro r h _ _; exact ⟨r, rfl, h, rfl, rfl, rfl, rfl, nofun, fun _ _ => rfl⟩
  | cons x t ih =>
    intro r h hm hn
    obtain ⟨k1, k2⟩ := kp x (hm x (List.mem_cons_self ..))
    have hn' := List.nodup_cons.mp hn
    have e1 : extractOne r (x.1.toByte :: entWord c x)
        = { r with ent := upd r.ent x.1.toByte (extractUl (entWord c x)) } := by
      simp [extractOne, k1, h]
    obtain ⟨r', e, a1, a2, a3, a4, a5, a6, a7⟩ := ih
      { r with ent := upd r.ent x.1.toByte (extractUl (entWord c x)) } h
      (fun y hy => hm y (List.mem_cons_of_mem _ hy)) hn'.2
    refine ⟨r', ?_, a1, a2, a3, a4, a5, ?_, ?_⟩
    · simp only [List.map_cons, List.foldl_cons, e1, e]
    · intro y hy
      rcases List.mem_cons.mp hy with rfl | hy
      · rw [a7 _ hn'.1]
        simp [upd, k2]
      · rw [a6 y hy]
        have : y.1.toByte ≠ x.1.toByte := fun e => hn'.1 (List.mem_map.mpr ⟨y, hy, e⟩)
        simp [upd, this]
    · intro k hk
      simp only [List.map_cons, List.mem_cons, not_or] at hk
      rw [a7 k hk.2]
      simp [upd, hk.1]

theorem pathStr_token (path : Str) (h : Plain path) : tokens [] (pathStr path) = [Cmd.datapth.toByte :: path.take 257] := by
  have hp : Plain (Cmd.datapth.toByte :: path.take 257) := by
    constructor
    · intro hm
      rcases List.mem_cons.mp hm with e | e
      · exact absurd e (by decide)
      · exact h.1 (List.mem_of_mem_take e)
    · intro hm
      rcases List.mem_cons.mp hm with e | e
      · exact absurd e (by decide)
      · exact h.2 (List.mem_of_mem_take e)
  have e : pathStr path = (Cmd.datapth.toByte :: path.take 257) ++ ([tab, newline].take (257 - path.length)) := by
    unfold pathStr
    rw [show [Cmd.datapth.toByte] ++ path ++ [tab, newline] = Cmd.datapth.toByte :: (path ++ [tab, newline]) by simp,
      show (258 : Nat) = 257 + 1 from rfl, List.take_succ_cons, List.take_append]
    simp
  rw [e]
  generalize 257 - path.length = n
  match n with
  | 0 => simp only [List.take_zero, List.append_nil]; exact tokens_last hp (by simp)
  | 1 =>
    rw [show [tab, newline].take 1 = tab :: [] from rfl, tokens_word hp (by simp) (.inl rfl)]
    rfl
  | n + 2 =>
    rw [show [tab, newline].take (n + 2) = tab :: [newline] by simp, tokens_word hp (by simp) (.inl rfl)]
    rfl

theorem header_tokens (cname : Str) (hc : Plain cname) (pid bno status : Nat) (rest : Str) :
    tokens [] (header cname pid bno status ++ rest)
      = bytes "cntr" :: (cname ++ [dot] ++ decimal pid ++ [dot] ++ decimal bno) :: bytes "3" :: decimal status
        :: tokens [] rest := by
  have hd := fun n => digits_plain n
  have e : header cname pid bno status ++ rest
      = bytes "cntr" ++ tab :: ((cname ++ [dot] ++ decimal pid ++ [dot] ++ decimal bno) ++ tab :: (bytes "3" ++ tab ::
        (decimal status ++ tab :: rest))) := by
    unfold header
    rw [show bytes "cntr\t" = bytes "cntr" ++ [tab] by decide, show bytes "\t3\t" = [tab] ++ bytes "3" ++ [tab] by decide]
    simp
  rw [e, tokens_word (by decide) (by decide) (.inl rfl), tokens_word _ (by simp) (.inl rfl),
    tokens_word (by decide) (by decide) (.inl rfl),
    tokens_word ⟨(hd status).1, (hd status).2.1⟩ (decimal_digits status).2 (.inl rfl)]
  have h1 : ¬ tab = dot := by decide
  have h2 : ¬ newline = dot := by decide
  constructor
  · simp [List.mem_append, hc.1, (hd _).1, h1]
  · simp [List.mem_append, hc.2, (hd _).2.1, h2]

theorem header_length (cname : Str) (pid bno status : Nat) (hp : pid < 2 ^ 31) (hb : bno < 2 ^ 31) (hs : status < 10) :
    (header cname pid bno status).length ≤ cname.length + 32 := by
  have h1 := decimal_length pid 9 (Nat.lt_of_lt_of_le hp (by decide))
  have h2 := decimal_length bno 9 (Nat.lt_of_lt_of_le hb (by decide))
  have h3 := decimal_length status 0 (by simpa using hs)
  unfold header
  simp only [List.length_append, List.length_cons, List.length_nil,
    show (bytes "cntr\t").length = 5 by decide, show (bytes "\t3\t").length = 3 by decide]
  omega

theorem maxStrLen_eq (cname : Str) : maxStrLen cname = cname.length + 2248 := by
  unfold maxStrLen
  have : (table.map (fun r => if r.2 = .single then 22 + 2 else 22 * 5 + 6)).sum = 1956 := by decide
  rw [this]

theorem toStr_eq (c : Cntr) (cname : Str) (pid bno status : Nat) (hp : pid < 2 ^ 31) (hb : bno < 2 ^ 31)
    (hs : status < 10) (path : Str) :
    toStr c cname pid bno status path
      = header cname pid bno status ++ ((table.map (entStr c)).flatten ++ pathStr path) := by
  have h := header_length cname pid bno status hp hb hs
  unfold toStr
  rw [List.take_of_length_le (by rw [maxStrLen_eq]; omega), List.append_assoc]

theorem entries_length (c : Cntr) : ∀ t : List (Cmd × Flag),
    (t.map (entStr c)).flatten.length ≤ (t.map (fun r => if r.2 = .single then 22 else 106)).sum := by
  intro t
  induction t with
  | nil => simp
  | cons r t ih =>
    have hl := entWord_length c r
    simp only [List.map_cons, List.flatten_cons, List.length_append, List.sum_cons, entStr_eq, List.length_cons,
      List.length_nil]
    split at hl <;> rename_i h <;> simp only [h, if_true, if_false] <;> omega

/-- What `str_to_cntr` makes of the words of a status line. -/
theorem strToCntr_words {s : Str} {who ver st x : Str} {rest : List Str}
    (h : tokens [] s = x :: who :: ver :: st :: rest) (hv : atoi ver = 3) (r : Reader) :
    strToCntr s r = some (rest.foldl extractOne
      { r with pid := (clientPidBno who).2.1, bno := (clientPidBno who).2.2, status := atoi st }) := by
  unfold strToCntr
  rw [h]
  simp only [hv, ne_eq, not_true_eq_false, if_false]

theorem foldl_status (l : List Str) : ∀ (r : Reader),
    (l.foldl extractOne r).status = r.status ∧ (l.foldl extractOne r).pid = r.pid
    ∧ (l.foldl extractOne r).bno = r.bno := by
  induction l with
  | nil => intro r; exact ⟨rfl, rfl, rfl⟩
  | cons w l ih =>
    intro r
    have : (extractOne r w).status = r.status ∧ (extractOne r w).pid = r.pid
        ∧ (extractOne r w).bno = r.bno := by
      cases w with
      | nil => exact ⟨rfl, rfl, rfl⟩
      | cons k v =>
        simp only [extractOne]
        by_cases h1 : k = Cmd.datapth.toByte
        · simp [h1]
        · by_cases h2 : r.ents = true <;> simp [h1, h2]
    obtain ⟨b, d, e⟩ := this
    obtain ⟨i, j, k⟩ := ih (extractOne r w)
    rw [List.foldl_cons]
    exact ⟨i.trans b, j.trans d, k.trans e⟩

end Cntr

/-- **C66.** The status line and its terminating byte fit into the buffer made for them, whatever the
counters and the path. -/
theorem C66_fits (c : Cntr) (cname : Str) (pid bno status : Nat) (hp : pid < 2 ^ 31) (hb : bno < 2 ^ 31)
    (hs : status < 10) (path : Str) :
    (toStr c cname pid bno status path).length + 1 ≤ maxStrLen cname := by
  have h1 := header_length cname pid bno status hp hb hs
  have h2 := entries_length c table
  have h3 : (pathStr path).length ≤ 258 := by unfold pathStr; exact List.length_take_le ..
  have h4 : (table.map (fun r => if r.2 = Flag.single then 22 else 106)).sum = 1788 := by decide
  rw [toStr_eq c cname pid bno status hp hb hs, maxStrLen_eq]
  simp only [List.length_append]
  omega

/-- **C66.** A reader gets the counters, the process, the backup and the status that the sender had, and
the first 257 bytes of the path, if neither the name of the client nor the path has a tab or a
newline. -/
theorem C66_round_trip_partial (c : Cntr) (cname : Str) (hc : Plain cname) (pid bno status : Nat)
    (hp : pid < 2 ^ 31) (hb : bno < 2 ^ 31) (hs : status < 10) (path : Str) (hpath : Plain path)
    (r : Reader) (hr : r.ents = true) :
    ∃ r', strToCntr (toStr c cname pid bno status path) r = some r'
      ∧ r'.pid = pid ∧ r'.bno = bno ∧ r'.status = status ∧ r'.path = some (path.take 257) ∧ Received r' c := by
  have ht : tokens [] (toStr c cname pid bno status path)
      = bytes "cntr" :: (cname ++ [dot] ++ decimal pid ++ [dot] ++ decimal bno) :: bytes "3" :: decimal status
        :: (table.map (fun r => r.1.toByte :: entWord c r) ++ [Cmd.datapth.toByte :: path.take 257]) := by
    rw [toStr_eq c cname pid bno status hp hb hs, header_tokens cname hc,
      tokens_entries c _ table (fun _ h => h), pathStr_token path hpath]
  have hn : (table.map (fun x => x.1.toByte)).Nodup := by decide
  obtain ⟨r1, e, -, a2, a3, a4, -, a6, -⟩ := foldl_entries c table
    { r with pid := pid, bno := bno, status := status } hr (fun _ h => h) hn
  refine ⟨{ r1 with path := some (path.take 257) }, ?_, a2, a3, a4, rfl, ?_⟩
  · rw [strToCntr_words ht (by decide), clientPidBno_header, atoi_decimal, List.foldl_append, e]
    simp [extractOne]
  · intro k f hk
    have := a6 (k, f) hk
    simp only [extractUl_entWord] at this
    constructor
    · intro hf
      simp only [hf, if_true] at this
      simp only [this]
    · intro hf
      simp only [hf, if_false] at this
      exact this

/-- A sender with some counters, a client name with a dot in it, and a reader with others. -/
example : ∃ (cname path : Str) (r : Reader), Plain cname ∧ Plain path ∧ r.ents = true
    ∧ (strToCntr (toStr (run [.add Cmd.file.toByte, .val Cmd.bytes.toByte 512]) cname 1234 7 2 path) r).map
      (fun r => (([r.pid, r.bno, r.status], r.path), (r.ent Cmd.file.toByte, (r.ent Cmd.bytes.toByte).count)))
      = some (([1234, 7, 2], some (bytes "/home/a b")), (⟨1, 0, 0, 0, 0⟩, 512)) :=
  ⟨bytes "pc.example", bytes "/home/a b", ⟨true, run [.add Cmd.file.toByte, .same Cmd.file.toByte 5], 0, 0, 0, none⟩,
    by decide, by decide, rfl, by decide +kernel⟩

/-- **C66 fails for paths with tabs.** The rest of such a path is read as a counter: a file called
`a<tab>w9` makes the monitor show nine warnings. -/
theorem C66_tab_violated :
    (strToCntr (toStr init (bytes "pc") 1234 7 2 (bytes "/a\tw9")) ⟨true, init, 0, 0, 0, none⟩).map
      (fun r => (r.path, (r.ent Cmd.warning.toByte).count)) = some (some (bytes "/a"), 9) := by decide +kernel

/-- **C66.** Whatever the path is, the process, the backup and the status are read as they were sent. -/
theorem C66_status (c : Cntr) (cname : Str) (hc : Plain cname) (pid bno status : Nat)
    (hp : pid < 2 ^ 31) (hb : bno < 2 ^ 31) (hs : status < 10) (path : Str) (r : Reader) :
    ∃ r', strToCntr (toStr c cname pid bno status path) r = some r'
      ∧ r'.pid = pid ∧ r'.bno = bno ∧ r'.status = status := by
  have ht := header_tokens cname hc pid bno status ((table.map (entStr c)).flatten ++ pathStr path)
  rw [← toStr_eq c cname pid bno status hp hb hs] at ht
  refine ⟨_, strToCntr_words ht (by decide) r, ?_, ?_, ?_⟩
  · rw [(foldl_status _ _).2.1, clientPidBno_header]
  · rw [(foldl_status _ _).2.2, clientPidBno_header]
  · rw [(foldl_status _ _).1, atoi_decimal]

/-- **C66.** The main process takes a child to be scanning or backing up exactly if the child says so,
whatever the path it is at, so the number of working children is right. -/
theorem C66_working (l : List (Cntr × Str × Nat × Nat × Nat × Str × Int))
    (h : ∀ x ∈ l, Plain x.2.1 ∧ x.2.2.1 < 2 ^ 31 ∧ x.2.2.2.1 < 2 ^ 31 ∧ x.2.2.2.2.1 < 10) :
    working (l.map (fun x => childStatus (toStr x.1 x.2.1 x.2.2.1 x.2.2.2.1 x.2.2.2.2.1 x.2.2.2.2.2.1) x.2.2.2.2.2.2))
      = (l.filter (fun x => x.2.2.2.2.1 = 1 ∨ x.2.2.2.2.1 = 2)).length := by
  induction l with
  | nil => rfl
  | cons x l ih =>
    obtain ⟨c, cname, pid, bno, status, path, old⟩ := x
    obtain ⟨hc, hp, hb, hs⟩ := h _ (List.mem_cons_self ..)
    have ih := ih fun y hy => h y (List.mem_cons_of_mem _ hy)
    have e : childStatus (toStr c cname pid bno status path) old = status := by
      obtain ⟨r', e, -, -, hs'⟩ := C66_status c cname hc pid bno status hp hb hs path ⟨false, init, 0, 0, 0, none⟩
      unfold childStatus
      rw [if_pos, e]
      · exact hs'
      · rw [toStr_eq c cname pid bno status hp hb hs]
        rfl
    unfold working at ih ⊢
    simp only [List.map_cons, List.filter_cons, e]
    have hi : (decide ((status : Int) = 1 ∨ (status : Int) = 2)) = decide (status = 1 ∨ status = 2) := by
      simp only [decide_eq_decide]
      omega
    rw [hi]
    split
    · simp only [List.length_cons, ih]
    · exact ih

end Verif
