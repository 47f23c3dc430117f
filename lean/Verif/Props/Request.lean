import Verif.Spec.Request
import Verif.Props.RunAction
import Verif.Props.RestoreSelect
import Verif.Props.Diff
import Verif.Props.Retention

/-!
# C77: the server does what the user has asked for
-/

namespace Verif.Request
open Verif RunAction

theorem fit_of {n : Nat} {s : Str} (h : s.length < n) : fit n s = s := by
  unfold fit
  exact List.take_of_length_le (by omega)

theorem cut_colon {p t : Str} (hp : NoColon p) : cutColon (p ++ 58 :: t) = (p, some t) := by
  rw [cutColon_append p _ hp]
  simp [cutColon]

theorem noColon_append {p q : Str} (hp : NoColon p) (hq : NoColon q) : NoColon (p ++ q) := by
  unfold NoColon at *
  simp [hp, hq]

theorem stripRev_idem : ∀ s : Str, Seed.stripRev (Seed.stripRev s) = Seed.stripRev s
  | [] => rfl
  | [_] => rfl
  | c :: d :: r => by
    rw [Seed.stripRev]
    split
    · exact stripRev_idem (d :: r)
    · rename_i h
      rw [Seed.stripRev, if_neg h]

theorem stripRev_length : ∀ s : Str, (Seed.stripRev s).length ≤ s.length
  | [] => Nat.le_refl _
  | [_] => Nat.le_refl _
  | c :: d :: r => by
    rw [Seed.stripRev]
    split
    · exact Nat.le_succ_of_le (stripRev_length (d :: r))
    · exact Nat.le_refl _

theorem strip_idem (s : Str) : Seed.stripTrailing (Seed.stripTrailing s) = Seed.stripTrailing s := by
  unfold Seed.stripTrailing
  rw [List.reverse_reverse, stripRev_idem]

theorem strip_length (s : Str) : (Seed.stripTrailing s).length ≤ s.length := by
  unfold Seed.stripTrailing
  have := stripRev_length s.reverse
  simpa using this

theorem runAction_main {c : Conf} {e : Env} (hm : e.mkpath = true) (buf : Str) :
    (runAction c e true buf).1.filter isMain = (dispatch c e buf).1.filter isMain ∧
      (runAction c e true buf).2 = (dispatch c e buf).2 := by
  unfold runAction
  rw [hm]
  exact ⟨rfl, rfl⟩

theorem served_list {c : Conf} {e : Env} (hw : Works e) (b r : Str) (hb : NoColon b) :
    (dispatch c e (bytes "list " ++ b ++ 58 :: r)).1.filter isMain =
      if c.canList then [.listed (some b) (some r) none] else [] := by
  have h1 : begins (bytes "list " ++ b ++ 58 :: r) (bytes "list ") = true :=
    (begins_iff _ _).2 ⟨b ++ 58 :: r, by rw [List.append_assoc]⟩
  have h2 : cutColon (bytes "list " ++ b ++ 58 :: r) = (bytes "list " ++ b, some r) :=
    cut_colon (noColon_append (by unfold NoColon; decide) hb)
  unfold dispatch
  rw [h1, Bool.true_or, if_pos rfl]
  unfold runList listArgs
  rw [hw.sent, h1, h2]
  cases c.canList <;> rfl

theorem served_browse {c : Conf} {e : Env} (hw : Works e) (b d : Str) (hb : NoColon b) :
    (dispatch c e (bytes "listb " ++ b ++ 58 :: d)).1.filter isMain =
      if c.canList then [.listed (some b) none (some (Seed.stripTrailing d))] else [] := by
  have h0 : begins (bytes "listb " ++ b ++ 58 :: d) (bytes "list ") = false := rfl
  have h1 : begins (bytes "listb " ++ b ++ 58 :: d) (bytes "listb ") = true :=
    (begins_iff _ _).2 ⟨b ++ 58 :: d, by rw [List.append_assoc]⟩
  have h2 : cutColon (bytes "listb " ++ b ++ 58 :: d) = (bytes "listb " ++ b, some d) :=
    cut_colon (noColon_append (by unfold NoColon; decide) hb)
  unfold dispatch
  rw [h1, Bool.or_true, if_pos rfl]
  unfold runList listArgs
  rw [hw.sent, h0, h1, h2]
  cases c.canList <;> rfl

theorem served_diff {c : Conf} {e : Env} (hw : Works e) (b d : Str) (hb : NoColon b) :
    (dispatch c e (bytes "diff " ++ b ++ 58 :: d)).1.filter isMain =
      if c.canDiff then [.diffed (some b) (some d)] else [] := by
  have h0 : (begins (bytes "diff " ++ b ++ 58 :: d) (bytes "list ") || begins (bytes "diff " ++ b ++ 58 :: d) (bytes "listb "))
    = false := rfl
  have h1 : begins (bytes "diff " ++ b ++ 58 :: d) (bytes "diff ") = true :=
    (begins_iff _ _).2 ⟨b ++ 58 :: d, by rw [List.append_assoc]⟩
  have h2 : cutColon (bytes "diff " ++ b ++ 58 :: d) = (bytes "diff " ++ b, some d) :=
    cut_colon (noColon_append (by unfold NoColon; decide) hb)
  unfold dispatch
  rw [h0, if_neg Bool.false_ne_true, h1, if_pos rfl]
  unfold runDiff diffArgs
  rw [hw.sent, h1, h2]
  cases c.canDiff <;> rfl

theorem served_delete {c : Conf} {e : Env} (hw : Works e) (b : Str) :
    (dispatch c e (bytes "Delete " ++ b)).1.filter isMain = if c.canDelete then [.deleted b] else [] := by
  have h1 : begins (bytes "Delete " ++ b) (bytes "Delete ") = true := (begins_iff _ _).2 ⟨b, rfl⟩
  obtain ⟨r, hr⟩ := hw.rubble
  have h2 : dispatch c e (bytes "Delete " ++ b) =
      (.locked :: .recovered :: (runDelete c (bytes "Delete " ++ b)).1, (runDelete c (bytes "Delete " ++ b)).2) := by
    show (if !begins (bytes "Delete " ++ b) (bytes "backup") && !begins (bytes "Delete " ++ b) (bytes "Delete ") then _ else _) = _
    rw [h1, hw.lock, hr]
    rfl
  rw [h2]
  unfold runDelete
  cases c.canDelete <;> rfl

/-- The part of a request after the word. -/
theorem parse_rest {w b r : Str} {l : Bool} (hw : w = bytes "restore" ∨ w = bytes "verify") (hb : NoColon b)
    (hl : l = false → ¬ bytes "restore_list " <+: b) :
    parseRestore (w ++ (if l then bytes " restore_list" else []) ++ space :: b ++ 58 :: r) =
      some (decide (w = bytes "restore"), l, b, noEmpty (some r)) := by
  have key : ∀ (cp : Str), cp = (if l then bytes "restore_list " else []) ++ b ++ 58 :: r →
      begins cp (bytes "restore_list ") = l ∧ (if l then cp.drop 13 else cp) = b ++ 58 :: r := by
    rintro cp rfl
    cases l with
    | true => exact ⟨(begins_iff _ _).2 ⟨b ++ 58 :: r, by simp⟩, by simp; rfl⟩
    | false =>
      refine ⟨?_, by simp⟩
      cases hx : begins ((if false = true then bytes "restore_list " else []) ++ b ++ 58 :: r) (bytes "restore_list ") with
      | false => rfl
      | true =>
        exfalso
        have hx := (begins_iff _ _).1 hx
        rw [if_neg Bool.false_ne_true, List.nil_append] at hx
        rcases Nat.le_total (bytes "restore_list ").length b.length with hle | hle
        · exact hl rfl (List.prefix_of_prefix_length_le hx (List.prefix_append _ _) hle)
        · rcases Nat.eq_or_lt_of_le hle with he | hlt
          · exact hl rfl (List.prefix_of_prefix_length_le hx (List.prefix_append _ _) (by omega))
          · have h1 : b ++ [58] <+: bytes "restore_list " := by
              refine List.prefix_of_prefix_length_le (l₃ := b ++ 58 :: r) ?_ hx (by simp; omega)
              exact ⟨r, by simp⟩
            have h2 : (58 : Byte) ∈ bytes "restore_list " := h1.subset (by simp)
            revert h2; decide
  have hcp : ∃ t, (w ++ (if l then bytes " restore_list" else []) ++ space :: b ++ 58 :: r) = w ++ space :: t ∧
      t = (if l then bytes "restore_list " else []) ++ b ++ 58 :: r := by
    cases l with
    | true =>
      refine ⟨_, ?_, rfl⟩
      rw [if_pos rfl, if_pos rfl, show bytes " restore_list" = space :: bytes "restore_list" from rfl,
        show bytes "restore_list " = bytes "restore_list" ++ [space] from rfl]
      simp
    | false => exact ⟨_, by simp, rfl⟩
  obtain ⟨t, e1, e2⟩ := hcp
  obtain ⟨k1, k2⟩ := key t e2
  rw [e1]
  have hd : ((w ++ space :: t).dropWhile (· ≠ space)).drop 1 = t := by
    rcases hw with rfl | rfl <;> rfl
  unfold parseRestore
  simp only [hd, k1, k2]
  rw [cut_colon hb]
  rcases hw with rfl | rfl <;> rfl

theorem served_restore {c : Conf} {e : Env} (hw : Works e) (b r : Str) (l : Bool) (hb : NoColon b)
    (hl : l = false → ¬ bytes "restore_list " <+: b) :
    (dispatch c e (bytes "restore" ++ (if l then bytes " restore_list" else []) ++ space :: b ++ 58 :: r)).1.filter isMain =
      if c.canRestore || e.restoreFile then [.restored b (noEmpty (some r)) l] else [] := by
  have hp := parse_rest (w := bytes "restore") (r := r) (Or.inl rfl) hb hl
  have h2 : dispatch c e (bytes "restore" ++ (if l then bytes " restore_list" else []) ++ space :: b ++ 58 :: r) =
      ((runRestore c e (bytes "restore" ++ (if l then bytes " restore_list" else []) ++ space :: b ++ 58 :: r)).1 ++ [.removedList],
       (runRestore c e (bytes "restore" ++ (if l then bytes " restore_list" else []) ++ space :: b ++ 58 :: r)).2) := by
    cases l <;> rfl
  rw [h2]
  unfold runRestore
  rw [hp]
  simp only [hw.sent, hw.received]
  cases c.canRestore <;> cases e.restoreFile <;> cases l <;> rfl

theorem served_verify {c : Conf} {e : Env} (hw : Works e) (b r : Str) (l : Bool) (hb : NoColon b)
    (hl : l = false → ¬ bytes "restore_list " <+: b) :
    (dispatch c e (bytes "verify" ++ (if l then bytes " restore_list" else []) ++ space :: b ++ 58 :: r)).1.filter isMain =
      if c.canVerify then [.verified b (noEmpty (some r)) l] else [] := by
  have hp := parse_rest (w := bytes "verify") (r := r) (Or.inr rfl) hb hl
  have h2 : dispatch c e (bytes "verify" ++ (if l then bytes " restore_list" else []) ++ space :: b ++ 58 :: r) =
      ((runRestore c e (bytes "verify" ++ (if l then bytes " restore_list" else []) ++ space :: b ++ 58 :: r)).1 ++ [.removedList],
       (runRestore c e (bytes "verify" ++ (if l then bytes " restore_list" else []) ++ space :: b ++ 58 :: r)).2) := by
    cases l <;> rfl
  rw [h2]
  unfold runRestore
  rw [hp]
  simp only [hw.sent, hw.received]
  cases c.canVerify <;> cases e.restoreFile <;> cases l <;> rfl

theorem given_getD (r : Option Str) : noEmpty (some (r.getD [])) = given r := by
  cases r with
  | none => rfl
  | some r => cases r <;> rfl

theorem nodup_inj {A B : Type} {f : A → B} : ∀ {l : List A}, (l.map f).Nodup → ∀ {x y : A}, x ∈ l → y ∈ l → f x = f y → x = y
  | [], _, _, _, hx, _, _ => by cases hx
  | a :: l, h, x, y, hx, hy, e => by
    rw [List.map_cons, List.nodup_cons] at h
    rcases List.mem_cons.1 hx with h1 | h1 <;> rcases List.mem_cons.1 hy with h2 | h2
    · rw [h1, h2]
    · exact absurd (List.mem_map.2 ⟨y, h2, by rw [← e, h1]⟩) h.1
    · exact absurd (List.mem_map.2 ⟨x, h1, by rw [e, h2]⟩) h.1
    · exact nodup_inj h.2 h1 h2 e

theorem filterMap_main {B : Type} (f : Effect → Option B) (h : ∀ x, isMain x = false → f x = none) (l : List Effect) :
    l.filterMap f = (l.filter isMain).filterMap f := by
  induction l with
  | nil => rfl
  | cons x l ih =>
    cases hx : isMain x with
    | true => rw [List.filter_cons_of_pos hx, List.filterMap_cons, List.filterMap_cons, ih]
    | false =>
      rw [List.filter_cons_of_neg (by rw [hx]; exact Bool.false_ne_true), List.filterMap_cons, h x hx, ih]

theorem chosen_main (l : List Restore.Bak) (x : Effect) (h : isMain x = false) : chosen l x = none := by
  cases x <;> first | rfl | cases h

theorem seen_main (l : List Bu) (x : Effect) (h : isMain x = false) : seen l x = none := by
  cases x <;> first | rfl | cases h

theorem compared_main (l : List Restore.Bak) (x : Effect) (h : isMain x = false) : compared l x = none := by
  cases x <;> first | rfl | cases h

theorem removedBy_main (l : List Retention.Named) (x : Effect) (h : isMain x = false) : removedBy l x = none := by
  cases x <;> first | rfl | cases h

theorem number_noColon {n : Str} (hn : IsNumber n) : NoColon n := by
  intro h
  have := hn.2.1 _ h
  revert this; decide

theorem number_noList {n : Str} (hn : IsNumber n) : ¬ bytes "restore_list " <+: n := by
  intro h
  have := hn.2.1 114 (h.subset (by decide))
  revert this; decide

theorem plain_number {a : Args} {n : Str} (hn : IsNumber n) (hb : a.backup = some n) : Plain a := by
  refine ⟨fun _ => ?_, fun _ => ?_⟩ <;> rw [hb]
  · exact number_noColon hn
  · exact number_noList hn

theorem requestNumber_eq {n : Str} (hn : IsNumber n) : Restore.requestNumber n = decimal n := by
  have := requestNumber_digits n [] hn (by simp)
  rwa [List.append_nil] at this

theorem strtoul_eq {n : Str} (hn : IsNumber n) : BackupNumber.strtoul n = decimal n := by
  have h := requestNumber_eq hn
  rw [← h]
  unfold Restore.requestNumber
  obtain ⟨h1, h2, _⟩ := hn
  cases n with
  | nil => exact absurd rfl h1
  | cons c n =>
    rw [List.dropWhile_cons_of_neg]
    have := h2 c (by simp)
    simp only [Bool.or_eq_true, Bool.and_eq_true, decide_eq_true_eq, UInt8.le_iff_toNat_le, ← UInt8.toNat_inj]
    have e1 : (32 : UInt8).toNat = 32 := rfl
    have e2 : (9 : UInt8).toNat = 9 := rfl
    have e3 : (13 : UInt8).toNat = 13 := rfl
    omega

end Verif.Request

namespace Verif
open Verif.Request Verif.RunAction

/-- C77: for all options that make sense, are not too long and name a backup plainly, the server does exactly what was
asked for if the client is allowed to, and nothing otherwise. -/
theorem C77_asked_partial (c : Conf) (e : Env) (hw : Works e) (a : Args) (hs : Sensible a) (hp : Plain a) (hl : Short a) :
    ∃ d, served c e a = some d ∧ d.1.filter isMain = if permitted c e a.want then [asked a] else [] := by
  obtain ⟨hs1, hs2⟩ := hs
  obtain ⟨hp1, hp2⟩ := hp
  unfold Short size at hl
  have lift : ∀ buf x, (dispatch c e buf).1.filter isMain = x →
      ∃ d, some (runAction c e true buf) = some d ∧ d.1.filter isMain = x :=
    fun buf x h => ⟨_, rfl, (runAction_main hw.mkpath buf).1.trans h⟩
  rcases a with ⟨want, b, b2, r, d, l⟩
  dsimp only at *
  cases want with
  | restore =>
    rw [if_neg (by decide)] at hl
    have hb : NoColon (b.getD (bytes "0")) := by
      cases b with
      | none => unfold NoColon; decide
      | some b => exact hp1 (by decide)
    have hb2 : l = false → ¬ bytes "restore_list " <+: b.getD (bytes "0") := by
      intro h
      cases b with
      | none => decide
      | some b => exact hp2 h
    have hlen : (b.getD (bytes "0")).length ≤ (b.getD []).length + 1 := by cases b <;> simp [bytes]
    have hf : fit 512 (bytes "restore" ++ (if l then bytes " restore_list" else []) ++ space :: b.getD (bytes "0") ++
        58 :: r.getD []) = _ := fit_of (by
      have : (if l then bytes " restore_list" else []).length ≤ 13 := by cases l <;> decide
      have h7 : (bytes "restore").length = 7 := rfl
      simp only [List.length_append, List.length_cons]
      omega)
    have h := served_restore (c := c) hw _ (r.getD []) l hb hb2
    rw [given_getD] at h
    obtain ⟨x, hx, hy⟩ := lift _ _ h
    refine ⟨x, ?_, hy⟩
    rw [← hx, ← hf]
    rfl
  | verify =>
    rw [if_neg (by decide)] at hl
    have hb : NoColon (b.getD (bytes "0")) := by
      cases b with
      | none => unfold NoColon; decide
      | some b => exact hp1 (by decide)
    have hb2 : l = false → ¬ bytes "restore_list " <+: b.getD (bytes "0") := by
      intro h
      cases b with
      | none => decide
      | some b => exact hp2 h
    have hlen : (b.getD (bytes "0")).length ≤ (b.getD []).length + 1 := by cases b <;> simp [bytes]
    have hf : fit 512 (bytes "verify" ++ (if l then bytes " restore_list" else []) ++ space :: b.getD (bytes "0") ++
        58 :: r.getD []) = _ := fit_of (by
      have : (if l then bytes " restore_list" else []).length ≤ 13 := by cases l <;> decide
      have h7 : (bytes "verify").length = 6 := rfl
      simp only [List.length_append, List.length_cons]
      omega)
    have h := served_verify (c := c) hw _ (r.getD []) l hb hb2
    rw [given_getD] at h
    obtain ⟨x, hx, hy⟩ := lift _ _ h
    refine ⟨x, ?_, hy⟩
    rw [← hx, ← hf]
    rfl
  | list =>
    rw [if_neg (by decide)] at hl
    have hb : NoColon (b.getD []) := hp1 (by decide)
    cases d with
    | some d =>
      have hr : r = none := by
        rcases hs2 rfl with h | h
        · cases h
        · exact h
      subst hr
      have hst := strip_length d
      have hf : fit 512 (bytes "listb " ++ b.getD [] ++ 58 :: Seed.stripTrailing d) = _ := fit_of (by
        have h7 : (bytes "listb ").length = 6 := rfl
        simp only [List.length_append, List.length_cons, Option.getD_some] at *
        omega)
      have h := served_browse (c := c) hw _ (Seed.stripTrailing d) hb
      rw [strip_idem] at h
      obtain ⟨x, hx, hy⟩ := lift _ _ h
      refine ⟨x, ?_, hy⟩
      rw [← hx, ← hf]
      rfl
    | none =>
      have hf : fit 512 (bytes "list " ++ b.getD [] ++ 58 :: r.getD []) = _ := fit_of (by
        have h7 : (bytes "list ").length = 5 := rfl
        simp only [List.length_append, List.length_cons] at *
        omega)
      have h := served_list (c := c) hw _ (r.getD []) hb
      obtain ⟨x, hx, hy⟩ := lift _ _ h
      refine ⟨x, ?_, hy⟩
      rw [← hx, ← hf]
      cases r <;> rfl
  | diff =>
    rw [if_neg (by decide)] at hl
    have hb : NoColon (b.getD (bytes "0")) := by
      cases b with
      | none => unfold NoColon; decide
      | some b => exact hp1 (by decide)
    have hlen : (b.getD (bytes "0")).length ≤ (b.getD []).length + 1 := by cases b <;> simp [bytes]
    have hlen2 : (b2.getD (bytes "n")).length ≤ (b2.getD []).length + 1 := by cases b2 <;> simp [bytes]
    have hf : fit 512 (bytes "diff " ++ b.getD (bytes "0") ++ 58 :: b2.getD (bytes "n")) = _ := fit_of (by
      have h7 : (bytes "diff ").length = 5 := rfl
      simp only [List.length_append, List.length_cons] at *
      omega)
    have h := served_diff (c := c) hw _ (b2.getD (bytes "n")) hb
    obtain ⟨x, hx, hy⟩ := lift _ _ h
    refine ⟨x, ?_, hy⟩
    rw [← hx, ← hf]
    rfl
  | delete =>
    rw [if_pos rfl] at hl
    cases b with
    | none => exact absurd rfl (hs1 rfl)
    | some b =>
      have hf : fit 128 (bytes "Delete " ++ b) = _ := fit_of (by
        have h7 : (bytes "Delete ").length = 7 := rfl
        simp only [List.length_append, Option.getD_some] at *
        omega)
      have h := served_delete (c := c) hw b
      obtain ⟨x, hx, hy⟩ := lift _ _ h
      refine ⟨x, ?_, hy⟩
      rw [← hx, ← hf]
      rfl

/-- C77: naming the number of a backup restores, or verifies, that backup and no other, with the expression that was
given; and no backup if none has that number. -/
theorem C77_number (c : Conf) (e : Env) (hw : Works e) (a : Args) (hr : a.want = .restore ∨ a.want = .verify)
    (hp : permitted c e a.want = true) (n : Str) (hn : IsNumber n) (h0 : decimal n ≠ 0) (hb : a.backup = some n)
    (hl : Short a) (l : List Restore.Bak) (hg : GoodList l) :
    ∃ d, served c e a = some d ∧
      d.1.filterMap (chosen l) = [(decide (a.want = .restore), l.filter (fun b => b.bno = decimal n), given a.regex)] := by
  have hs : Sensible a := ⟨fun h => by rw [h] at hr; simp at hr, fun h => by rw [h] at hr; simp at hr⟩
  obtain ⟨d, h1, h2⟩ := C77_asked_partial c e hw a hs (plain_number hn hb) hl
  refine ⟨d, h1, ?_⟩
  rw [hp, if_pos rfl] at h2
  rw [filterMap_main _ (chosen_main l), h2]
  have hsel : Restore.select (some n) l = l.filter (fun b => b.bno = decimal n) := by
    obtain ⟨c1, c2⟩ := C32_number l hg n hn h0
    by_cases hx : ∃ b ∈ l, b.bno = decimal n
    · obtain ⟨b, hb, he⟩ := hx
      rw [c1 b hb he]
      have := hg.nodup
      clear c1 c2 hg h2
      induction l with
      | nil => cases hb
      | cons y l ih =>
        rw [List.map_cons, List.nodup_cons] at this
        rcases List.mem_cons.1 hb with rfl | hb
        · rw [List.filter_cons_of_pos (by simpa using he), List.filter_eq_nil_iff.2]
          intro z hz hc
          refine this.1 (List.mem_map.2 ⟨z, hz, ?_⟩)
          rw [he]; simpa using hc
        · rw [List.filter_cons_of_neg, ← ih hb this.2]
          intro hc
          refine this.1 (List.mem_map.2 ⟨b, hb, ?_⟩)
          rw [he]; simpa using Eq.symm (by simpa using hc)
    · rw [c2 (fun b hb he => hx ⟨b, hb, he⟩), List.filter_eq_nil_iff.2]
      intro z hz hc
      exact hx ⟨z, hz, by simpa using hc⟩
  unfold asked
  rcases hr with h | h <;> rw [h] <;> simp [chosen, hb, hsel]

/-- C77: if no backup is named, the most recent is restored or verified. -/
theorem C77_latest (c : Conf) (e : Env) (hw : Works e) (a : Args) (hr : a.want = .restore ∨ a.want = .verify)
    (hp : permitted c e a.want = true) (hb : a.backup = none) (hl : Short a) (l : List Restore.Bak) :
    ∃ d, served c e a = some d ∧
      d.1.filterMap (chosen l) = [(decide (a.want = .restore), l.getLast?.toList, given a.regex)] := by
  have hs : Sensible a := ⟨fun h => by rw [h] at hr; simp at hr, fun h => by rw [h] at hr; simp at hr⟩
  have hpl : Plain a := by
    refine ⟨fun _ => ?_, fun _ => ?_⟩ <;> rw [hb]
    · unfold NoColon; decide
    · decide
  obtain ⟨d, h1, h2⟩ := C77_asked_partial c e hw a hs hpl hl
  refine ⟨d, h1, ?_⟩
  rw [hp, if_pos rfl] at h2
  rw [filterMap_main _ (chosen_main l), h2]
  have hsel : Restore.select (some (bytes "0")) l = l.getLast?.toList := by
    unfold Restore.select
    exact if_pos (Or.inr (by decide))
  unfold asked
  rcases hr with h | h <;> rw [h] <;> simp [chosen, hb, hsel]

/-- C77: `a` restores, or verifies, all backups, oldest first. -/
theorem C77_all (c : Conf) (e : Env) (hw : Works e) (a : Args) (hr : a.want = .restore ∨ a.want = .verify)
    (hp : permitted c e a.want = true) (hb : a.backup = some (bytes "a")) (hl : Short a) (l : List Restore.Bak) :
    ∃ d, served c e a = some d ∧ d.1.filterMap (chosen l) = [(decide (a.want = .restore), l, given a.regex)] := by
  have hs : Sensible a := ⟨fun h => by rw [h] at hr; simp at hr, fun h => by rw [h] at hr; simp at hr⟩
  have hpl : Plain a := by
    refine ⟨fun _ => ?_, fun _ => ?_⟩ <;> rw [hb]
    · unfold NoColon; decide
    · decide
  obtain ⟨d, h1, h2⟩ := C77_asked_partial c e hw a hs hpl hl
  refine ⟨d, h1, ?_⟩
  rw [hp, if_pos rfl] at h2
  rw [filterMap_main _ (chosen_main l), h2]
  have hsel : Restore.select (some (bytes "a")) l = l := C32_all l []
  unfold asked
  rcases hr with h | h <;> rw [h] <;> simp [chosen, hb, hsel]

/-- C77: the two backups whose numbers are given are compared, in that order. -/
theorem C77_diff (c : Conf) (e : Env) (hw : Works e) (a : Args) (hr : a.want = .diff) (hp : c.canDiff = true)
    (n m : Str) (hn : IsNumber n) (hm : IsNumber m) (hb : a.backup = some n) (hb2 : a.backup2 = some m) (hl : Short a)
    (l : List Restore.Bak) (hg : GoodList l) (x y : Restore.Bak) (hx : x ∈ l) (hy : y ∈ l) (ex : x.bno = decimal n)
    (ey : y.bno = decimal m) (hxy : x.bno ≠ y.bno) :
    ∃ d, served c e a = some d ∧ d.1.filterMap (compared l) = [.go x y] := by
  have hs : Sensible a := ⟨fun h => (by rw [h] at hr; cases hr), fun h => (by rw [h] at hr; cases hr)⟩
  obtain ⟨d, h1, h2⟩ := C77_asked_partial c e hw a hs (plain_number hn hb) hl
  refine ⟨d, h1, ?_⟩
  rw [hr, show permitted c e .diff = true from hp, if_pos rfl] at h2
  rw [filterMap_main _ (compared_main l), h2]
  have hch : Diff.chooseBackups (·.bno) l (some n) (some m) = .go x y := by
    obtain ⟨_, _, _, _, _, px⟩ := hg.stamp x hx
    obtain ⟨_, _, _, _, _, py⟩ := hg.stamp y hy
    refine C43_backups_found _ _ _ _ x y hx hy ?_ ?_ hxy px py ?_
    · rw [Option.getD_some, strtoul_eq hn, ex]
    · rw [Option.getD_some, strtoul_eq hm, ey]
    · intro u hu v hv he
      exact nodup_inj hg.nodup hu hv he
  unfold asked
  rw [hr]
  simp [compared, hb, hb2, hch]

/-- C77: with neither a backup, an expression nor a directory, all the backups are named. -/
theorem C77_list_names (c : Conf) (e : Env) (hw : Works e) (a : Args) (hr : a.want = .list) (hp : c.canList = true)
    (hb : a.backup = none) (hx : given a.regex = none) (hd : a.browse = none) (hl : Short a) (l : List Bu) :
    ∃ d, served c e a = some d ∧ d.1.filterMap (seen l) = [if l = [] then .noBackups else .names l] := by
  have hs : Sensible a := ⟨fun h => (by rw [h] at hr; cases hr), fun _ => Or.inl hd⟩
  have hpl : Plain a := by
    refine ⟨fun _ => ?_, fun _ => ?_⟩ <;> rw [hb]
    · unfold NoColon; decide
    · decide
  obtain ⟨d, h1, h2⟩ := C77_asked_partial c e hw a hs hpl hl
  refine ⟨d, h1, ?_⟩
  rw [hr, show permitted c e .list = true from hp, if_pos rfl] at h2
  rw [filterMap_main _ (seen_main l), h2]
  have hx' : a.regex.getD [] = [] := by
    revert hx
    rcases a.regex with _ | _ | ⟨x, y⟩ <;> intro hx <;> first | rfl | cases hx
  unfold asked
  rw [hr, hd]
  simp only [hb, hx', Option.getD_none]
  rfl

/-- C77: with an expression or a directory but no backup, or with all, the contents of all the backups are listed. -/
theorem C77_list_contents (c : Conf) (e : Env) (hw : Works e) (a : Args) (hr : a.want = .list) (hp : c.canList = true)
    (hd : a.browse = none ∨ a.regex = none)
    (hb : a.backup = some (bytes "a") ∨ a.backup = none ∧ (given a.regex ≠ none ∨ a.browse ≠ none)) (hl : Short a)
    (l : List Bu) :
    ∃ d, served c e a = some d ∧ d.1.filterMap (seen l) = [if l = [] then .notFound else .contents l] := by
  have hs : Sensible a := ⟨fun h => (by rw [h] at hr; cases hr), fun _ => hd⟩
  have hpl : Plain a := by
    rcases hb with hb | ⟨hb, _⟩ <;> refine ⟨fun _ => ?_, fun _ => ?_⟩ <;> rw [hb] <;>
      first | decide | (unfold NoColon; decide)
  obtain ⟨d, h1, h2⟩ := C77_asked_partial c e hw a hs hpl hl
  refine ⟨d, h1, ?_⟩
  rw [hr, show permitted c e .list = true from hp, if_pos rfl] at h2
  rw [filterMap_main _ (seen_main l), h2]
  unfold asked
  rw [hr]
  rcases a with ⟨want, b, b2, r, br, rl⟩
  dsimp only at *
  rcases hb with rfl | ⟨rfl, hx⟩
  · cases br <;> rfl
  · cases br with
    | some t => rfl
    | none =>
      rcases hx with hx | hx
      · rcases r with _ | _ | ⟨x, r⟩
        · exact absurd rfl hx
        · exact absurd rfl hx
        · rfl
      · exact absurd rfl hx

/-- C77: with the number of a backup, the contents of that backup are listed, and if no backup has it the client is told. -/
theorem C77_list_number (c : Conf) (e : Env) (hw : Works e) (a : Args) (hr : a.want = .list) (hp : c.canList = true)
    (hd : a.browse = none ∨ a.regex = none) (n : Str) (hn : IsNumber n) (h0 : decimal n ≠ 0) (hb : a.backup = some n)
    (hl : Short a) (l : List Bu) (hg : GoodList (l.map Bu.bak)) :
    ∃ d, served c e a = some d ∧
      (∀ x ∈ l, x.bak.bno = decimal n → d.1.filterMap (seen l) = [.contents [x]]) ∧
      ((∀ x ∈ l, x.bak.bno ≠ decimal n) → d.1.filterMap (seen l) = [.notFound]) := by
  have hs : Sensible a := ⟨fun h => (by rw [h] at hr; cases hr), fun _ => hd⟩
  obtain ⟨d, h1, h2⟩ := C77_asked_partial c e hw a hs (plain_number hn hb) hl
  refine ⟨d, h1, ?_⟩
  rw [hr, show permitted c e .list = true from hp, if_pos rfl] at h2
  rw [filterMap_main _ (seen_main l), h2]
  have hq := requestNumber_eq hn
  have hc : PathCmp.deref n ≠ 99 := by
    obtain ⟨k1, k2, _⟩ := hn
    cases n with
    | nil => exact absurd rfl k1
    | cons c n =>
      have := k2 c (by simp)
      intro h
      have : c = 99 := h
      subst this
      revert k2
      have : ¬ ((99 : Byte).toNat ≤ 57) := by decide
      exact fun k2 => this (k2 99 (by simp)).2
  have hpred : ∀ x ∈ l, (decide (x.bak.timestamp = n) || decide (x.bak.bno = Restore.requestNumber n) ||
      (decide (PathCmp.deref n = 99) && x.current)) = decide (x.bak.bno = decimal n) := by
    intro x hx
    have hne : x.bak.timestamp ≠ n := by
      obtain ⟨m, rest, k, _⟩ := hg.stamp x.bak (List.mem_map_of_mem hx)
      intro he
      rw [k] at he
      have := hn.2.1 space (by rw [← he]; simp)
      revert this; decide
    rw [decide_eq_false hne, decide_eq_false hc, hq]
    simp
  have hone : listOne n l = l.find? (fun x => decide (x.bak.bno = decimal n)) := by
    unfold listOne
    clear hg h2
    induction l with
    | nil => rfl
    | cons y l ih =>
      rw [List.find?_cons, List.find?_cons, hpred y (by simp), ih (fun x hx => hpred x (by simp [hx]))]
  have hmode : ∀ r d, mode (some n) r d = .one := by
    intro r d
    unfold mode
    have : noEmpty (some n) = some n := by
      cases n with
      | nil => exact absurd rfl hn.1
      | cons c n => rfl
    rw [this]
    dsimp only
    rw [if_pos (by rw [hq]; omega)]
  have hsv : ∀ r d, listServer (some n) r d l = match listOne n l with
      | none => .notFound
      | some x => .contents [x] := by
    intro r d
    unfold listServer
    rw [hmode]
    rfl
  have has : (([asked a] : List Effect).filterMap (seen l)) = [match listOne n l with
      | none => Listing.notFound
      | some x => .contents [x]] := by
    unfold asked
    rw [hr]
    rcases a with ⟨want, b, b2, r, br, rl⟩
    dsimp only at *
    subst hb
    cases br <;> simp only [Option.getD_some, List.filterMap_cons, seen, hsv, List.filterMap_nil]
  rw [has, hone]
  constructor
  · intro x hx ex
    have : l.find? (fun x => decide (x.bak.bno = decimal n)) = some x := by
      cases hf : l.find? (fun x => decide (x.bak.bno = decimal n)) with
      | none => exact absurd (List.find?_eq_none.1 hf x hx) (by simp [ex])
      | some y =>
        have e1 := List.find?_some hf
        have e2 := List.mem_of_find?_eq_some hf
        have hnd := hg.nodup
        rw [List.map_map] at hnd
        have : y.bak.bno = x.bak.bno := by rw [ex]; simpa using e1
        rw [nodup_inj hnd e2 hx this]
    rw [this]
  · intro h
    have : l.find? (fun x => decide (x.bak.bno = decimal n)) = none :=
      List.find?_eq_none.2 (fun x hx => by simpa using h x hx)
    rw [this]

/-- C77: with `c`, the contents of the current backup are listed. -/
theorem C77_list_current (c : Conf) (e : Env) (hw : Works e) (a : Args) (hr : a.want = .list) (hp : c.canList = true)
    (hd : a.browse = none ∨ a.regex = none) (hb : a.backup = some (bytes "c"))
    (hl : Short a) (l : List Bu) (hg : GoodList (l.map Bu.bak)) (x : Bu) (hx : x ∈ l)
    (hcur : ∀ y ∈ l, y.current = true ↔ y = x) :
    ∃ d, served c e a = some d ∧ d.1.filterMap (seen l) = [.contents [x]] := by
  have hs : Sensible a := ⟨fun h => (by rw [h] at hr; cases hr), fun _ => hd⟩
  have hpl : Plain a := by
    refine ⟨fun _ => ?_, fun _ => ?_⟩ <;> rw [hb]
    · unfold NoColon; decide
    · decide
  obtain ⟨d, h1, h2⟩ := C77_asked_partial c e hw a hs hpl hl
  refine ⟨d, h1, ?_⟩
  rw [hr, show permitted c e .list = true from hp, if_pos rfl] at h2
  rw [filterMap_main _ (seen_main l), h2]
  have hone : listOne (bytes "c") l = some x := by
    unfold listOne
    have hpred : ∀ y ∈ l, (decide (y.bak.timestamp = bytes "c") || decide (y.bak.bno = Restore.requestNumber (bytes "c")) ||
        (decide (PathCmp.deref (bytes "c") = 99) && y.current)) = decide (y = x) := by
      intro y hy
      obtain ⟨m, rest, k, _, _, k4⟩ := hg.stamp y.bak (List.mem_map_of_mem hy)
      have h1 : y.bak.timestamp ≠ bytes "c" := by
        intro h
        have : space ∈ bytes "c" := by rw [← h, k]; simp
        revert this; decide
      have h2 : y.bak.bno ≠ Restore.requestNumber (bytes "c") := by
        have : Restore.requestNumber (bytes "c") = 0 := by decide
        omega
      have h3 : PathCmp.deref (bytes "c") = 99 := rfl
      rw [decide_eq_false h1, decide_eq_false h2, decide_eq_true h3, Bool.false_or, Bool.false_or, Bool.true_and]
      rw [Bool.eq_iff_iff, hcur y hy, decide_eq_true_eq]
    clear hg h2 hcur
    induction l with
    | nil => cases hx
    | cons y l ih =>
      rw [List.find?_cons, hpred y (by simp)]
      by_cases hyx : y = x
      · rw [decide_eq_true hyx, hyx]
      · rw [decide_eq_false hyx]
        rcases List.mem_cons.1 hx with h | h
        · exact absurd h.symm hyx
        · exact ih h (fun z hz => hpred z (by simp [hz]))
  unfold asked
  rw [hr]
  rcases a with ⟨want, b, b2, r, br, rl⟩
  dsimp only at *
  subst hb
  have hsv : ∀ r d, listServer (some (bytes "c")) r d l = match listOne (bytes "c") l with
      | none => .notFound
      | some x => .contents [x] := fun _ _ => rfl
  cases br <;> simp only [Option.getD_some, List.filterMap_cons, seen, hsv, hone, List.filterMap_nil]

/-- C77: a request to delete a backup by its number deletes at most that backup, and only if it may be deleted. -/
theorem C77_delete (c : Conf) (e : Env) (hw : Works e) (a : Args) (hr : a.want = .delete) (hp : c.canDelete = true)
    (n : Str) (hn : IsNumber n) (hb : a.backup = some n) (hl : Short a) (l : List Retention.Named)
    (hg : ∀ x ∈ l, space ∈ x.stamp) :
    ∃ d ans, served c e a = some d ∧ d.1.filterMap (removedBy l) = [ans] ∧
      ∀ x, ans = .removed x → x = decimal n ∧ ∃ y ∈ l, y.bu.bno = x ∧ Deletable (l.map Retention.Named.bu) y.bu := by
  have hs : Sensible a := ⟨fun _ => (by rw [hb]; simp), fun h => (by rw [h] at hr; cases hr)⟩
  obtain ⟨d, h1, h2⟩ := C77_asked_partial c e hw a hs (plain_number hn hb) hl
  rw [hr, show permitted c e .delete = true from hp, if_pos rfl] at h2
  refine ⟨d, Retention.deleteServer n (Restore.requestNumber n) l, h1, ?_, ?_⟩
  · rw [filterMap_main _ (removedBy_main l), h2]
    unfold asked
    rw [hr, hb]
    rfl
  · intro x hx
    obtain ⟨y, hy, h3, h4, h5⟩ := C21_delete_request _ _ _ _ hx
    refine ⟨?_, y, hy, h3, h5⟩
    rcases h4 with h4 | h4
    · have := hg y hy
      rw [h4] at this
      exact absurd (hn.2.1 _ this) (by decide)
    · rw [h4, requestNumber_eq hn]

/-- The server works and allows everything. -/
def exSrv : Conf := ⟨true, true, true, true, true, true, false, 1⟩
def exWorks : Env := ⟨true, false, true, true, .got, .ok false, 0, none, true⟩

/-- The hypotheses are met, for restoring part of backup 5. -/
example : Works exWorks ∧ permitted exSrv exWorks .restore = true ∧ IsNumber (bytes "5") ∧
    Short { want := .restore, backup := some (bytes "5"), regex := some (bytes "^/etc") } ∧
    (served exSrv exWorks { want := .restore, backup := some (bytes "5"), regex := some (bytes "^/etc") }).map
      (fun d => d.1.filterMap (chosen exList)) =
      some [(true, [⟨5, bytes "0000005 2026-01-01 00:00:00"⟩], some (bytes "^/etc"))] := by
  refine ⟨⟨rfl, rfl, rfl, rfl, false, rfl⟩, rfl, ⟨by decide, by decide, by decide⟩, ?_, ?_⟩
  · unfold Short; decide +kernel
  · decide +kernel

/-- Listing: the names, one backup, a directory in all of them, and a backup that does not exist. -/
example :
    let l := exList.map (fun b => ⟨b, b.bno == 12⟩)
    let see := fun a => (served exSrv exWorks a).map (fun d => d.1.filterMap (seen l))
    see { want := .list } = some [.names l] ∧
    see { want := .list, backup := some (bytes "12") } = some [.contents (l.drop 1)] ∧
    see { want := .list, browse := some (bytes "/etc//") } = some [.contents l] ∧
    see { want := .list, backup := some (bytes "c") } = some [.contents (l.drop 1)] ∧
    see { want := .list, backup := some (bytes "7") } = some [.notFound] := by decide +kernel

/-- C77 fails: a backup can be named by its time stamp, but there are colons in it, and the server cuts the request at the
first colon. The rest becomes the regular expression, so that only files whose names have `00:00:` in them are restored,
which is usually none. The same for listing, verifying and comparing. -/
theorem C77_stamp_violated :
    (served exSrv exWorks { want := .restore, backup := some (bytes "0000005 2026-01-01 00:00:00") }).map
      (fun d => d.1.filter isMain) =
      some [.restored (bytes "0000005 2026-01-01 00") (some (bytes "00:00:")) false] ∧
    (served exSrv exWorks { want := .list, backup := some (bytes "0000005 2026-01-01 00:00:00") }).map
      (fun d => d.1.filter isMain) =
      some [.listed (some (bytes "0000005 2026-01-01 00")) (some (bytes "00:00:")) none] := by decide +kernel

/-- C77 fails: a request has 511 bytes at most, and the end of a long regular expression is cut off without a word. It then
matches more than was asked for. -/
theorem C77_long_violated :
    (served exSrv exWorks ⟨.restore, some (bytes "5"), none, some (List.replicate 501 97 ++ bytes "/secret$"), none, false⟩).map (fun d => d.1.filter isMain) =
      some [.restored (bytes "5") (some (List.replicate 501 97)) false] := by decide +kernel

/-- C77 fails: something that is not a backup restores the most recent backup, but lists nothing. -/
theorem C77_junk_violated :
    (served exSrv exWorks { want := .restore, backup := some (bytes "yesterday") }).map (fun d => d.1.filterMap (chosen exList)) =
      some [(true, exList.drop 1, none)] ∧
    (served exSrv exWorks { want := .list, backup := some (bytes "yesterday") }).map
      (fun d => d.1.filterMap (seen (exList.map (fun b => ⟨b, false⟩)))) = some [.notFound] := by decide +kernel

end Verif
