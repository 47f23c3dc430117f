import Verif.Lemmas.ExtraMeta

/-!
# What is written about a file, and what is done with it
-/

namespace Verif.ExtraMeta
open Verif Verif.Iobuf

/-- A client with everything. -/
abbrev both : Build := ⟨true, true⟩

/-- The extended attributes that are kept. -/
def pairs (ha : Bool) (xs : List XAttr) : List (Str × Str) :=
  (xs.filter fun x => !(ha && inSkiplist x.name)).flatMap fun x => x.value.toList.map fun v => (x.name, v)

theorem pairs_cons (ha : Bool) (x : XAttr) (xs : List XAttr) :
    pairs ha (x :: xs) = (if ha && inSkiplist x.name then [] else x.value.toList.map fun v => (x.name, v)) ++ pairs ha xs := by
  unfold pairs
  cases h : (ha && inSkiplist x.name) with
  | false => rw [List.filter_cons_of_pos (by rw [h]; rfl), List.flatMap_cons, if_neg (by decide)]
  | true => rw [List.filter_cons_of_neg (by rw [h]; decide), if_pos rfl, List.nil_append]

theorem encX_append (a b : List (Str × Str)) : encX (a ++ b) = encX a ++ encX b := by simp [encX]

theorem toappend_pairs (ha : Bool) (xs : List XAttr) (hv : ∀ x ∈ xs, x.value.isSome) (acc : Option Str)
    (hs : (acc.getD []).length + (xs.map XAttr.size).sum ≤ maxlen) :
    getToappend ha xs acc = if pairs ha xs = [] then acc else some (acc.getD [] ++ encX (pairs ha xs)) := by
  induction xs generalizing acc with
  | nil => simp [getToappend, pairs]
  | cons x xs ih =>
    obtain ⟨v, hxv⟩ := Option.isSome_iff_exists.1 (hv x (by simp))
    have hsz : x.size = 16 + x.name.length + v.length := by simp [XAttr.size, hxv]
    simp only [List.map_cons, List.sum_cons] at hs
    rw [getToappend, if_neg (by unfold maxlen at *; omega), pairs_cons]
    by_cases hk : (ha && inSkiplist x.name) = true
    · rw [if_pos hk, if_pos hk, List.nil_append]
      exact ih (fun y hy => hv y (by simp [hy])) acc (by omega)
    · rw [if_neg hk, if_neg hk, hxv]
      simp only [Option.toList_some, List.map_cons, List.map_nil, List.singleton_append]
      have hn8 := hex08_length (n := x.name.length) (by unfold maxlen at *; omega)
      have hv8 := hex08_length (n := v.length) (by unfold maxlen at *; omega)
      have hl : (acc.getD [] ++ (hex08 x.name.length ++ x.name ++ hex08 v.length ++ v)).length =
          (acc.getD []).length + x.size := by simp [hn8, hv8, hsz]; omega
      rw [if_neg (by unfold maxlen at *; omega)]
      rw [if_neg (by rw [hl]; omega), ih (fun y hy => hv y (by simp [hy])) _ (by rw [Option.getD_some, hl]; omega)]
      rw [Option.getD_some, encX_cons]
      by_cases hp : pairs ha xs = []
      · rw [if_pos hp, if_neg (List.cons_ne_nil _ _), hp]; simp [encX]
      · rw [if_neg hp, if_neg (List.cons_ne_nil _ _)]; simp

theorem encX_size (ha : Bool) (xs : List XAttr) (hv : ∀ x ∈ xs, x.value.isSome)
    (hs : (xs.map XAttr.size).sum ≤ maxlen) :
    (encX (pairs ha xs)).length ≤ (xs.map XAttr.size).sum ∧
      ∀ p ∈ pairs ha xs, p.1.length < 2 ^ 32 ∧ p.2.length < 2 ^ 32 ∧ ∃ x ∈ xs, x.name = p.1 ∧ x.value = some p.2 := by
  induction xs with
  | nil => simp [pairs, encX]
  | cons x xs ih =>
    obtain ⟨v, hxv⟩ := Option.isSome_iff_exists.1 (hv x (by simp))
    have hsz : x.size = 16 + x.name.length + v.length := by simp [XAttr.size, hxv]
    simp only [List.map_cons, List.sum_cons] at hs
    obtain ⟨i1, i2⟩ := ih (fun y hy => hv y (by simp [hy])) (by omega)
    have hn8 := hex08_length (n := x.name.length) (by unfold maxlen at *; omega)
    have hv8 := hex08_length (n := v.length) (by unfold maxlen at *; omega)
    rw [pairs_cons]
    simp only [List.map_cons, List.sum_cons]
    by_cases hk : (ha && inSkiplist x.name) = true
    · rw [if_pos hk, List.nil_append]
      refine ⟨by omega, fun p hp => ?_⟩
      obtain ⟨a, b, y, hy, e⟩ := i2 p hp
      exact ⟨a, b, y, by simp [hy], e⟩
    · rw [if_neg hk, hxv]
      simp only [Option.toList_some, List.map_cons, List.map_nil, List.singleton_append]
      refine ⟨by rw [encX_cons]; simp [hn8, hv8]; omega, fun p hp => ?_⟩
      rcases List.mem_cons.1 hp with rfl | hp
      · exact ⟨by show x.name.length < _; unfold maxlen at *; omega,
          by show v.length < _; unfold maxlen at *; omega, x, by simp, rfl, hxv⟩
      · obtain ⟨a, b, y, hy, e⟩ := i2 p hp
        exact ⟨a, b, y, by simp [hy], e⟩

/-- The records of a file. -/
def recs (m : FileMeta) (isDir : Bool) : List (Byte × Str) :=
  (m.access.toList.map fun t => (metaAccess, t)) ++
    (if isDir then m.default.toList.map fun t => (metaDefault, t) else []) ++
    (if pairs (hasAcl m isDir) (m.xattrs.getD []) = [] then []
      else [(metaXattr, encX (pairs (hasAcl m isDir) (m.xattrs.getD [])))])

theorem getExtra_recs {m : FileMeta} {isDir : Bool} (h : Fits m) :
    getExtra both m isDir = if recs m isDir = [] then none
      else some ((recs m isDir).flatMap fun r => record r.1 r.2) := by
  obtain ⟨ha, hd, xs, hx, hv, hs⟩ := h
  have hcur : getAcl m isDir none =
      (let l := (m.access.toList.map fun t => (metaAccess, t)) ++
        (if isDir then m.default.toList.map fun t => (metaDefault, t) else [])
       if l = [] then none else some (l.flatMap fun r => record r.1 r.2)) ∧
      (getAcl m isDir none).isSome = hasAcl m isDir := by
    unfold getAcl getAclString hasAcl
    cases ea : m.access with
    | none =>
      cases isDir with
      | false => simp
      | true =>
        cases ed : m.default with
        | none => simp
        | some d => simp [Nat.not_lt.2 (hd d ed).1]
    | some t =>
      have hta := Nat.not_lt.2 (ha t ea).1
      cases isDir with
      | false => simp [hta]
      | true =>
        cases ed : m.default with
        | none => simp [hta]
        | some d => simp [hta, Nat.not_lt.2 (hd d ed).1]
  unfold getExtra getXattr recs
  simp only [if_true]
  rw [hcur.2, hx]
  simp only [Option.getD_some]
  rw [toappend_pairs _ xs (fun x hx => (hv x hx).2) none (by simpa using hs), hcur.1]
  by_cases hp : pairs (hasAcl m isDir) xs = []
  · rw [if_pos hp, if_pos hp]
    simp
  · rw [if_neg hp, if_neg hp]
    simp only [Option.getD_none, List.nil_append]
    generalize (m.access.toList.map fun t => (metaAccess, t)) ++
        (if isDir then m.default.toList.map fun t => (metaDefault, t) else []) = l
    by_cases hl : l = []
    · subst hl; simp
    · simp [hl]

theorem recs_ok {m : FileMeta} {isDir : Bool} (h : Fits m) : ∀ r ∈ recs m isDir, r.1 ≠ 0 ∧ r.2.length < 2 ^ 32 := by
  obtain ⟨ha, hd, xs, hx, hv, hs⟩ := h
  intro r hr
  unfold recs at hr
  rw [List.mem_append, List.mem_append] at hr
  rcases hr with (hr | hr) | hr
  · obtain ⟨t, ht, rfl⟩ := List.mem_map.1 hr
    have := (ha t (by simpa using ht)).1
    exact ⟨(by decide : metaAccess ≠ 0), by show t.length < _; unfold maxlen at *; omega⟩
  · split at hr
    · obtain ⟨t, ht, rfl⟩ := List.mem_map.1 hr
      have := (hd t (by simpa using ht)).1
      exact ⟨(by decide : metaDefault ≠ 0), by show t.length < _; unfold maxlen at *; omega⟩
    · cases hr
  · split at hr
    · cases hr
    · rw [List.mem_singleton] at hr
      subst hr
      rw [hx]
      have := (encX_size (hasAcl m isDir) xs (fun x hx => (hv x hx).2) hs).1
      exact ⟨(by decide : metaXattr ≠ 0), by show (encX (pairs _ xs)).length < _; unfold maxlen at *; omega⟩

/-- What is wanted: the control lists, and the extended attributes. -/
theorem wanted_eq (m : FileMeta) (isDir : Bool) : wanted m isDir =
    (m.access.toList.map (Act.acl false)) ++ (if isDir then m.default.toList.map (Act.acl true) else []) ++
      (pairs (hasAcl m isDir) (m.xattrs.getD [])).map fun p => Act.xattr p.1 p.2 := by
  unfold wanted pairs
  congr 1
  rw [List.map_flatMap]
  congr 1
  funext x
  simp

theorem setOne_access (ok : Act → Bool) {t : Str} (h : NoNul t) :
    setOne both ok metaAccess t = if ok (.acl false t) then ([.acl false t], true) else ([], false) := by
  have : (metaAccess == metaAccess) = true := by decide
  simp only [setOne, this, Bool.and_self, if_true, setAcl, cstr_noNul h]

theorem setOne_default (ok : Act → Bool) {t : Str} (h : NoNul t) :
    setOne both ok metaDefault t = if ok (.acl true t) then ([.acl true t], true) else ([], false) := by
  have h1 : (metaDefault == metaAccess) = false := by decide
  have : (metaDefault == metaDefault) = true := by decide
  simp only [setOne, h1, this, Bool.and_self, Bool.and_false, if_true, setAcl, cstr_noNul h, if_false,
    Bool.false_eq_true]

theorem setOne_xattr (ok : Act → Bool) (ps : List (Str × Str))
    (h : ∀ x ∈ ps, NoNul x.1 ∧ x.1.length < 2 ^ 32 ∧ x.2.length < 2 ^ 32) :
    setOne both ok metaXattr (encX ps) =
      ((ps.map fun x => Act.xattr x.1 x.2).takeWhile ok, ps.all fun x => ok (.xattr x.1 x.2)) := by
  have h1 : (metaXattr == metaAccess) = false := by decide
  have h2 : (metaXattr == metaDefault) = false := by decide
  have : (metaXattr == metaXattr) = true := by decide
  simp only [setOne, h1, h2, this, Bool.and_self, Bool.and_false, if_true, if_false, Bool.false_eq_true]
  exact setXattr_enc ok ps h _ (Nat.le_refl _)

/-- All that the records of a file lead to. -/
theorem set_recs {m : FileMeta} {isDir : Bool} (h : Fits m) (ok : Act → Bool) :
    ((recs m isDir).flatMap fun r => (setOne both ok r.1 r.2).1) =
      ((m.access.toList.map (Act.acl false)) ++ (if isDir then m.default.toList.map (Act.acl true) else [])).filter ok ++
        ((pairs (hasAcl m isDir) (m.xattrs.getD [])).map fun p => Act.xattr p.1 p.2).takeWhile ok ∧
    ((recs m isDir).all fun r => (setOne both ok r.1 r.2).2) = (wanted m isDir).all ok := by
  rw [wanted_eq]
  obtain ⟨ha, hd, xs, hx, hv, hs⟩ := h
  have hps : ∀ p ∈ pairs (hasAcl m isDir) xs, NoNul p.1 ∧ p.1.length < 2 ^ 32 ∧ p.2.length < 2 ^ 32 := by
    intro p hp
    obtain ⟨a, b, x, hx, e, _⟩ := (encX_size (hasAcl m isDir) xs (fun x hx => (hv x hx).2) hs).2 p hp
    exact ⟨e ▸ (hv x hx).1, a, b⟩
  have hX := setOne_xattr ok _ hps
  unfold recs
  rw [hx]
  simp only [Option.getD_some]
  generalize pairs (hasAcl m isDir) xs = ps at *
  have hlast : ((if ps = [] then [] else [(metaXattr, encX ps)]).flatMap fun r => (setOne both ok r.1 r.2).1) =
      (ps.map fun p => Act.xattr p.1 p.2).takeWhile ok ∧
      ((if ps = [] then [] else [(metaXattr, encX ps)]).all fun r => (setOne both ok r.1 r.2).2) =
        ps.all fun x => ok (.xattr x.1 x.2) := by
    by_cases hp : ps = []
    · subst hp; simp
    · rw [if_neg hp]; simp [hX]
  have hA : ((m.access.toList.map fun t => (metaAccess, t)).flatMap fun r => (setOne both ok r.1 r.2).1) =
      (m.access.toList.map (Act.acl false)).filter ok ∧
      ((m.access.toList.map fun t => (metaAccess, t)).all fun r => (setOne both ok r.1 r.2).2) =
        (m.access.toList.map (Act.acl false)).all ok := by
    cases ea : m.access with
    | none => simp
    | some t =>
      simp [setOne_access ok (ha t ea).2]
      by_cases ho : ok (.acl false t) = true <;> simp [ho]
  have hD : ((if isDir then m.default.toList.map fun t => (metaDefault, t) else []).flatMap
        fun r => (setOne both ok r.1 r.2).1) =
      (if isDir then m.default.toList.map (Act.acl true) else []).filter ok ∧
      ((if isDir then m.default.toList.map fun t => (metaDefault, t) else []).all
        fun r => (setOne both ok r.1 r.2).2) =
        (if isDir then m.default.toList.map (Act.acl true) else []).all ok := by
    cases isDir with
    | false => simp
    | true =>
      cases ed : m.default with
      | none => simp
      | some t =>
        simp [setOne_default ok (hd t ed).2]
        by_cases ho : ok (.acl true t) = true <;> simp [ho]
  constructor
  · rw [List.flatMap_append, List.flatMap_append, hA.1, hD.1, hlast.1, List.filter_append]
  · rw [List.all_append, List.all_append, hA.2, hD.2, hlast.2, List.all_append, List.all_append]
    congr 1
    rw [List.all_map]
    rfl

theorem setExtra_file {m : FileMeta} {isDir : Bool} (h : Fits m) {data : Str}
    (hg : getExtra both m isDir = some data) (ok : Act → Bool) :
    data = (recs m isDir).flatMap (fun r => record r.1 r.2) ∧
    setExtra both ok data = ((recs m isDir).flatMap fun r => (setOne both ok r.1 r.2).1,
      some ((recs m isDir).filter fun r => !(setOne both ok r.1 r.2).2).length) := by
  rw [getExtra_recs h] at hg
  split at hg
  · cases hg
  · injection hg with hg
    subst hg
    exact ⟨rfl, setExtra_records both ok _ (recs_ok h) _ (Nat.le_refl _)⟩

theorem recs_nil (m : FileMeta) (isDir : Bool) : recs m isDir = [] ↔ wanted m isDir = [] := by
  rw [wanted_eq]
  unfold recs
  simp only [List.append_eq_nil_iff, List.map_eq_nil_iff]
  constructor
  · rintro ⟨⟨a, b⟩, c⟩
    refine ⟨⟨a, ?_⟩, ?_⟩
    · cases isDir <;> simp_all
    · split at c
      · assumption
      · cases c
  · rintro ⟨⟨a, b⟩, c⟩
    refine ⟨⟨a, ?_⟩, ?_⟩
    · cases isDir <;> simp_all
    · rw [if_pos c]

/-- Setting one extended attribute after the other. -/
theorem foldl_xattr (ps : List (Str × Str)) (h : Has) (nd : (ps.map (·.1)).Nodup) :
    ((ps.map fun p => Act.xattr p.1 p.2).foldl Act.apply h).access = h.access ∧
    ((ps.map fun p => Act.xattr p.1 p.2).foldl Act.apply h).default = h.default ∧
    ∀ n, ((ps.map fun p => Act.xattr p.1 p.2).foldl Act.apply h).xattrs n =
      match ps.find? (fun p => p.1 = n) with
      | some p => some p.2
      | none => h.xattrs n := by
  induction ps generalizing h with
  | nil => exact ⟨rfl, rfl, fun n => rfl⟩
  | cons p ps ih =>
    rw [List.map_cons, List.nodup_cons] at nd
    obtain ⟨a, b, c⟩ := ih (Act.apply h (.xattr p.1 p.2)) nd.2
    rw [List.map_cons, List.foldl_cons]
    refine ⟨a, b, fun n => ?_⟩
    rw [c n]
    by_cases hn : p.1 = n
    · have : ps.find? (fun p => p.1 = n) = none := by
        rw [List.find?_eq_none]
        intro q hq he
        exact nd.1 (List.mem_map.2 ⟨q, hq, by simpa [hn] using he⟩)
      rw [this]
      simp [Act.apply, hn]
    · have hn' : ¬ n = p.1 := fun e => hn e.symm
      simp [Act.apply, hn, hn']

theorem pairs_find (ha : Bool) (xs : List XAttr) (hv : ∀ x ∈ xs, x.value.isSome) (n : Str) :
    ((pairs ha xs).find? (fun p => p.1 = n)).map (·.2) =
      if ha && inSkiplist n then none else
        match xs.find? (fun x => x.name = n) with
        | some x => x.value
        | none => none := by
  induction xs with
  | nil => simp [pairs]
  | cons x xs ih =>
    have ih := ih (fun y hy => hv y (by simp [hy]))
    obtain ⟨v, hxv⟩ := Option.isSome_iff_exists.1 (hv x (by simp))
    rw [pairs_cons]
    by_cases hn : x.name = n
    · subst hn
      by_cases hk : (ha && inSkiplist x.name) = true
      · rw [if_pos hk] at ih ⊢
        rw [if_pos hk, List.nil_append, ih]
      · rw [if_neg hk, if_neg hk, hxv]
        simp [hxv]
    · have : ((if ha && inSkiplist x.name then [] else x.value.toList.map fun v => (x.name, v)) ++ pairs ha xs).find?
          (fun p => p.1 = n) = (pairs ha xs).find? (fun p => p.1 = n) := by
        split
        · rfl
        · rw [hxv]; simp [hn]
      rw [this, ih, List.find?_cons_of_neg (by simpa using hn)]

theorem pairs_nodup (ha : Bool) (xs : List XAttr) (nd : (xs.map (·.name)).Nodup) :
    ((pairs ha xs).map (·.1)).Nodup := by
  induction xs with
  | nil => simp [pairs]
  | cons x xs ih =>
    rw [List.map_cons, List.nodup_cons] at nd
    rw [pairs_cons, List.map_append]
    split
    · exact ih nd.2
    · cases hv : x.value with
      | none => simpa using ih nd.2
      | some v =>
        simp only [Option.toList_some, List.map_cons, List.map_nil, List.singleton_append, List.nodup_cons]
        refine ⟨fun hm => nd.1 ?_, ih nd.2⟩
        obtain ⟨p, hp, e⟩ := List.mem_map.1 hm
        unfold pairs at hp
        obtain ⟨y, hy, hyp⟩ := List.mem_flatMap.1 hp
        obtain ⟨w, _, rfl⟩ := List.mem_map.1 hyp
        exact List.mem_map.2 ⟨y, (List.mem_filter.1 hy).1, e⟩

/-- The control lists, and then the attributes. -/
theorem fold_wanted (m : FileMeta) (isDir : Bool) (h : Has) :
    (wanted m isDir).foldl Act.apply h =
      ((pairs (hasAcl m isDir) (m.xattrs.getD [])).map fun p => Act.xattr p.1 p.2).foldl Act.apply
        ⟨m.access.or h.access, if isDir then m.default.or h.default else h.default, h.xattrs⟩ := by
  rw [wanted_eq, List.foldl_append, List.foldl_append]
  congr 1
  cases m.access <;> cases m.default <;> cases isDir <;> rfl

end Verif.ExtraMeta
