import Verif.Lemmas.ExtraMetaFile

/-!
# C81: access control lists and extended attributes
-/

namespace Verif
open Verif Verif.Iobuf Verif.ExtraMeta

/-- Something is written about a file exactly when there is something to be kept, and then the client has
noticed that it has to be asked for, unless it is switched off. -/
theorem C81_kept (m : FileMeta) (isDir : Bool) (h : Fits m) :
    ((getExtra both m isDir).isSome ↔ wanted m isDir ≠ []) ∧
    (wanted m isDir ≠ [] → hasExtra both true true m isDir = true) ∧
    hasExtra both false false m isDir = false := by
  refine ⟨?_, ?_, rfl⟩
  · rw [getExtra_recs h]
    split
    · rename_i hr
      simp [(recs_nil m isDir).1 hr]
    · rename_i hr
      simpa using fun e => hr ((recs_nil m isDir).2 e)
  · intro hw
    unfold hasExtra
    cases ha : hasAcl m isDir with
    | true => simp
    | false =>
      cases hx : hasXattr m with
      | true => simp
      | false =>
        exfalso
        apply hw
        unfold hasAcl at ha
        unfold hasXattr at hx
        rw [Bool.or_eq_false_iff] at ha
        have h1 : m.access = none := by simpa using ha.1
        have h2 : m.xattrs.getD [] = [] := by
          cases hxs : m.xattrs with
          | none => rfl
          | some l =>
            cases l with
            | nil => rfl
            | cons a l => rw [hxs] at hx; cases hx
        unfold wanted
        rw [h1, h2]
        cases isDir with
        | false => rfl
        | true =>
          have h3 : m.default = none := by simpa using ha.2
          rw [h3]; rfl

/-- What was written is done: when the system agrees to all of it, all that is wanted is set, in order, and no
error is counted. -/
theorem C81_all_set (m : FileMeta) (isDir : Bool) (h : Fits m) {data : Str}
    (hg : getExtra both m isDir = some data) (ok : Act → Bool) (ho : ∀ a ∈ wanted m isDir, ok a = true) :
    setExtra both ok data = (wanted m isDir, some 0) := by
  obtain ⟨_, he⟩ := setExtra_file h hg ok
  obtain ⟨h1, h2⟩ := set_recs (isDir := isDir) h ok
  have hall : (wanted m isDir).all ok = true := List.all_eq_true.2 ho
  rw [he, h1]
  congr 1
  · rw [wanted_eq] at ho ⊢
    congr 1
    · rw [List.filter_eq_self]
      intro a ha
      exact ho a (List.mem_append_left _ ha)
    · have : ∀ (l : List Act), (∀ a ∈ l, ok a = true) → l.takeWhile ok = l := by
        intro l
        induction l with
        | nil => intro _; rfl
        | cons a l ih => intro hl; rw [List.takeWhile_cons_of_pos (hl a (by simp)), ih fun b hb => hl b (by simp [hb])]
      exact this _ fun a ha => ho a (List.mem_append_right _ ha)
  · rw [hall] at h2
    rw [List.filter_eq_nil_iff.2]
    · rfl
    · intro r hr
      simpa using (List.all_eq_true.1 h2) r hr

/-- A new file gets what the old one had: the access control list, for a directory also the default one, and
every extended attribute with its value; an attribute that is only another form of a control list is set by
that. -/
theorem C81_restored (m : FileMeta) (isDir : Bool) (h : Fits m) (nd : ((m.xattrs.getD []).map (·.name)).Nodup)
    {data : Str} (hg : getExtra both m isDir = some data) (ok : Act → Bool)
    (ho : ∀ a ∈ wanted m isDir, ok a = true) :
    (restoreMeta both ok data bare).access = m.access ∧
    (restoreMeta both ok data bare).default = (if isDir then m.default else none) ∧
    ∀ n, (restoreMeta both ok data bare).xattrs n =
      if hasAcl m isDir ∧ (n = bytes "system.posix_acl_access" ∨ n = bytes "system.posix_acl_default") then none
      else valueOf m n := by
  unfold restoreMeta
  rw [C81_all_set m isDir h hg ok ho]
  simp only
  rw [fold_wanted]
  obtain ⟨_, _, xs, hx, hv, hs⟩ := h
  have nd' := pairs_nodup (hasAcl m isDir) _ nd
  obtain ⟨a, b, c⟩ := foldl_xattr _ ⟨m.access.or bare.access, if isDir then m.default.or bare.default else bare.default, bare.xattrs⟩ nd'
  refine ⟨by rw [a]; cases m.access <;> rfl, by rw [b]; cases isDir <;> cases m.default <;> rfl, fun n => ?_⟩
  rw [c n]
  have hp := pairs_find (hasAcl m isDir) (m.xattrs.getD []) (by rw [hx]; exact fun x hx => (hv x hx).2) n
  have hk : (hasAcl m isDir && inSkiplist n) = true ↔
      hasAcl m isDir ∧ (n = bytes "system.posix_acl_access" ∨ n = bytes "system.posix_acl_default") := by
    simp [inSkiplist]
  unfold valueOf
  by_cases hc : (hasAcl m isDir && inSkiplist n) = true
  · rw [if_pos (hk.1 hc)]
    rw [if_pos hc] at hp
    rw [Option.map_eq_none_iff.1 hp]
    rfl
  · rw [if_neg (fun e => hc (hk.2 e))]
    rw [if_neg hc] at hp
    refine Eq.trans ?_ hp
    cases (pairs (hasAcl m isDir) (m.xattrs.getD [])).find? (fun p => p.1 = n) with
    | none => rfl
    | some p => rfl

/-- Whatever the system refuses, nothing is set that was not there, a control list is set if the system
agrees, and the number of errors is 0 only if all that is wanted was set. -/
theorem C81_noticed (m : FileMeta) (isDir : Bool) (h : Fits m) {data : Str}
    (hg : getExtra both m isDir = some data) (ok : Act → Bool) :
    List.Sublist (setExtra both ok data).1 (wanted m isDir) ∧
    (∀ a ∈ (setExtra both ok data).1, ok a = true) ∧
    (∀ d t, Act.acl d t ∈ wanted m isDir → ok (.acl d t) = true → Act.acl d t ∈ (setExtra both ok data).1) ∧
    ∃ e, (setExtra both ok data).2 = some e ∧ (e = 0 ↔ ∀ a ∈ wanted m isDir, ok a = true) := by
  obtain ⟨_, he⟩ := setExtra_file h hg ok
  obtain ⟨h1, h2⟩ := set_recs (isDir := isDir) h ok
  have hw := wanted_eq m isDir
  rw [he]
  simp only
  refine ⟨?_, ?_, ?_, _, rfl, ?_⟩
  · rw [h1, hw]
    exact List.Sublist.append List.filter_sublist (List.takeWhile_sublist _)
  · intro a ha
    rw [h1] at ha
    rcases List.mem_append.1 ha with ha | ha
    · exact (List.mem_filter.1 ha).2
    · have : ∀ (l : List Act), ∀ a ∈ l.takeWhile ok, ok a = true := by
        intro l
        induction l with
        | nil => intro a ha; cases ha
        | cons b l ih =>
          intro a ha
          by_cases hb : ok b = true
          · rw [List.takeWhile_cons_of_pos hb] at ha
            rcases List.mem_cons.1 ha with rfl | ha
            · exact hb
            · exact ih a ha
          · rw [List.takeWhile_cons_of_neg hb] at ha; cases ha
      exact this _ a ha
  · intro d t hm ho
    rw [hw] at hm
    rw [h1]
    rcases List.mem_append.1 hm with hm | hm
    · exact List.mem_append_left _ (List.mem_filter.2 ⟨hm, ho⟩)
    · obtain ⟨p, _, e⟩ := List.mem_map.1 hm; cases e
  · have hl : ((recs m isDir).filter fun r => !(setOne both ok r.1 r.2).2).length = 0 ↔
        (wanted m isDir).all ok = true := by
      rw [← h2, List.length_eq_zero_iff, List.filter_eq_nil_iff, List.all_eq_true]
      simp
    rw [hl, List.all_eq_true]

/-- When what arrives is cut off anywhere, what is done is the beginning of what would have been done: no value
is cut off, and nothing else is set. -/
theorem C81_cut (m : FileMeta) (isDir : Bool) (h : Fits m) {data : Str}
    (hg : getExtra both m isDir = some data) (ok : Act → Bool) (k : Nat) :
    (setExtra both ok (data.take k)).1 <+: (setExtra both ok data).1 := by
  obtain ⟨e, he⟩ := setExtra_file h hg ok
  rw [he, e]
  unfold setExtra
  have : ∀ (l : Str) (k : Nat), l.take k = l.take (l.take k).length := by
    intro l k; rw [List.length_take]
    by_cases hk : k ≤ l.length
    · rw [Nat.min_eq_left hk]
    · rw [Nat.min_eq_right (by omega), List.take_of_length_le (by omega), List.take_length]
  generalize hj : (List.take k ((recs m isDir).flatMap fun r => record r.1 r.2)).length = j
  rw [this, hj]
  exact setExtra_cut both ok _ (recs_ok h) _ _ (Nat.le_refl _)

/-- What comes with a letter that this build of the client does not know is reported: each one of them is at
least one error, and does not keep the others from being set. -/
theorem C81_unknown (b : Build) (ok : Act → Bool) (rs : List (Byte × Str))
    (h : ∀ r ∈ rs, r.1 ≠ 0 ∧ r.2.length < 2 ^ 32) :
    ∃ n, (setExtra b ok (rs.flatMap fun r => record r.1 r.2)).2 = some n ∧
      (rs.filter fun r => decide (r.1 ≠ metaAccess ∧ r.1 ≠ metaDefault ∧ r.1 ≠ metaXattr)).length ≤ n ∧
      (setExtra b ok (rs.flatMap fun r => record r.1 r.2)).1 =
        (rs.filter fun r => !decide (r.1 ≠ metaAccess ∧ r.1 ≠ metaDefault ∧ r.1 ≠ metaXattr)).flatMap
          fun r => (setOne b ok r.1 r.2).1 := by
  have hu : ∀ r : Byte × Str, (r.1 ≠ metaAccess ∧ r.1 ≠ metaDefault ∧ r.1 ≠ metaXattr) →
      setOne b ok r.1 r.2 = ([], false) := by
    rintro r ⟨h1, h2, h3⟩
    unfold setOne
    simp [h1, h2, h3]
  unfold setExtra
  rw [setExtra_records b ok rs h _ (Nat.le_refl _)]
  refine ⟨_, rfl, ?_, ?_⟩
  · clear h
    induction rs with
    | nil => simp
    | cons r rs ih =>
      by_cases hr : r.1 ≠ metaAccess ∧ r.1 ≠ metaDefault ∧ r.1 ≠ metaXattr
      · rw [List.filter_cons_of_pos (by simpa using hr), List.filter_cons_of_pos (by rw [hu r hr]; rfl)]
        simp only [List.length_cons]
        omega
      · rw [List.filter_cons_of_neg (by simpa using hr), List.filter_cons]
        split
        · simp only [List.length_cons]; omega
        · exact ih
  · clear h
    simp only
    induction rs with
    | nil => simp
    | cons r rs ih =>
      by_cases hr : r.1 ≠ metaAccess ∧ r.1 ≠ metaDefault ∧ r.1 ≠ metaXattr
      · rw [List.filter_cons_of_neg (by rw [decide_eq_true hr]; decide), List.flatMap_cons, ih, hu r hr]
        rfl
      · rw [List.filter_cons_of_pos (by rw [decide_eq_false hr]; decide), List.flatMap_cons, List.flatMap_cons, ih]

/-- A record of a kind for another system, between two others: one error, and the other two are set. -/
example : (setExtra both (fun _ => true) ([(metaAccess, bytes "u"), (metaBsd, bytes "x"), (metaDefault, bytes "g")].flatMap
    fun r => record r.1 r.2)) = ([.acl false (bytes "u"), .acl true (bytes "g")], some 1) := by decide +kernel

/-- On FreeBSD: the attributes of a namespace are set with their values, if none of these is longer than the
list of the names. Missing: longer values, which are cut off, see `C81_bsd_violated`; and names of more than
127 bytes. -/
theorem C81_bsd_partial (ns : Str) (hns : NoNul ns ∧ dot ∉ ns) (l : List (Str × Str)) (llen : Nat)
    (hl : ∀ a ∈ l, NoNul a.1 ∧ ns.length + a.1.length ≤ maxlen ∧ a.2.length ≤ maxlen ∧ a.2.length ≤ llen)
    (ok : Act → Bool) (ho : ∀ a ∈ l, ok (.bsd ns a.1 a.2) = true) :
    ∀ n, (toappendBsd ns llen l).length ≤ n →
      setXattrBsd ok n (toappendBsd ns llen l) = (l.map fun a => Act.bsd ns a.1 a.2, true) := by
  induction l with
  | nil => intro n _; cases n <;> simp [setXattrBsd, toappendBsd]
  | cons x l ih =>
    intro n hn
    obtain ⟨a, v⟩ := x
    obtain ⟨h1, h2, h3, h4⟩ := hl (a, v) (by simp)
    simp only at h1 h2 h3 h4
    have ht : v.take llen = v := List.take_of_length_le h4
    have hz : (ns ++ dot :: a).length < 2 ^ 32 := by simp; unfold maxlen at *; omega
    have hv : v.length < 2 ^ 32 := by unfold maxlen at *; omega
    have e : toappendBsd ns llen ((a, v) :: l) =
        hex08 (ns ++ dot :: a).length ++ (ns ++ dot :: a) ++ (hex08 v.length ++ v ++ toappendBsd ns llen l) := by
      simp [toappendBsd, ht]
    have hlen : (toappendBsd ns llen ((a, v) :: l)).length = 8 + (ns ++ dot :: a).length + (8 + v.length +
        (toappendBsd ns llen l).length) := by
      have e1 := hex08_length hz
      have e2 := hex08_length hv
      rw [e]
      generalize ns ++ dot :: a = z at *
      simp only [List.length_append, e1, e2]
    obtain ⟨n, rfl⟩ : ∃ k, n = k + 1 := ⟨n - 1, by omega⟩
    have hnn : NoNul (ns ++ dot :: a) := by
      unfold NoNul at *
      simp
      exact ⟨hns.1, by decide, h1⟩
    have hw : (ns ++ dot :: a).takeWhile (· ≠ dot) = ns ∧ (ns ++ dot :: a).dropWhile (· ≠ dot) = dot :: a := by
      have hd := hns.2
      clear hnn hlen e hz hn ih hl h2 ho hns
      induction ns with
      | nil => simp
      | cons c ns ih =>
        simp only [List.mem_cons, not_or] at hd
        obtain ⟨i1, i2⟩ := ih hd.2
        have hc : (fun x => decide (x ≠ dot)) c = true := by simpa using fun e : c = dot => hd.1 e.symm
        rw [List.cons_append, List.takeWhile_cons_of_pos (p := fun x => decide (x ≠ dot)) hc,
          List.dropWhile_cons_of_pos (p := fun x => decide (x ≠ dot)) hc, i1, i2]
        exact ⟨rfl, rfl⟩
    rw [setXattrBsd, if_neg (by intro he; rw [List.isEmpty_iff] at he; rw [he] at hlen; simp at hlen; omega), e,
      nextStr_enc _ _ hz]
    simp only [nextStr_enc _ _ hv, cstr_noNul hnn, hw]
    rw [if_pos (by simp)]
    have hoa := ho (a, v) (by simp)
    simp only at hoa
    rw [List.drop_succ_cons, List.drop_zero, if_pos hoa,
      ih (fun y hy => hl y (by simp [hy])) (fun y hy => ho y (by simp [hy])) n (by omega)]
    rfl

end Verif
