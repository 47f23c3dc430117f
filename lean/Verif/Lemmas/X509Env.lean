import Verif.Spec.X509Env

/-!
# Lemmas about the environment that is made from a certificate
-/

namespace Verif.X509Env

theorem keeps_iff_nat : ∀ n : Fin 256, keeps (UInt8.ofNat n.val) = true ↔ UInt8.ofNat n.val ∈ safe := by decide +kernel

theorem keeps_iff (c : Byte) : keeps c = true ↔ c ∈ safe := by
  have h := keeps_iff_nat ⟨c.toNat, c.toNat_lt⟩
  simpa using h

theorem sanitise_safe (s : Str) : ∀ c ∈ sanitise s, c ∈ safe := by
  intro c hc
  unfold sanitise at hc
  obtain ⟨d, _, hd⟩ := List.mem_map.mp hc
  split at hd
  · rename_i hk
    exact hd ▸ (keeps_iff d).mp hk
  · exact hd ▸ (by decide +kernel)

theorem sanitise_id {s : Str} (h : ∀ c ∈ s, c ∈ safe) : sanitise s = s := by
  unfold sanitise
  induction s with
  | nil => rfl
  | cons c s ih =>
    rw [List.map_cons, ih (fun d hd => h d (List.mem_cons_of_mem _ hd)), if_pos ((keeps_iff c).mpr (h c List.mem_cons_self))]

theorem sanitise_append (a b : Str) : sanitise (a ++ b) = sanitise a ++ sanitise b := List.map_append

theorem eq_not_safe : (61 : Byte) ∉ safe := by decide +kernel

theorem setenv_ok {n : Str} (h0 : n ≠ []) (h : ∀ c ∈ n, c ∈ safe) (e : Env) (v : Str) :
    setenv e n v = fun m => if m = n then some v else e m := by
  unfold setenv
  rw [if_neg]
  rintro (h1 | h1)
  · exact h0 h1
  · exact eq_not_safe (h _ h1)

theorem varName_eq {type : Str} (ht : type = bytes "PEER" ∨ type = bytes "ISSUER") (sn : Str) :
    varName type sn = bytes "X509_" ++ type ++ bytes "_" ++ sanitise sn := by
  unfold varName
  have hl : (bytes "X509_" ++ type ++ bytes "_" ++ sn).length ≤ 64 + sn.length - 1 := by
    have h5 : (bytes "X509_").length = 5 := by decide +kernel
    have h1 : (bytes "_").length = 1 := by decide +kernel
    have h6 : type.length ≤ 6 := by
      rcases ht with rfl | rfl <;> decide +kernel
    simp only [List.length_append]
    omega
  rw [List.take_of_length_le hl, sanitise_append]
  congr 1
  rcases ht with rfl | rfl <;> decide +kernel

theorem varName_ne_nil {type : Str} (ht : type = bytes "PEER" ∨ type = bytes "ISSUER") (sn : Str) : varName type sn ≠ [] := by
  rw [varName_eq ht]
  have h5 : bytes "X509_" ≠ [] := by decide +kernel
  intro h
  simp only [List.append_eq_nil_iff] at h
  exact h5 h.1.1.1

theorem varName_safe (type sn : Str) : ∀ c ∈ varName type sn, c ∈ safe := sanitise_safe _

/-- What one field does to a variable. -/
theorem setEntry_get {type : Str} (ht : type = bytes "PEER" ∨ type = bytes "ISSUER") (e : Env) (x : Entry) (m : Str) :
    setEntry type e x m = e m
    ∨ ∃ sn v, x.sn = some sn ∧ x.val = some v ∧ v ≠ [] ∧ m = varName type sn
        ∧ setEntry type e x m = some (sanitise (upToNul v)) := by
  obtain ⟨xsn, xval⟩ := x
  cases xsn with
  | none => exact .inl rfl
  | some sn =>
    cases xval with
    | none => exact .inl rfl
    | some v =>
      unfold setEntry
      simp only
      by_cases hv : v = []
      · rw [if_pos hv]; exact .inl rfl
      · rw [if_neg hv, setenv_ok (varName_ne_nil ht sn) (varName_safe type sn)]
        by_cases hm : m = varName type sn
        · refine .inr ⟨sn, v, rfl, rfl, hv, hm, ?_⟩
          show (if m = varName type sn then _ else _) = _
          rw [if_pos hm]
        · refine .inl ?_
          show (if m = varName type sn then _ else _) = _
          rw [if_neg hm]

theorem setNames_get {type : Str} (ht : type = bytes "PEER" ∨ type = bytes "ISSUER") :
    ∀ (xs : List Entry) (e : Env) (m : Str), setNames type xs e m = e m
    ∨ ((∃ sn, m = varName type sn) ∧ ∃ v, setNames type xs e m = some (sanitise v))
  | [], e, m => .inl rfl
  | x :: xs, e, m => by
    show setNames type xs (setEntry type e x) m = _ ∨ _
    rcases setNames_get ht xs (setEntry type e x) m with h | h
    · rcases setEntry_get ht e x m with h2 | ⟨sn, v, _, _, _, hm, h2⟩
      · exact .inl (h.trans h2)
      · exact .inr ⟨⟨sn, hm⟩, _, h.trans h2⟩
    · exact .inr h

/-- A variable that the fields of one kind are put into. -/
theorem setNames_value {type : Str} (ht : type = bytes "PEER" ∨ type = bytes "ISSUER") {sn : Str} (hsn : ∀ c ∈ sn, c ∈ safe) :
    ∀ (xs : List Entry) (e : Env), Plain xs → setNames type xs e (bytes "X509_" ++ type ++ bytes "_" ++ sn)
      = match (valuesOf xs sn).getLast? with
        | some v => some (sanitise (upToNul v))
        | none => e (bytes "X509_" ++ type ++ bytes "_" ++ sn)
  | [], e, _ => rfl
  | x :: xs, e, hp => by
    show setNames type xs (setEntry type e x) _ = _
    have hp2 : Plain xs := fun y hy => hp y (List.mem_cons_of_mem _ hy)
    rw [setNames_value ht hsn xs _ hp2]
    unfold valuesOf
    rw [List.filterMap_cons]
    have hent : setEntry type e x (bytes "X509_" ++ type ++ bytes "_" ++ sn)
        = match (if x.sn = some sn ∧ x.val ≠ some [] then x.val else none) with
          | some v => some (sanitise (upToNul v))
          | none => e (bytes "X509_" ++ type ++ bytes "_" ++ sn) := by
      obtain ⟨xsn, xval⟩ := x
      unfold setEntry
      cases xsn with
      | none => simp
      | some s2 =>
        cases xval with
        | none => simp
        | some v =>
          by_cases hv : v = []
          · subst hv; simp
          · have hs2 : ∀ c ∈ s2, c ∈ safe := hp _ List.mem_cons_self s2 rfl
            simp only
            rw [if_neg hv, setenv_ok (varName_ne_nil ht s2) (varName_safe type s2), varName_eq ht, sanitise_id hs2]
            by_cases he : s2 = sn
            · subst he; simp [hv]
            · have hne : ¬ sn = s2 := fun h => he h.symm
              simp [he, hne]
    generalize hq : (if x.sn = some sn ∧ x.val ≠ some [] then x.val else none) = q at hent ⊢
    cases q with
    | none =>
      simp only at hent ⊢
      rw [hent]
    | some v =>
      simp only at hent ⊢
      rw [List.getLast?_cons, hent]
      generalize (List.filterMap _ xs).getLast? = g
      cases g <;> rfl

theorem setText_get (n s : Str) (h0 : n ≠ []) (hn : ∀ c ∈ n, c ∈ safe) (e : Env) (m : Str) :
    setText n s e m = if m = n then some (sanitise (upToNul (gets s))) else e m := by
  unfold setText
  rw [setenv_ok h0 hn]

theorem nb_ok : (bytes "X509_PEER_NOT_BEFORE") ≠ [] ∧ ∀ c ∈ bytes "X509_PEER_NOT_BEFORE", c ∈ safe := by decide +kernel
theorem na_ok : (bytes "X509_PEER_NOT_AFTER") ≠ [] ∧ ∀ c ∈ bytes "X509_PEER_NOT_AFTER", c ∈ safe := by decide +kernel
theorem se_ok : (bytes "X509_PEER_SERIALNUMBER") ≠ [] ∧ ∀ c ∈ bytes "X509_PEER_SERIALNUMBER", c ∈ safe := by decide +kernel

/-- What is in a variable in the end. -/
theorem export_get (c : Cert) (e : Env) (m : Str) :
    export_ c e m =
      if m = bytes "X509_PEER_SERIALNUMBER" then some (sanitise (upToNul (gets c.serial)))
      else if m = bytes "X509_PEER_NOT_AFTER" then some (sanitise (upToNul (gets c.notAfter)))
      else if m = bytes "X509_PEER_NOT_BEFORE" then some (sanitise (upToNul (gets c.notBefore)))
      else setNames (bytes "ISSUER") c.issuer (setNames (bytes "PEER") c.subject e) m := by
  unfold export_
  rw [setText_get _ _ se_ok.1 se_ok.2, setText_get _ _ na_ok.1 na_ok.2, setText_get _ _ nb_ok.1 nb_ok.2]

/-- The two kinds of variables are different. -/
theorem peer_ne_issuer (a b : Str) :
    bytes "X509_" ++ bytes "PEER" ++ bytes "_" ++ a ≠ bytes "X509_" ++ bytes "ISSUER" ++ bytes "_" ++ b := by
  intro h
  have h2 := congrArg (List.take 6) h
  have e1 : (bytes "X509_" ++ bytes "PEER" ++ bytes "_" ++ a).take 6 = bytes "X509_P" := by
    rw [List.take_append_of_le_length (by decide +kernel)]; decide +kernel
  have e2 : (bytes "X509_" ++ bytes "ISSUER" ++ bytes "_" ++ b).take 6 = bytes "X509_I" := by
    rw [List.take_append_of_le_length (by decide +kernel)]; decide +kernel
  rw [e1, e2] at h2
  revert h2
  decide +kernel

theorem upToNul_safe {v : Str} (h : ∀ b ∈ v, b ∈ safe) : upToNul v = v := by
  have hnul : (0 : Byte) ∉ safe := by decide +kernel
  unfold upToNul
  induction v with
  | nil => rfl
  | cons b v ih =>
    have hb : b ≠ 0 := fun e => hnul (e ▸ h b List.mem_cons_self)
    rw [List.takeWhile_cons, if_pos (by simp [hb]), ih (fun d hd => h d (List.mem_cons_of_mem _ hd))]

theorem valuesOf_none {sn : Str} : ∀ {xs : List Entry}, xs.filter (fun x => x.sn = some sn) = [] → valuesOf xs sn = []
  | [], _ => rfl
  | x :: xs, h => by
    rw [List.filter_cons] at h
    split at h
    · cases h
    · rename_i hx
      unfold valuesOf
      rw [List.filterMap_cons, if_neg (by intro e; exact hx (by simp [e.1]))]
      exact valuesOf_none h

theorem valuesOf_filter {sn v : Str} (h0 : v ≠ []) : ∀ {xs : List Entry},
    xs.filter (fun x => x.sn = some sn) = [{ sn := some sn, val := some v }] → valuesOf xs sn = [v]
  | [], h => by cases h
  | x :: xs, h => by
    rw [List.filter_cons] at h
    unfold valuesOf
    rw [List.filterMap_cons]
    split at h
    · injection h with h1 h2
      subst h1
      rw [if_pos ⟨rfl, by simp [h0]⟩]
      show v :: valuesOf xs sn = [v]
      rw [valuesOf_none h2]
    · rename_i hx
      rw [if_neg (by intro e; exact hx (by simp [e.1]))]
      exact valuesOf_filter h0 h

theorem firstCn_filter {v : Str} : ∀ {xs : List Entry},
    xs.filter (fun x => x.sn = some (bytes "CN")) = [{ sn := some (bytes "CN"), val := some v }] → firstCn xs = some v
  | [], h => by cases h
  | x :: xs, h => by
    rw [List.filter_cons] at h
    unfold firstCn
    split at h
    · injection h with h1 h2
      subst h1
      rw [if_pos rfl]; rfl
    · rename_i hx
      rw [if_neg (by intro e; exact hx (by simp [e]))]
      exact firstCn_filter h

theorem gets_safe {v : Str} (h : ∀ b ∈ v, b ∈ safe) (hl : v.length ≤ 254) : gets v = v := by
  have hnl : newline ∉ safe := by decide +kernel
  have h1 : v.takeWhile (· ≠ newline) = v ∧ v.dropWhile (· ≠ newline) = [] := by
    clear hl
    induction v with
    | nil => exact ⟨rfl, rfl⟩
    | cons b v ih =>
      have hb : b ≠ newline := fun e => hnl (e ▸ h b List.mem_cons_self)
      obtain ⟨i1, i2⟩ := ih (fun d hd => h d (List.mem_cons_of_mem _ hd))
      rw [List.takeWhile_cons, if_pos (by simp [hb]), List.dropWhile_cons, if_pos (by simp [hb]), i1, i2]
      exact ⟨rfl, rfl⟩
  unfold gets
  rw [h1.1, h1.2, List.take_nil, List.append_nil, List.take_of_length_le hl]

end Verif.X509Env
