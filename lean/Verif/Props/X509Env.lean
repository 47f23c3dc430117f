import Verif.Lemmas.X509Env

/-!
# C125: what a script is told about the certificate of the other side
-/

namespace Verif
open X509Env

/-- **C125.** Whatever is in a certificate, a variable of the environment is as it was, or it is one whose name begins
with `X509_PEER_` or `X509_ISSUER_` and its value has only letters, digits, blanks and `_-.:@`. -/
theorem C125_safe (c : Cert) (e : Env) (m : Str) :
    export_ c e m = e m
    ∨ ((bytes "X509_PEER_" <+: m ∨ bytes "X509_ISSUER_" <+: m) ∧ ∃ v, export_ c e m = some v ∧ ∀ b ∈ v, b ∈ safe) := by
  rw [export_get]
  by_cases h1 : m = bytes "X509_PEER_SERIALNUMBER"
  · rw [if_pos h1]
    exact .inr ⟨.inl (h1 ▸ by decide +kernel), _, rfl, sanitise_safe _⟩
  rw [if_neg h1]
  by_cases h2 : m = bytes "X509_PEER_NOT_AFTER"
  · rw [if_pos h2]
    exact .inr ⟨.inl (h2 ▸ by decide +kernel), _, rfl, sanitise_safe _⟩
  rw [if_neg h2]
  by_cases h3 : m = bytes "X509_PEER_NOT_BEFORE"
  · rw [if_pos h3]
    exact .inr ⟨.inl (h3 ▸ by decide +kernel), _, rfl, sanitise_safe _⟩
  rw [if_neg h3]
  have ep : bytes "X509_" ++ bytes "PEER" ++ bytes "_" = bytes "X509_PEER_" := by decide +kernel
  have ei : bytes "X509_" ++ bytes "ISSUER" ++ bytes "_" = bytes "X509_ISSUER_" := by decide +kernel
  rcases setNames_get (.inr rfl) c.issuer (setNames (bytes "PEER") c.subject e) m with h | ⟨⟨sn, hm⟩, v, hv⟩
  · rw [h]
    rcases setNames_get (.inl rfl) c.subject e m with h | ⟨⟨sn, hm⟩, v, hv⟩
    · exact .inl h
    · refine .inr ⟨.inl ?_, _, hv, sanitise_safe _⟩
      rw [hm, varName_eq (.inl rfl), ep]
      exact List.prefix_append _ _
  · refine .inr ⟨.inr ?_, _, hv, sanitise_safe _⟩
    rw [hm, varName_eq (.inr rfl), ei]
    exact List.prefix_append _ _

/-- **C125.** No character of a value ends a word of a shell, but for the blanks, or is replaced by it. -/
theorem C125_shell (b : Byte) (h : b ∈ safe) : b ∉ bytes "\n\r\"'`$\\;&|<>(){}[]*?!~#=%^+,/" := by
  revert b
  have : ∀ b ∈ safe, b ∉ bytes "\n\r\"'`$\\;&|<>(){}[]*?!~#=%^+,/" := by decide +kernel
  exact this

/-- **C125.** The variable for a kind of field of the issuer has the last such field, with other characters replaced, or
is as it was if there is none. -/
theorem C125_issuer (c : Cert) (e : Env) (sn : Str) (hsn : ∀ b ∈ sn, b ∈ safe) (hs : Plain c.issuer) :
    export_ c e (bytes "X509_ISSUER_" ++ sn) = match (valuesOf c.issuer sn).getLast? with
      | some v => some (sanitise (upToNul v))
      | none => e (bytes "X509_ISSUER_" ++ sn) := by
  have ei : bytes "X509_ISSUER_" ++ sn = bytes "X509_" ++ bytes "ISSUER" ++ bytes "_" ++ sn := by
    have : bytes "X509_ISSUER_" = bytes "X509_" ++ bytes "ISSUER" ++ bytes "_" := by decide +kernel
    rw [this]
  have d1 : bytes "X509_PEER_SERIALNUMBER" = bytes "X509_" ++ bytes "PEER" ++ bytes "_" ++ bytes "SERIALNUMBER" := by decide +kernel
  have d2 : bytes "X509_PEER_NOT_AFTER" = bytes "X509_" ++ bytes "PEER" ++ bytes "_" ++ bytes "NOT_AFTER" := by decide +kernel
  have d3 : bytes "X509_PEER_NOT_BEFORE" = bytes "X509_" ++ bytes "PEER" ++ bytes "_" ++ bytes "NOT_BEFORE" := by decide +kernel
  rw [export_get, ei, d1, d2, d3, if_neg (fun h => peer_ne_issuer _ _ h.symm), if_neg (fun h => peer_ne_issuer _ _ h.symm),
    if_neg (fun h => peer_ne_issuer _ _ h.symm), setNames_value (.inr rfl) hsn _ _ hs]
  have hk : setNames (bytes "PEER") c.subject e (bytes "X509_" ++ bytes "ISSUER" ++ bytes "_" ++ sn)
      = e (bytes "X509_" ++ bytes "ISSUER" ++ bytes "_" ++ sn) := by
    rcases setNames_get (.inl rfl) c.subject e (bytes "X509_" ++ bytes "ISSUER" ++ bytes "_" ++ sn) with h | ⟨⟨s2, hm⟩, _⟩
    · exact h
    · rw [varName_eq (.inl rfl)] at hm
      exact absurd hm.symm (peer_ne_issuer _ _)
  rw [hk]
  cases (valuesOf c.issuer sn).getLast? <;> rfl

/-- **C125.** The same for the subject, but for the three variables of the dates and the serial number. -/
theorem C125_subject (c : Cert) (e : Env) (sn : Str) (hsn : ∀ b ∈ sn, b ∈ safe) (hs : Plain c.subject)
    (h1 : sn ≠ bytes "SERIALNUMBER") (h2 : sn ≠ bytes "NOT_AFTER") (h3 : sn ≠ bytes "NOT_BEFORE") :
    export_ c e (bytes "X509_PEER_" ++ sn) = match (valuesOf c.subject sn).getLast? with
      | some v => some (sanitise (upToNul v))
      | none => e (bytes "X509_PEER_" ++ sn) := by
  have ep : bytes "X509_PEER_" = bytes "X509_" ++ bytes "PEER" ++ bytes "_" := by decide +kernel
  have d1 : bytes "X509_PEER_SERIALNUMBER" = bytes "X509_PEER_" ++ bytes "SERIALNUMBER" := by decide +kernel
  have d2 : bytes "X509_PEER_NOT_AFTER" = bytes "X509_PEER_" ++ bytes "NOT_AFTER" := by decide +kernel
  have d3 : bytes "X509_PEER_NOT_BEFORE" = bytes "X509_PEER_" ++ bytes "NOT_BEFORE" := by decide +kernel
  rw [export_get, d1, d2, d3, if_neg (fun h => h1 (List.append_cancel_left h)),
    if_neg (fun h => h2 (List.append_cancel_left h)), if_neg (fun h => h3 (List.append_cancel_left h)), ep]
  rcases setNames_get (.inr rfl) c.issuer (setNames (bytes "PEER") c.subject e)
      (bytes "X509_" ++ bytes "PEER" ++ bytes "_" ++ sn) with h | ⟨⟨s2, hm⟩, _⟩
  · rw [h, setNames_value (.inl rfl) hsn _ _ hs]
    cases (valuesOf c.subject sn).getLast? <;> rfl
  · rw [varName_eq (.inr rfl)] at hm
    exact absurd hm (peer_ne_issuer _ _)

/-- **C125.** The dates and the serial number are the certificate's own, whatever fields there are in its names. -/
theorem C125_dates (c : Cert) (e : Env) :
    export_ c e (bytes "X509_PEER_NOT_BEFORE") = some (sanitise (upToNul (gets c.notBefore)))
    ∧ export_ c e (bytes "X509_PEER_NOT_AFTER") = some (sanitise (upToNul (gets c.notAfter)))
    ∧ export_ c e (bytes "X509_PEER_SERIALNUMBER") = some (sanitise (upToNul (gets c.serial))) := by
  rw [export_get, export_get, export_get]
  refine ⟨?_, ?_, ?_⟩
  · rw [if_neg (by decide +kernel), if_neg (by decide +kernel), if_pos rfl]
  · rw [if_neg (by decide +kernel), if_pos rfl]
  · rw [if_pos rfl]

/-- **C125.** They are as OpenSSL prints them, to the letter, if they have only the characters above, as dates and serial
numbers have, and fit. -/
theorem C125_dates_text (c : Cert) (e : Env)
    (h : ∀ s ∈ [c.notBefore, c.notAfter, c.serial], s.length ≤ 254 ∧ ∀ b ∈ s, b ∈ safe) :
    export_ c e (bytes "X509_PEER_NOT_BEFORE") = some c.notBefore
    ∧ export_ c e (bytes "X509_PEER_NOT_AFTER") = some c.notAfter
    ∧ export_ c e (bytes "X509_PEER_SERIALNUMBER") = some c.serial := by
  have k : ∀ s ∈ [c.notBefore, c.notAfter, c.serial], sanitise (upToNul (gets s)) = s := fun s hs => by
    rw [gets_safe (h s hs).2 (h s hs).1, upToNul_safe (h s hs).2, sanitise_id (h s hs).2]
  obtain ⟨h1, h2, h3⟩ := C125_dates c e
  rw [h1, h2, h3, k _ (by simp), k _ (by simp), k _ (by simp)]
  exact ⟨rfl, rfl, rfl⟩

/-- **C125, in part.** A script sees the name that burp has compared with the name of the client. If there is one common
name in the certificate, of at most 255 bytes, with no other characters than those above. -/
theorem C125_cn_partial (cipher : Str) (c : Cert) (e : Env) (peerCn v : Str) (hs : Plain c.subject)
    (hv : c.subject.filter (fun x => x.sn = some (bytes "CN")) = [{ sn := some (bytes "CN"), val := some v }])
    (h0 : v ≠ []) (hl : v.length ≤ 255) (hok : ∀ b ∈ v, b ∈ safe) (hm : cnMatches cipher c peerCn = true) :
    export_ c e (bytes "X509_PEER_CN") = some v ∧ v.map low = peerCn.map low := by
  have hup : upToNul v = v := upToNul_safe hok
  have h1 : valuesOf c.subject (bytes "CN") = [v] := valuesOf_filter h0 hv
  have h2 : firstCn c.subject = some v := firstCn_filter hv
  constructor
  · have hd : bytes "X509_PEER_CN" = bytes "X509_PEER_" ++ bytes "CN" := by decide +kernel
    rw [hd, C125_subject c e (bytes "CN") (by decide +kernel) hs (by decide +kernel) (by decide +kernel) (by decide +kernel), h1]
    show some (sanitise (upToNul v)) = some v
    rw [hup, sanitise_id hok]
  · unfold cnMatches at hm
    rw [h2] at hm
    simp only [beq_iff_eq] at hm
    rwa [List.take_of_length_le hl, hup] at hm

/-- A certificate with two common names. -/
def twoNames : Cert where
  subject := [{ sn := some (bytes "CN"), val := some (bytes "alice") }, { sn := some (bytes "CN"), val := some (bytes "bob") }]
  issuer := [{ sn := some (bytes "CN"), val := some (bytes "burpCA") }]
  notBefore := bytes "Jan  1 00:00:00 2026 GMT"
  notAfter := bytes "Jan  1 00:00:00 2036 GMT"
  serial := bytes "1A"

/-- C125 fails for a certificate with two common names: burp compares the first with the name of the client, and the
script that is to make further checks is told the last. -/
theorem C125_cn_violated : cnMatches [] twoNames (bytes "alice") = true
    ∧ cnMatches [] twoNames (bytes "bob") = false
    ∧ export_ twoNames (fun _ => none) (bytes "X509_PEER_CN") = some (bytes "bob") := by
  refine ⟨?_, ?_, ?_⟩ <;> decide +kernel

/-- C125 fails for values with other characters: different ones look the same to a script. -/
theorem C125_alike_violated : ∃ a b : Str, a ≠ b ∧ sanitise (upToNul a) = sanitise (upToNul b)
    ∧ valuesOf [{ sn := some (bytes "O"), val := some a }] (bytes "O") = [a]
    ∧ valuesOf [{ sn := some (bytes "O"), val := some b }] (bytes "O") = [b] :=
  ⟨bytes "A+B", bytes "A&B", by decide +kernel, by decide +kernel, by decide +kernel, by decide +kernel⟩

/-- A usual certificate: the conditions of the theorems above are met, and what is not harmless is replaced. -/
def usual : Cert := { twoNames with subject :=
  [{ sn := some (bytes "O"), val := some (bytes "$(reboot)") }, { sn := some (bytes "CN"), val := some (bytes "alice") }] }

example : Plain usual.subject ∧ cnMatches [] usual (bytes "Alice") = true
    ∧ export_ usual (fun _ => none) (bytes "X509_PEER_O") = some (bytes "__reboot_")
    ∧ usual.subject.filter (fun x => x.sn = some (bytes "CN")) = [{ sn := some (bytes "CN"), val := some (bytes "alice") }]
    ∧ (∀ b ∈ bytes "alice", b ∈ safe)
    ∧ (∀ s ∈ [usual.notBefore, usual.notAfter, usual.serial], s.length ≤ 254 ∧ ∀ b ∈ s, b ∈ safe) ∧ Plain usual.issuer := by
  refine ⟨?_, by decide +kernel, by decide +kernel, by decide +kernel, by decide +kernel, by decide +kernel, ?_⟩
  · intro x hx sn hsn
    simp only [usual, List.mem_cons, List.not_mem_nil, or_false] at hx
    rcases hx with rfl | rfl <;> cases hsn <;> decide +kernel
  · intro x hx sn hsn
    simp only [usual, twoNames, List.mem_cons, List.not_mem_nil, or_false] at hx
    subst hx; cases hsn; decide +kernel

end Verif
