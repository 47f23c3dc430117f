import Verif.Spec.Admission

/-!
# C70: which connections are served, and for whom certificates are signed
-/

namespace Verif
open Verif.Auth Verif.Ipacl Verif.Version Verif.Admission

namespace Admission

theorem toLower_newline {a b : Str} (h : a.map toLower = b.map toLower) (ha : newline ∈ a) : newline ∈ b := by
  have h1 : toLower newline ∈ b.map toLower := h ▸ List.mem_map_of_mem ha
  obtain ⟨y, hy, e⟩ := List.mem_map.1 h1
  have : y = newline := by
    unfold toLower at e
    have h0 : ¬ (65 ≤ newline.toNat ∧ newline.toNat ≤ 90) := by decide
    rw [if_neg h0] at e
    split at e
    · rename_i hr
      have : (y + 32).toNat = 10 := by rw [e]; rfl
      rw [UInt8.toNat_add] at this
      have h32 : (32 : UInt8).toNat = 32 := rfl
      omega
    · exact e
  exact this ▸ hy

theorem csrLoop_eq (s : Server) (ca : Ca) (client : Str) (x : Conn) (l : List Said) :
    csrLoop s ca client x l =
      match l.find? (fun m => m ≠ .aside) with
      | some (.gen t) => csrServerFunc s ca client x t
      | _ => (.error, ca) := by
  induction l with
  | nil => rfl
  | cons m l ih => cases m <;> simp [csrLoop, ih]

theorem version_min : versionToLong (some (bytes "1.3.2")) = 10302 := by decide +kernel

theorem maybeSign_nothing (s : Server) (ca ca' : Ca) (client : Str) (x : Conn) :
    maybeSign s ca client x = (.nothing, ca') ↔
      ca' = ca ∧ 0 ≤ versionToLong (afterColon x.hello) ∧ Declines x := by
  have ne : bytes "nocsr" ≠ bytes "csr" := by decide
  unfold maybeSign Declines Recent answer
  rw [version_min]
  simp only
  by_cases h1 : versionToLong (afterColon x.hello) < 0
  · rw [if_pos h1]; simp; omega
  rw [if_neg h1]
  by_cases h2 : versionToLong (afterColon x.hello) < 10302
  · rw [if_pos h2]
    constructor
    · intro h; cases h; exact ⟨rfl, by omega, Or.inl (by omega)⟩
    · rintro ⟨rfl, -⟩; rfl
  rw [if_neg h2, csrLoop_eq]
  cases hf : x.said.find? (fun m => m ≠ .aside) with
  | none => simp; omega
  | some m =>
    cases m with
    | aside => simp; omega
    | other => simp; omega
    | gen t =>
      simp only [csrServerFunc]
      by_cases ht : t = bytes "csr"
      · rw [if_pos ht]
        subst ht
        constructor
        · intro h
          cases hc : s.caName with
          | none => simp [hc] at h
          | some n =>
            simp only [hc] at h
            rcases hs : signClientCert n ca client x.csr x.delivered with ⟨b, c⟩
            rw [hs] at h
            cases b <;> simp at h
        · rintro ⟨-, -, h | h⟩
          · exact absurd h (by omega)
          · simp only [Option.some.injEq, Said.gen.injEq] at h
            exact absurd h.symm ne
      · rw [if_neg ht]
        by_cases hn : t = bytes "nocsr"
        · rw [if_pos hn]
          constructor
          · intro h; cases h; exact ⟨rfl, by omega, Or.inr (by rw [hn])⟩
          · rintro ⟨rfl, -⟩; rfl
        · rw [if_neg hn]
          constructor
          · intro h; cases h
          · rintro ⟨-, -, h | h⟩
            · exact absurd h (by omega)
            · simp only [Option.some.injEq, Said.gen.injEq] at h
              exact absurd h hn

theorem authorised_version {s : Auth.Server} {isGen : Bool} {hello name password who : Str}
    (h : authorise s isGen hello name password = .authorised who) : 0 ≤ versionToLong (afterColon hello) := by
  unfold authorise at h
  split at h
  · cases h
  split at h
  · cases h
  rename_i hv
  unfold versionBad at hv
  cases hc : afterColon hello with
  | none => exact Int.le_refl 0
  | some v => simp [hc] at hv; exact hv

theorem verifyCrl_iff (s : Server) (c : Cert) (h : s.caName ≠ some []) :
    verifyCrl s c = true ↔ NotRevoked s c := by
  unfold verifyCrl NotRevoked
  cases hc : s.caCrlCheck with
  | false => simp
  | true =>
    cases hn : s.caName with
    | none => simp
    | some n =>
      cases n with
      | nil => exact absurd hn h
      | cons b n =>
        cases hl : s.crl with
        | none => simp
        | some l => by_cases hi : l.issuer = c.issuer <;> simp [hi]

theorem commonName_eq {s : Server} {n : Str} {x : Conn} (ho : Ordinary s n x) {c : Cert} {cn : Str} (hx : x.cert = some c)
    (hn : c.cn = some cn) : commonName x c = cn := by
  obtain ⟨h1, h2⟩ := ho.1 c cn hx hn
  unfold commonName
  rw [hn]
  simp only
  rw [List.take_of_length_le h2]
  have h1' : ∀ b ∈ cn, b ≠ 0 := by
    intro b hb e
    exact h1 (e ▸ hb)
  have := List.takeWhile_append_of_pos (p := fun b : Byte => decide (b ≠ 0)) (l₁ := cn) (l₂ := []) (by simpa using h1')
  simpa using this

theorem checkCert_iff (s : Server) (client : Str) (x : Conn) (ho : Ordinary s client x) :
    checkCert s client x = true ↔
      ∃ c cn, x.cert = some c ∧ c.verifies = true ∧ c.cn = some cn ∧ SameName cn (expectedCn s client) ∧
        NotRevoked s c := by
  unfold checkCert
  cases hx : x.cert with
  | none => simp
  | some c =>
    simp only [Option.some.injEq]
    cases hv : c.verifies with
    | false =>
      simp only [Bool.not_false, if_true]
      constructor
      · intro h; cases h
      · rintro ⟨c', cn, rfl, h, -⟩; rw [hv] at h; cases h
    | true =>
      cases hn : c.cn with
      | none =>
        have hs : sameNoCase (commonName x c) (((s.client client).sslPeerCn).getD client) = false := by
          unfold sameNoCase commonName
          rw [hn]
          simp only [decide_eq_false_iff_not]
          intro h
          exact ho.2.2.1 (toLower_newline h ho.2.1)
        simp only [hs, Bool.not_false, if_true]
        constructor
        · intro h; simp at h
        · rintro ⟨c', cn, rfl, -, h, -⟩; rw [hn] at h; cases h
      | some cn =>
        rw [commonName_eq ho hx hn]
        by_cases hs : SameName cn (expectedCn s client)
        · have hs' : sameNoCase cn (((s.client client).sslPeerCn).getD client) = true := by
            unfold sameNoCase; simpa [SameName, expectedCn] using hs
          simp only [hs', Bool.not_true, Bool.false_eq_true, if_false]
          rw [verifyCrl_iff s c ho.2.2.2]
          constructor
          · intro h; exact ⟨c, cn, rfl, hv, hn, hs, h⟩
          · rintro ⟨c', cn', rfl, -, -, -, h⟩; exact h
        · have hs' : sameNoCase cn (((s.client client).sslPeerCn).getD client) = false := by
            unfold sameNoCase; simpa [SameName, expectedCn] using hs
          simp only [hs', Bool.not_false, if_true]
          constructor
          · intro h; simp at h
          · rintro ⟨c', cn', rfl, -, h, h', -⟩
            rw [hn] at h
            cases h
            exact absurd h' hs

theorem signClientCert_cases (caName : Str) (ca : Ca) (client : Str) (csr : Option (Option Str)) (delivered : Bool) :
    (∃ cn, (signClientCert caName ca client csr delivered).1 = true ∧ client ≠ caName ∧ ca.crt client = none ∧
      ca.csr client = false ∧ csr = some (some cn) ∧ delivered = true ∧
      (signClientCert caName ca client csr delivered).2.crt =
        put ca.crt client (some ⟨true, some cn, caName, ca.issued.length⟩) ∧
      (signClientCert caName ca client csr delivered).2.csr = put ca.csr client true ∧
      (signClientCert caName ca client csr delivered).2.issued =
        ca.issued ++ [⟨true, some cn, caName, ca.issued.length⟩]) ∨
    ((signClientCert caName ca client csr delivered).1 = false ∧
      (signClientCert caName ca client csr delivered).2.crt = ca.crt ∧
      (signClientCert caName ca client csr delivered).2.csr = ca.csr) := by
  have back : ∀ {α : Type} (f : Str → α) (k : Str) (v : α), f k = v → put f k v = f := by
    intro α f k v h
    funext m
    unfold put
    split
    · rename_i e; rw [e, h]
    · rfl
  have back2 : ∀ {α : Type} (f : Str → α) (k : Str) (v w : α), f k = v → put (put f k w) k v = f := by
    intro α f k v w h
    funext m
    unfold put
    split
    · rename_i e; rw [e, h]
    · rfl
  unfold signClientCert
  by_cases hb : signBegin caName ca client = true
  · rw [if_pos hb]
    unfold signBegin at hb
    split at hb
    · cases hb
    rename_i h1
    split at hb
    · cases hb
    rename_i h2
    split at hb
    · cases hb
    rename_i h3
    have h2' : ca.crt client = none := by simpa using h2
    have h3' : ca.csr client = false := by simpa using h3
    cases csr with
    | none =>
      right
      simp only [signReceive, Ca.unlink]
      exact ⟨trivial, back _ _ _ h2', back _ _ _ h3'⟩
    | some o =>
      cases o with
      | none =>
        right
        simp only [signReceive, signSign, signEnd, h2', Option.isSome_none, Bool.false_and, Bool.false_eq_true, if_false, Ca.unlink]
        exact ⟨trivial, back _ _ _ h2', back2 _ _ _ _ h3'⟩
      | some cn =>
        cases delivered with
        | false =>
          right
          simp only [signReceive, signSign, signEnd, Bool.and_false, Bool.false_eq_true, if_false, Ca.unlink]
          exact ⟨trivial, back2 _ _ _ _ h2', back2 _ _ _ _ h3'⟩
        | true =>
          left
          refine ⟨cn, ?_⟩
          have hp : ∀ v : Option Cert, put ca.crt client v client = v := by intro v; simp [put]
          simp only [signReceive, signSign, signEnd, hp, Option.isSome_some, Bool.and_self, if_true]
          exact ⟨trivial, h1, h2', h3', trivial, trivial, trivial, trivial, trivial⟩
  · rw [if_neg hb]
    exact Or.inr ⟨rfl, rfl, rfl⟩

theorem maybeSign_other (s : Server) (ca : Ca) (client : Str) (x : Conn) :
    (∃ n cn, (maybeSign s ca client x).1 = .done ∧ s.caName = some n ∧ Asks x ∧ client ≠ n ∧
      ca.crt client = none ∧ ca.csr client = false ∧ x.csr = some (some cn) ∧ x.delivered = true ∧
      (maybeSign s ca client x).2.crt = put ca.crt client (some ⟨true, some cn, n, ca.issued.length⟩) ∧
      (maybeSign s ca client x).2.csr = put ca.csr client true ∧
      (maybeSign s ca client x).2.issued = ca.issued ++ [⟨true, some cn, n, ca.issued.length⟩]) ∨
    ((maybeSign s ca client x).1 ≠ .done ∧ (maybeSign s ca client x).2.crt = ca.crt ∧
      (maybeSign s ca client x).2.csr = ca.csr) := by
  unfold maybeSign Asks Recent answer
  simp only
  by_cases h1 : versionToLong (afterColon x.hello) < 0
  · rw [if_pos h1]; right; simp
  rw [if_neg h1]
  by_cases h2 : versionToLong (afterColon x.hello) < versionToLong (some (bytes "1.3.2"))
  · rw [if_pos h2]; right; simp
  rw [if_neg h2, csrLoop_eq]
  cases hf : x.said.find? (fun m => m ≠ .aside) with
  | none => right; simp
  | some m =>
    cases m with
    | aside => right; simp
    | other => right; simp
    | gen t =>
      simp only [csrServerFunc]
      by_cases ht : t = bytes "csr"
      · rw [if_pos ht]
        cases hc : s.caName with
        | none => right; simp
        | some n =>
          simp only
          rcases signClientCert_cases n ca client x.csr x.delivered with
            ⟨cn, e1, e2, e3, e4, e5, e6, e7, e8, e9⟩ | ⟨e1, e2, e3⟩
          · left
            rcases hs : signClientCert n ca client x.csr x.delivered with ⟨b, c⟩
            rw [hs] at e1 e7 e8 e9
            simp only at e1 e7 e8 e9
            subst e1
            exact ⟨n, cn, rfl, rfl, ⟨by omega, by rw [ht]⟩, e2, e3, e4, e5, e6, e7, e8, e9⟩
          · right
            rcases hs : signClientCert n ca client x.csr x.delivered with ⟨b, c⟩
            rw [hs] at e1 e2 e3
            simp only at e1 e2 e3
            subst e1
            exact ⟨by simp, e2, e3⟩
      · rw [if_neg ht]
        right
        split <;> simp

theorem signEnd_issued (ca : Ca) (client : Str) (d : Bool) : (signEnd ca client d).2.issued = ca.issued := by
  unfold signEnd
  split <;> rfl

theorem signClientCert_issued (caName : Str) (ca : Ca) (client : Str) (csr : Option (Option Str)) (delivered : Bool) :
    (signClientCert caName ca client csr delivered).2.issued = ca.issued ∨
    ∃ cn, (signClientCert caName ca client csr delivered).2.issued =
      ca.issued ++ [⟨true, some cn, caName, ca.issued.length⟩] := by
  unfold signClientCert
  split
  · cases csr with
    | none => exact Or.inl rfl
    | some o =>
      cases o with
      | none => left; simp only [signReceive, signSign, signEnd_issued]
      | some cn => right; refine ⟨cn, ?_⟩; simp only [signReceive, signSign, signEnd_issued]
  · exact Or.inl rfl

theorem maybeSign_issued (s : Server) (ca : Ca) (client : Str) (x : Conn) :
    (maybeSign s ca client x).2.issued = ca.issued ∨
    ∃ cn n, s.caName = some n ∧
      (maybeSign s ca client x).2.issued = ca.issued ++ [⟨true, some cn, n, ca.issued.length⟩] := by
  unfold maybeSign
  simp only
  split
  · exact Or.inl rfl
  split
  · exact Or.inl rfl
  rw [csrLoop_eq]
  split
  · unfold csrServerFunc
    split
    · split
      · exact Or.inl rfl
      · rename_i n hn
        rcases signClientCert_issued n ca client x.csr x.delivered with h | ⟨cn, h⟩
        · left
          split
          · rename_i e; rw [e] at h; exact h
          · rename_i e; rw [e] at h; exact h
        · right
          refine ⟨cn, n, hn, ?_⟩
          split
          · rename_i e; rw [e] at h; exact h
          · rename_i e; rw [e] at h; exact h
    · split <;> exact Or.inl rfl
  · exact Or.inl rfl

theorem incoming_issued (s : Server) (ca : Ca) (x : Conn) :
    (incoming s ca x).2.issued = ca.issued ∨
    ∃ cn n, s.caName = some n ∧
      (incoming s ca x).2.issued = ca.issued ++ [⟨true, some cn, n, ca.issued.length⟩] := by
  unfold incoming
  generalize (if x.status then s.networkAllowStatus else s.networkAllow) = l1
  split
  · exact Or.inl rfl
  unfold runChild
  split
  · exact Or.inl rfl
  split
  · exact Or.inl rfl
  · exact Or.inl rfl
  rename_i n hn
  simp only
  generalize (if x.status then (s.client n).networkAllowStatus else (s.client n).networkAllow) = l2
  split
  · exact Or.inl rfl
  split
  · exact Or.inl rfl
  have := maybeSign_issued s ca n x
  split
  · rename_i e; rw [e] at this; exact this
  · rename_i e; rw [e] at this; exact this
  · rename_i e; rw [e] at this
    split
    · exact this
    split
    · exact this
    · exact this

/-- What `incoming` does, case by case. -/
theorem incoming_cases (s : Server) (ca : Ca) (x : Conn) :
    ((incoming s ca x).1 = .closed ∨ (incoming s ca x).1 = .undefined) ∧ (incoming s ca x).2.crt = ca.crt ∧
        (incoming s ca x).2.csr = ca.csr ∨
    ∃ n, authorise s.auth x.isGen x.hello x.name x.password = .authorised n ∧ AddressOk s n x ∧
      (s.client n).enabled = true ∧
      ((incoming s ca x = (.signed n, (maybeSign s ca n x).2) ∧ (maybeSign s ca n x).1 = .done) ∨
       (incoming s ca x = (.served n x.status, ca) ∧ maybeSign s ca n x = (.nothing, ca) ∧
         checkCert s n x = true ∧ (x.status = true → (s.client n).canMonitor = true))) := by
  unfold incoming
  by_cases ha : ¬ (allowed s.pton (if x.status then s.networkAllowStatus else s.networkAllow) x.addr = true)
  · rw [if_pos (by simpa using ha)]; exact Or.inl ⟨Or.inl rfl, rfl, rfl⟩
  replace ha := Classical.not_not.1 ha
  rw [if_neg (by simpa using ha)]
  unfold runChild
  by_cases hh : ¬ (handshake s x = true)
  · rw [if_pos (by simpa using hh)]; exact Or.inl ⟨Or.inl rfl, rfl, rfl⟩
  replace hh := Classical.not_not.1 hh
  rw [if_neg (by simpa using hh)]
  cases hau : authorise s.auth x.isGen x.hello x.name x.password with
  | undefined => exact Or.inl ⟨Or.inr rfl, rfl, rfl⟩
  | refused => exact Or.inl ⟨Or.inl rfl, rfl, rfl⟩
  | authorised n =>
    simp only
    by_cases hb : ¬ (allowed s.pton (if x.status then (s.client n).networkAllowStatus else (s.client n).networkAllow) x.addr = true)
    · rw [if_pos (by simpa using hb)]; exact Or.inl ⟨Or.inl rfl, rfl, rfl⟩
    replace hb := Classical.not_not.1 hb
    rw [if_neg (by simpa using hb)]
    have hadr : AddressOk s n x := by
      constructor
      · intro h; rw [h] at ha hb; exact ⟨ha, hb⟩
      · intro h; rw [h] at ha hb; exact ⟨ha, hb⟩
    by_cases he : ¬ ((s.client n).enabled = true)
    · rw [if_pos (by simpa using he)]; exact Or.inl ⟨Or.inl rfl, rfl, rfl⟩
    replace he := Classical.not_not.1 he
    rw [if_neg (by simpa using he)]
    have hm := maybeSign_other s ca n x
    have hm' := maybeSign_nothing s ca
    rcases e : maybeSign s ca n x with ⟨b, ca'⟩
    rw [e] at hm
    cases b with
    | error =>
      rcases hm with ⟨_, _, h, -⟩ | ⟨-, h⟩
      · cases h
      · exact Or.inl ⟨Or.inl rfl, h⟩
    | done => exact Or.inr ⟨n, rfl, hadr, he, Or.inl ⟨by rw [e], by rw [e]⟩⟩
    | nothing =>
      have hca : ca' = ca := ((hm' ca' n x).1 e).1
      subst hca
      simp only
      by_cases hc : ¬ (checkCert s n x = true)
      · rw [if_pos (by simpa using hc)]; exact Or.inl ⟨Or.inl rfl, rfl, rfl⟩
      replace hc := Classical.not_not.1 hc
      rw [if_neg (by simpa using hc)]
      by_cases hmo : x.status = true → (s.client n).canMonitor = true
      · rw [if_neg (by cases hx : x.status <;> simp_all)]
        exact Or.inr ⟨n, rfl, hadr, he, Or.inr ⟨rfl, e, hc, hmo⟩⟩
      · rw [if_pos (by
          simp only [Classical.not_imp] at hmo
          simp [hmo.1, hmo.2])]
        exact Or.inl ⟨Or.inl rfl, rfl, rfl⟩

end Admission

/-- C70: a connection is served as a client exactly if it comes from an allowed address, is authorised as that
client (see C36), the client is enabled, it does not ask for a certificate, it presents a certificate that
verifies, carries the name that is expected of the client and is not revoked, and, at a status port, the client
may monitor. -/
theorem C70_served_partial (s : Admission.Server) (ca : Ca) (x : Conn) (n : Str) (st : Bool) (ho : Ordinary s n x) :
    (incoming s ca x).1 = .served n st ↔
      st = x.status ∧
      AddressOk s n x ∧
      authorise s.auth x.isGen x.hello x.name x.password = .authorised n ∧
      (s.client n).enabled = true ∧
      Declines x ∧
      (∃ c cn, x.cert = some c ∧ c.verifies = true ∧ c.cn = some cn ∧ SameName cn (expectedCn s n) ∧
        NotRevoked s c) ∧
      (x.status = true → (s.client n).canMonitor = true) := by
  constructor
  · intro h
    rcases incoming_cases s ca x with ⟨h1 | h1, -⟩ | ⟨m, h1, h2, h3, ⟨h4, -⟩ | ⟨h4, h5, h6, h7⟩⟩
    · rw [h] at h1; cases h1
    · rw [h] at h1; cases h1
    · rw [h4] at h; cases h
    · rw [h4] at h
      cases h
      exact ⟨rfl, h2, h1, h3, ((maybeSign_nothing _ _ _ _ _).1 h5).2.2, (checkCert_iff _ _ _ ho).1 h6, h7⟩
  · rintro ⟨rfl, h2, h1, h3, h4, h5, h6⟩
    have hs := (maybeSign_nothing s ca ca n x).2 ⟨rfl, authorised_version h1, h4⟩
    have hc := (checkCert_iff s n x ho).2 h5
    have hh : handshake s x = true := by
      obtain ⟨c, cn, e1, e2, -⟩ := h5
      simp [handshake, e1, e2]
    have ha : allowed s.pton (if x.status then s.networkAllowStatus else s.networkAllow) x.addr = true := by
      cases hx : x.status
      · exact (h2.1 hx).1
      · exact (h2.2 hx).1
    have hb : allowed s.pton (if x.status then (s.client n).networkAllowStatus else (s.client n).networkAllow) x.addr =
        true := by
      cases hx : x.status
      · exact (h2.1 hx).2
      · exact (h2.2 hx).2
    unfold incoming runChild
    simp only [ha, hh, h1, hb, h3, hs, hc, Bool.not_true, Bool.false_eq_true, if_false]
    cases hx : x.status with
    | false => simp
    | true => simp [h6 hx]

/-- C70: a certificate that is on the list of revoked ones is never served, if they are looked for. -/
theorem C70_revoked (s : Admission.Server) (ca : Ca) (x : Conn) (n : Str) (st : Bool) (c : Cert) (l : Crl)
    (hcheck : s.caCrlCheck = true) (hname : s.caName ≠ some []) (hl : s.crl = some l) (hx : x.cert = some c)
    (hr : c.serial ∈ l.revoked) : (incoming s ca x).1 ≠ .served n st := by
  intro h
  rcases incoming_cases s ca x with ⟨h1 | h1, -⟩ | ⟨m, h1, h2, h3, ⟨h4, -⟩ | ⟨h4, h5, h6, h7⟩⟩
  · rw [h] at h1; cases h1
  · rw [h] at h1; cases h1
  · rw [h4] at h; cases h
  · unfold checkCert at h6
    rw [hx] at h6
    simp only at h6
    split at h6
    · cases h6
    split at h6
    · cases h6
    obtain ⟨-, l', e, -, h⟩ := (verifyCrl_iff s c hname).1 h6 hcheck
    rw [hl] at e
    cases e
    exact h hr

/-- C70: a certificate is signed only for a client that is authorised, enabled and at an allowed address, if the
server is set up for it, the client asks for it, its name is not that of the CA, and there is neither a
certificate nor a request in its name. It is then in the file of that client, has a serial number of its own, and
nothing changes in the files of others. -/
theorem C70_signed (s : Admission.Server) (ca : Ca) (x : Conn) (n : Str) (h : (incoming s ca x).1 = .signed n) :
    authorise s.auth x.isGen x.hello x.name x.password = .authorised n ∧ AddressOk s n x ∧
    (s.client n).enabled = true ∧ Asks x ∧ s.caName.isSome ∧ s.caName ≠ some n ∧
    ca.crt n = none ∧ ca.csr n = false ∧
    (∃ c, (incoming s ca x).2.crt n = some c ∧ c.verifies = true ∧ (incoming s ca x).2.issued = ca.issued ++ [c] ∧
      c.serial = ca.issued.length) ∧
    ∀ m, m ≠ n → (incoming s ca x).2.crt m = ca.crt m ∧ (incoming s ca x).2.csr m = ca.csr m := by
  rcases incoming_cases s ca x with ⟨h1 | h1, -⟩ | ⟨m, h1, h2, h3, ⟨h4, h5⟩ | ⟨h4, -⟩⟩
  · rw [h] at h1; cases h1
  · rw [h] at h1; cases h1
  · rw [h4] at h
    cases h
    rw [h4]
    rcases maybeSign_other s ca n x with ⟨k, cn, e1, e2, e3, e4, e5, e6, e7, e8, e9, e10, e11⟩ | ⟨e1, -⟩
    · refine ⟨h1, h2, h3, e3, by simp [e2], ?_, e5, e6, ⟨_, ?_, rfl, e11, rfl⟩, ?_⟩
      · rw [e2]; intro e; cases e; exact e4 rfl
      · simp only [e9]; simp [put]
      · intro m hm
        simp only [e9, e10]
        simp [put, hm]
    · exact absurd h5 e1
  · rw [h4] at h; cases h

/-- C70: a connection for which nothing is signed leaves the files of the CA as they were. -/
theorem C70_not_signed (s : Admission.Server) (ca : Ca) (x : Conn) (h : ∀ n, (incoming s ca x).1 ≠ .signed n) :
    (incoming s ca x).2.crt = ca.crt ∧ (incoming s ca x).2.csr = ca.csr := by
  rcases incoming_cases s ca x with ⟨-, h1⟩ | ⟨m, h1, h2, h3, ⟨h4, h5⟩ | ⟨h4, -⟩⟩
  · exact h1
  · exact absurd (by rw [h4]) (h m)
  · rw [h4]; exact ⟨rfl, rfl⟩

/-- C70, with one connection after the other: a certificate that the CA has for a name is never replaced or
removed. -/
theorem C70_never_replaced_partial (s : Admission.Server) (xs : List Conn) (ca : Ca) (n : Str) (c : Cert)
    (h : ca.crt n = some c) : (incomings s ca xs).2.crt n = some c := by
  induction xs generalizing ca with
  | nil => exact h
  | cons x xs ih =>
    refine ih _ ?_
    by_cases hs : ∃ m, (incoming s ca x).1 = .signed m
    · obtain ⟨m, hm⟩ := hs
      obtain ⟨-, -, -, -, -, -, h1, -, -, h2⟩ := C70_signed s ca x m hm
      by_cases e : n = m
      · rw [e, h1] at h; cases h
      · rw [(h2 n e).1]; exact h
    · rw [(C70_not_signed s ca x (fun m hm => hs ⟨m, hm⟩)).1]; exact h

/-- C70, with one connection after the other: at most one certificate is signed and returned in each name. -/
theorem C70_one_per_name_partial (s : Admission.Server) (xs : List Conn) (ca : Ca) (n : Str) :
    ((incomings s ca xs).1.filter (fun o => o = .signed n)).length ≤ 1 := by
  have key : ∀ (xs : List Conn) (ca : Ca) (c : Cert), ca.crt n = some c →
      (incomings s ca xs).1.filter (fun o => o = .signed n) = [] := by
    intro xs
    induction xs with
    | nil => intro _ _ _; rfl
    | cons x xs ih =>
      intro ca c hc
      have h1 : (incoming s ca x).1 ≠ .signed n := by
        intro h
        have := (C70_signed s ca x n h).2.2.2.2.2.2.1
        rw [hc] at this; cases this
      have h2 : (incoming s ca x).2.crt n = some c := by
        have := C70_never_replaced_partial s [x] ca n c hc
        exact this
      show List.filter _ (_ :: _) = []
      rw [List.filter_cons, if_neg (by simpa using h1)]
      exact ih _ c h2
  induction xs generalizing ca with
  | nil => simp [incomings]
  | cons x xs ih =>
    show (List.filter _ (_ :: _)).length ≤ 1
    rw [List.filter_cons]
    by_cases h1 : (incoming s ca x).1 = .signed n
    · rw [if_pos (by simpa using h1)]
      obtain ⟨-, -, -, -, -, -, -, -, ⟨c, hc, -⟩, -⟩ := C70_signed s ca x n h1
      rw [List.length_cons, key xs _ c hc]
      simp
    · rw [if_neg (by simpa using h1)]
      exact ih _

/-- C70: serial numbers are not used twice, whatever the clients do: those of the certificates that are issued are
0, 1, 2 and so on. -/
theorem C70_serials (s : Admission.Server) (xs : List Conn) (ca : Ca)
    (h : ca.issued.map Cert.serial = List.range ca.issued.length) :
    (incomings s ca xs).2.issued.map Cert.serial = List.range (incomings s ca xs).2.issued.length := by
  induction xs generalizing ca with
  | nil => exact h
  | cons x xs ih =>
    refine ih _ ?_
    rcases incoming_issued s ca x with e | ⟨cn, n, -, e⟩
    · rw [e]; exact h
    · rw [e, List.map_append, h, List.length_append, List.length_singleton, List.range_succ]
      rfl

/-! ### Examples, and where it fails -/

namespace Admission

/-- A server with a CA and two clients: `laptop` has a password, `desktop` has none. -/
def exAdm (revoked : List Nat) : Admission.Server where
  auth := { cnameFqdn := true, cnameLowercase := false, confdir := bytes "/c",
            load := fun p =>
              if p = bytes "/c/laptop" then some ⟨true, none, some (bytes "pw"), true⟩
              else if p = bytes "/c/desktop" then some ⟨false, none, none, true⟩ else none,
            crypt := none }
  pton := ⟨fun _ => none, fun _ => none⟩
  networkAllow := []
  networkAllowStatus := []
  client := fun _ => ⟨true, [], [], none, true⟩
  sslVerifyPeerEarly := false
  caName := some (bytes "burpCA")
  caCrlCheck := true
  crl := some ⟨bytes "burpCA", revoked⟩

/-- A connection of a client with this certificate. -/
def exConn (name password : String) (cert : Option Cert) (said : List Said) (csr : Option (Option Str)) : Conn where
  status := false
  addr := .v4 0
  cert := cert
  cipher := bytes "AES\n"
  isGen := true
  hello := bytes "hello:2.1.8"
  name := bytes name
  password := bytes password
  said := said
  csr := csr
  delivered := true

/-- A CA that has issued nothing. -/
def exCa : Ca := ⟨fun _ => none, fun _ => false, []⟩

/-- The certificate that the CA issues first, in the name given. -/
def exCert (cn : String) : Cert := ⟨true, some (bytes cn), bytes "burpCA", 0⟩

/-- `laptop` asks for a certificate in its own name, and then comes with it. -/
def exAsk : Conn := exConn "laptop" "pw" none [.aside, .gen (bytes "csr")] (some (some (bytes "laptop")))
def exCome : Conn := exConn "laptop" "pw" (some (exCert "Laptop")) [.gen (bytes "nocsr")] none

theorem ordinary_exCome : Ordinary (exAdm []) (bytes "laptop") exCome := by
  refine ⟨?_, by decide, by decide, by decide⟩
  rintro c cn h hc
  cases h
  cases hc
  exact ⟨by decide, by decide⟩

end Admission

example : (incomings (exAdm []) exCa [exAsk, exAsk, exCome]).1 =
    [.signed (bytes "laptop"), .closed, .served (bytes "laptop") false] := by decide +kernel

example : (incomings (exAdm [0]) exCa [exAsk, exCome]).1 = [.signed (bytes "laptop"), .closed] := by decide +kernel

/-- C70 fails for what is in the certificate: the name in a signing request is not compared with the name of the
client that sends it. `laptop`, with its own password, gets a certificate in the name of `desktop`, and is then
served as `desktop`, which is configured to be known by its certificate alone. In the same way any client can get a
certificate in the name of the server. -/
theorem C70_subject_violated :
    (incomings (exAdm []) exCa
      [exConn "laptop" "pw" none [.gen (bytes "csr")] (some (some (bytes "desktop"))),
       exConn "desktop" "" (some (exCert "desktop")) [.gen (bytes "nocsr")] none]).1 =
      [.signed (bytes "laptop"), .served (bytes "desktop") false] ∧
    (incomings (exAdm []) exCa
      [exConn "laptop" "pw" none [.gen (bytes "csr")] (some (some (bytes "desktop")))]).2.crt (bytes "laptop") =
      some (exCert "desktop") := by
  constructor <;> decide +kernel

/-- C70 fails for names with a NUL byte in them: a certificate in the name `laptop<NUL>.example.org` is taken for
that of `laptop`. -/
theorem C70_nul_violated :
    (incoming (exAdm []) exCa
      (exConn "laptop" "pw" (some ⟨true, some (bytes "laptop" ++ 0 :: bytes ".example.org"), bytes "burpCA", 7⟩)
        [.gen (bytes "nocsr")] none)).1 = .served (bytes "laptop") false := by decide +kernel

/-- C70 fails for connections at the same time: two connections of the same client find that there is no
certificate; one of them gets its certificate; the other then sends no request, and removes the files of the
first. The CA has forgotten about the certificate, and will sign another one in this name. -/
theorem C70_race_violated (caName client cn : Str) (ca : Ca) (h : signBegin caName ca client = true) :
    -- both connections ask in this state; the first goes on to the end
    ∃ received, signReceive ca client (some (some cn)) = some received ∧
      ∃ done, signEnd (signSign caName received client (some (some cn))) client true = (true, done) ∧
        (done.crt client).isSome ∧
        -- the second goes on: its request does not arrive
        signReceive done client none = none ∧ (done.unlink client).crt client = none ∧
        signBegin caName (done.unlink client) client = true := by
  refine ⟨_, rfl,
    { ca with
      crt := put ca.crt client (some ⟨true, some cn, caName, ca.issued.length⟩)
      csr := put ca.csr client true
      issued := ca.issued ++ [⟨true, some cn, caName, ca.issued.length⟩] }, ?_, ?_, rfl, ?_, ?_⟩
  · simp [signSign, signEnd, put]
  · simp [put]
  · simp [Ca.unlink, put]
  · unfold signBegin at h
    split at h
    · cases h
    · rename_i hn
      simp [signBegin, Ca.unlink, put, hn]

end Verif
