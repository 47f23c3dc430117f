import Verif.Model.Auth
import Verif.Props.Prepend

/-!
# C36, C40: who is let in
-/

namespace Verif
open Verif.Auth Verif.Prepend

/-! ### C40 -/

/-- C40: a name that is accepted names a direct child of the directory of client configurations: it is one
name, has no separator and is neither `.` nor `..`, and the path that is opened leads through the
directory to it. It does not begin with a dot and does not end with `~`. -/
theorem C40_name_partial (cname dir : Str) (h : cnameValid cname = .valid) :
    components (prependS (some dir) cname) = components dir ++ [cname] ∧
    slash ∉ cname ∧ (92 : Byte) ∉ cname ∧ cname ≠ [] ∧ cname ≠ bytes "." ∧ cname ≠ bytes ".." ∧
    cname.head? ≠ some dot ∧ cname.getLast? ≠ some 126 := by
  unfold cnameValid at h
  split at h
  · cases h
  · rename_i c cs
    split at h
    · cases h
    · rename_i hn
      simp only [Bool.or_eq_true, not_or, decide_eq_true_eq, List.contains_eq_mem] at hn
      obtain ⟨⟨⟨h1, h2⟩, h3⟩, h4⟩ := hn
      have single : ∀ s : Str, slash ∉ s → s ≠ [] → components s = [s] := by
        intro s
        have : slash ∉ s → splitSep slash s = [s] := by
          induction s with
          | nil => intro _; rfl
          | cons x s ih =>
            intro hx
            simp only [List.mem_cons, not_or] at hx
            rw [splitSep, if_neg (Ne.symm hx.1), ih hx.2]
        intro hs hne
        simp [components, this hs, hne]
      rw [C53_components, single _ h2 (by simp)]
      refine ⟨by simp, h2, h3, by simp, ?_, ?_, by simpa using h1, h4⟩
      · intro e; apply h1; have := congrArg List.head? e; simpa [bytes] using this
      · intro e; apply h1; have := congrArg List.head? e; simpa [bytes] using this

/-- C40: exactly which names are accepted. -/
theorem C40_name_iff (cname : Str) : cnameValid cname = .valid ↔
    cname ≠ [] ∧ cname.head? ≠ some dot ∧ slash ∉ cname ∧ (92 : Byte) ∉ cname ∧ cname.getLast? ≠ some 126 := by
  cases cname with
  | nil => simp [cnameValid]
  | cons c cs =>
    simp only [cnameValid]
    split
    · rename_i h
      simp only [Bool.or_eq_true, decide_eq_true_eq, List.contains_eq_mem] at h
      simp only [reduceCtorEq, false_iff]
      rintro ⟨_, h1, h2, h3, h4⟩
      rcases h with ((h | h) | h) | h
      · simp [h] at h1
      · exact h2 h
      · exact h3 h
      · exact h4 h
    · rename_i h
      simp only [Bool.or_eq_true, not_or, decide_eq_true_eq, List.contains_eq_mem] at h
      obtain ⟨⟨⟨h1, h2⟩, h3⟩, h4⟩ := h
      refine ⟨fun _ => ⟨by simp, by simpa using h1, h2, h3, h4⟩, fun _ => rfl⟩

/-- C40 fails for the empty name: the check reads the byte before the string. A client gets there by
sending an empty name, or, unless `cname_fqdn` is set, any name that begins with a dot. -/
theorem C40_empty_name_violated (s : Server) (h : s.cnameFqdn = false) (password rest : Str) :
    authorise s true (bytes "hello") (dot :: rest) password = .undefined := by
  have e1 : (bytes "hello").isPrefixOf (bytes "hello") = true := by decide
  have e2 : afterColon (bytes "hello") = none := by decide
  have e3 : normalise s (dot :: rest) = [] := by
    unfold normalise stripFqdn
    rw [h]
    simp
  simp [authorise, e1, versionBad, e2, e3, checkClientAndPassword, cnameValid]

example : cnameValid (bytes "laptop1") = .valid ∧ cnameValid (bytes "../x") = .invalid ∧
    cnameValid (bytes "a/b") = .invalid ∧ cnameValid (bytes "x~") = .invalid := by decide

/-! ### C36 -/

/-- The password is right: the client has at least one of `password` and `passwd`, and it is right for all
that it has. -/
def RightPassword (s : Server) (c : ClientConf) (supplied : Str) : Prop :=
  (c.password.isSome ∨ c.passwd.isSome) ∧
  (∀ p, c.password = some p → supplied = p) ∧
  (∀ p, c.passwd = some p → ∃ f, s.crypt = some f ∧ f supplied p = some p)

/-- The hash function can be used with the `passwd` setting. -/
def HashWorks (s : Server) (c : ClientConf) (supplied : Str) : Prop :=
  ∀ p, c.passwd = some p → ∃ f e, s.crypt = some f ∧ f supplied p = some e

/-- The configuration of the client that connects. -/
def confOf (s : Server) (name : Str) : Option ClientConf := s.load (prependS (some s.confdir) (normalise s name))

/-- C36, as far as it goes: if the hash function works, a connection is authorised only if the client
greets, its name is valid, there is a configuration for it, and the password is right or is not to be
checked. -/
theorem C36_authorised_partial (s : Server) (isGen : Bool) (hello name password who : Str)
    (h : authorise s isGen hello name password = .authorised who)
    (hash : ∀ c, confOf s name = some c → HashWorks s c password) :
    who = normalise s name ∧ isGen = true ∧ bytes "hello" <+: hello ∧
    cnameValid (normalise s name) = .valid ∧
    ∃ c, confOf s name = some c ∧ c.keep = true ∧ (c.passwordCheck = true → RightPassword s c password) := by
  unfold authorise at h
  split at h
  · cases h
  rename_i h1
  split at h
  · cases h
  rename_i hvb
  unfold checkClientAndPassword at h
  split at h
  · cases h
  · cases h
  rename_i hv
  split at h
  · cases h
  rename_i c hc
  split at h
  · rename_i hp
    cases h
    simp only [Bool.or_eq_true, not_or, Bool.not_eq_true', Bool.not_eq_false] at h1
    refine ⟨rfl, h1.1, List.isPrefixOf_iff_prefix.1 h1.2, hv, c, hc, ?_⟩
    have hw := hash c hc
    unfold HashWorks at hw
    unfold RightPassword
    unfold checkPassword at hp
    split at hp
    · rename_i hpc
      split at hp
      · cases hp
      rename_i h3
      split at hp
      · cases hp
      rename_i h4
      split at hp
      · cases hp
      rename_i h5
      refine ⟨hp, fun _ => ⟨?_, ?_, ?_⟩⟩
      · cases hq : c.password <;> cases hr : c.passwd <;> simp [hq, hr] at h3 ⊢
      · intro p hp'
        simp [plainWrong, hp', comparePassword] at h4
        exact h4.symm
      · intro p hp'
        obtain ⟨f, e, hf, he⟩ := hw p hp'
        refine ⟨f, hf, ?_⟩
        simp only [hashWrong, hp', checkPasswd, hf, he, decide_eq_true_eq] at h5
        split at h5
        · exact absurd rfl h5
        · rw [he]
          split at h5
          · rename_i h6
            simp [comparePassword] at h6
            rw [← h6]
          · exact absurd rfl h5
    · rename_i hpc
      exact ⟨hp, fun h => absurd h hpc⟩
  · cases h

/-- C36, the other direction: with the right password, a client that is configured is let in. -/
theorem C36_right_password_accepted (s : Server) (hello name password : Str) (c : ClientConf)
    (hh : bytes "hello" <+: hello) (hver : ∀ v, afterColon hello = some v → 0 ≤ Version.versionToLong (some v))
    (hv : cnameValid (normalise s name) = .valid) (hc : confOf s name = some c) (hk : c.keep = true)
    (hp : c.passwordCheck = true → RightPassword s c password)
    (hl : ∀ p, c.passwd = some p → 13 ≤ p.length) :
    authorise s true hello name password = .authorised (normalise s name) := by
  have h1 : (bytes "hello").isPrefixOf hello = true := List.isPrefixOf_iff_prefix.2 hh
  have h2 : versionBad hello = false := by
    unfold versionBad
    cases h : afterColon hello with
    | none => rfl
    | some v => simp [hver v h]
  unfold confOf at hc
  have h3 : checkPassword s c password = true := by
    unfold checkPassword
    split
    · rename_i hpc
      obtain ⟨a, b, d⟩ := hp hpc
      rw [if_neg, if_neg, if_neg]
      · exact hk
      · cases hq : c.passwd with
        | none => simp [hashWrong, hq]
        | some p =>
          obtain ⟨f, hf, hfe⟩ := d p hq
          have := hl p hq
          simp [hashWrong, hq, checkPasswd, hf, hfe, comparePassword]
          omega
      · cases hq : c.password with
        | none => simp [plainWrong, hq]
        | some p => simp [plainWrong, hq, comparePassword, b p hq]
      · rcases a with a | a
        · cases hq : c.password <;> simp [hq] at a ⊢
        · cases hq : c.passwd <;> simp [hq] at a ⊢
    · exact hk
  unfold authorise
  rw [h1, h2]
  simp [checkClientAndPassword, hv, hc, h3]

/-- C36: the name under which a client is known is the one it gives, with the settings without the part
from the first dot on, and in lower case. -/
theorem C36_client_name (s : Server) (host domain : Str) (hd : dot ∉ host) :
    (s.cnameFqdn = true → s.cnameLowercase = false → normalise s (host ++ dot :: domain) = host ++ dot :: domain) ∧
    (s.cnameFqdn = false → s.cnameLowercase = false →
      normalise s (host ++ dot :: domain) = host ∧ normalise s host = host) ∧
    (s.cnameFqdn = true → s.cnameLowercase = true →
      normalise s (host ++ dot :: domain) = (host ++ dot :: domain).map toLower) ∧
    (s.cnameFqdn = false → s.cnameLowercase = true →
      normalise s (host ++ dot :: domain) = host.map toLower ∧ normalise s host = host.map toLower) := by
  have h0 : ∀ x ∈ host, x ≠ dot := fun x hx h => hd (h ▸ hx)
  have h1 : stripFqdn (host ++ dot :: domain) = host := by
    unfold stripFqdn
    rw [List.takeWhile_append_of_pos (by simpa using h0)]
    simp
  have h2 : stripFqdn host = host := by
    have := List.takeWhile_append_of_pos (l₁ := host) (l₂ := []) (p := fun c => decide (c ≠ dot)) (by simpa using h0)
    simpa [stripFqdn] using this
  refine ⟨?_, ?_, ?_, ?_⟩ <;> intro a b <;> simp [normalise, a, b, h1, h2]

/-- A server whose `crypt` knows no hashes, or that has none at all. -/
def exServer (crypt : Option (Str → Str → Option Str)) (c : ClientConf) : Server :=
  { cnameFqdn := true, cnameLowercase := false, confdir := bytes "/etc/burp/clientconfdir",
    load := fun p => if p = bytes "/etc/burp/clientconfdir/laptop" then some c else none,
    crypt := crypt }

/-- A client with a hashed password only. -/
def exClient : ClientConf := ⟨true, some (bytes "$1$aa$0123456789"), none, true⟩

/-- C36 fails when the hash function does: `check_passwd` returns -1 for an error, which the caller takes for
a match. So with a `passwd` that the system cannot hash (an unknown method, or a build without `crypt`),
every password is accepted. -/
theorem C36_crypt_failure_violated (password : Str) :
    authorise (exServer (some (fun _ _ => none)) exClient) true (bytes "hello") (bytes "laptop") password =
      .authorised (bytes "laptop") ∧
    authorise (exServer none exClient) true (bytes "hello") (bytes "laptop") password =
      .authorised (bytes "laptop") := by
  have e1 : (bytes "hello").isPrefixOf (bytes "hello") = true := by decide
  have e2 : afterColon (bytes "hello") = none := by decide
  have e3 : ∀ s : Server, s.cnameFqdn = true → s.cnameLowercase = false →
      normalise s (bytes "laptop") = bytes "laptop" := by
    intro s h1 h2; simp [normalise, h1, h2]
  have e4 : cnameValid (bytes "laptop") = .valid := by decide
  have e5 : prependS (some (bytes "/etc/burp/clientconfdir")) (bytes "laptop") =
    bytes "/etc/burp/clientconfdir/laptop" := by decide
  have e6 : ¬ (bytes "$1$aa$0123456789").length < 13 := by decide
  constructor
  · simp [authorise, e1, versionBad, e2, e3 (exServer (some (fun _ _ => none)) exClient) rfl rfl, checkClientAndPassword, e4]
    simp [exServer, e5, checkPassword, exClient, plainWrong, hashWrong, checkPasswd]
    decide
  · simp [authorise, e1, versionBad, e2, e3 (exServer none exClient) rfl rfl, checkClientAndPassword, e4]
    simp [exServer, e5, checkPassword, exClient, plainWrong, hashWrong, checkPasswd]

/-- A case of the theorems: a hash function that works, the right and a wrong password. -/
example :
    authorise (exServer (some (fun pw s => some (if pw = bytes "secret" then s else bytes "x"))) exClient) true
      (bytes "hello:2.4.0") (bytes "laptop") (bytes "secret") = .authorised (bytes "laptop") ∧
    authorise (exServer (some (fun pw s => some (if pw = bytes "secret" then s else bytes "x"))) exClient) true
      (bytes "hello:2.4.0") (bytes "laptop") (bytes "guess") = .refused := by decide +kernel

end Verif
