import Verif.Lemmas.ConfCheck
import Verif.Props.ConfFiles
import Verif.Props.Confs

/-!
# C102: a program starts only with a complete configuration

The specification is `Verif.Spec.ConfCheck`. What is read from the files is in C101 and C73.
-/

namespace Verif

open ConfCheck Confs

namespace ConfCheck

/-- What the checks of a client come to. -/
theorem client_cases {h : Host} {c : Confs} (hg : Common c) :
    ((client h c).1 = true ↔ ClientComplete h c) ∧
    ((client h c).1 = true → Fills c (client h c).2 ∧
      (∃ n, getStr (client h c).2 .CNAME = some n ∧ NameOf h c n) ∧
      getStr (client h c).2 .PASSWORD = some ((getStr c .PASSWORD).getD (bytes "password")) ∧
      getStr (client h c).2 .SSL_PEER_CN = match getStr c .SSL_PEER_CN with
        | some s => some s
        | none => (getStr c .SERVER).map (fun s => s.takeWhile (fun b => b ≠ 58))) := by
  unfold client
  cases hn : clientName h c with
  | none =>
    simp only [Bool.false_eq_true, false_iff, false_implies, and_true]
    intro hc
    obtain ⟨n, hc⟩ := hc.name
    obtain ⟨d, hd⟩ := clientName_exists hc
    rw [hn] at hd; cases hd
  | some d =>
    obtain ⟨hf, n, hcn, hname⟩ := clientName_some hg.cert hn
    simp only
    have f1 := fills_default d (bytes "password") (o := .PASSWORD) (by decide)
    have v1 := default_value d .PASSWORD (bytes "password")
    generalize he : (if (getStr d .PASSWORD).isNone then setStr d .PASSWORD (bytes "password") else d) = e at f1 v1
    have f2 := fills_peerCn e
    have F : Fills c (peerCn e) := hf.trans (f1.trans f2)
    have hd2 : ∀ o, o ≠ .CNAME → d o = c o := by
      intro o ho
      unfold clientName at hn
      split at hn
      · injection hn with hn; rw [hn]
      · obtain ⟨x, hx, hy⟩ := Option.bind_eq_some_iff.1 hn
        have hx1 : x o = c o := by
          unfold cnameFromCert at hx
          split at hx
          · injection hx with hx; rw [hx]
          · split at hx
            · injection hx with hx; rw [hx]
            · cases hx
            · injection hx with hx; rw [← hx, setStr_ne _ _ ho]
        split at hy
        · injection hy with hy; rw [← hy, hx1]
        · unfold cnameFromHost at hy
          obtain ⟨f, -, hy⟩ := Option.map_eq_some_iff.1 hy
          rw [← hy, setStr_ne _ _ ho, hx1]
    have hpw : getStr (peerCn e) .PASSWORD = some ((getStr c .PASSWORD).getD (bytes "password")) := by
      rw [f2.kept _ _ v1]
      rw [getStr_congr (hd2 .PASSWORD (by decide))]
    have he2 : ∀ o, o ≠ .CNAME → o ≠ .PASSWORD → getStr e o = getStr c o := by
      intro o h1 h2
      apply getStr_congr
      rw [← he, ← hd2 o h1]
      split
      · exact setStr_ne _ _ h2
      · rfl
    have hpeer : getStr (peerCn e) .SSL_PEER_CN = match getStr c .SSL_PEER_CN with
        | some s => some s
        | none => (getStr c .SERVER).map (fun s => s.takeWhile (fun b => b ≠ 58)) := by
      have p1 := he2 .SSL_PEER_CN (by decide) (by decide)
      have p2 := he2 .SERVER (by decide) (by decide)
      unfold peerCn
      rw [p1, p2]
      cases hp : getStr c .SSL_PEER_CN with
      | some s =>
        simp only [Option.isSome_some, if_true]
        rw [p1, hp]
      | none =>
        simp only [Option.isSome_none, Bool.false_eq_true, if_false]
        cases hs : getStr c .SERVER with
        | none => simp only [Option.map_none]; rw [p1, hp]
        | some s => simp only [Option.map_some, getStr_setStr]
    have s : ∀ o, o ∉ filled → getStr (peerCn e) o = getStr c o := fun o ho => F.str ho
    have i : ∀ o, o ∉ filled → (IsSet (peerCn e) o ↔ IsSet c o) := fun o ho => isSet_fills F ho
    refine ⟨?_, fun _ => ⟨F, ⟨n, f2.kept _ _ (f1.kept _ _ hcn), hname⟩, hpw, hpeer⟩⟩
    simp only [Bool.and_eq_true, isSome_iff, i .SERVER (by decide), s .AUTOUPGRADE_OS (by decide)]
    constructor
    · rintro ⟨⟨h1, h2⟩, h3⟩
      refine ⟨hg, ⟨n, hname⟩, h1, ?_, ?_⟩
      · intro t ht
        rw [ht] at h2
        rw [← dotdot_iff]
        simpa using h2
      · intro hca
        rw [if_pos ((isSome_iff _ _).2 ((i .CA_BURP_CA (by decide)).2 hca))] at h3
        simp only [Bool.and_eq_true, isSome_iff, i .CA_CSR_DIR (by decide), i .SSL_KEY (by decide)] at h3
        exact ⟨h3.1.1.1, h3.2⟩
    · intro hc
      refine ⟨⟨hc.server, ?_⟩, ?_⟩
      · cases ht : getStr c .AUTOUPGRADE_OS with
        | none => rfl
        | some t =>
          have := hc.os t ht
          rw [← dotdot_iff] at this
          simpa using this
      · split
        · rename_i hca
          have := hc.authority ((i .CA_BURP_CA (by decide)).1 ((isSome_iff _ _).1 hca))
          simp only [Bool.and_eq_true, isSome_iff, i .CA_CSR_DIR (by decide), i .SSL_KEY (by decide),
            i .SSL_CERT_CA (by decide), i .SSL_CERT (by decide)]
          exact ⟨⟨⟨this.1, hg.ca⟩, hg.cert⟩, this.2⟩
        · rfl

theorem nameOf_congr {h : Host} {c e : Confs} (he : ∀ o, o ≠ Opt.SSL_KEY_PASSWORD → e o = c o) {n : Str}
    (hn : NameOf h e n) : NameOf h c n := by
  have w : ∀ f m, Wanted e f m → Wanted c f m := by
    intro f m
    unfold Wanted Short
    rw [getInt_congr (he .CNAME_FQDN (by decide)), getInt_congr (he .CNAME_LOWERCASE (by decide))]
    exact id
  have g1 : getStr e .CNAME = getStr c .CNAME := getStr_congr (he _ (by decide))
  have g2 : getStr e .SSL_CERT = getStr c .SSL_CERT := getStr_congr (he _ (by decide))
  cases hn with
  | given e1 => exact .given (g1 ▸ e1)
  | cert e1 e2 e3 e4 => exact .cert (g1 ▸ e1) (g2 ▸ e2) e3 (w _ _ e4)
  | host e1 e2 e3 e4 e5 => exact .host (g1 ▸ e1) (g2 ▸ e2) e3 e4 (w _ _ e5)

theorem clientComplete_congr {h : Host} {c e : Confs} (he : ∀ o, o ≠ Opt.SSL_KEY_PASSWORD → e o = c o)
    (hc : ClientComplete h e) : ClientComplete h c := by
  have i : ∀ o, o ≠ Opt.SSL_KEY_PASSWORD → (IsSet e o ↔ IsSet c o) := fun o ho => by
    unfold IsSet; rw [getStr_congr (he o ho)]
  obtain ⟨⟨h1, h2, h3⟩, ⟨n, hn⟩, h4, h5, h6⟩ := hc
  rw [i .LOCKFILE (by decide), i .PIDFILE (by decide)] at h1
  rw [getStr_congr (he .AUTOUPGRADE_OS (by decide))] at h5
  rw [i .CA_BURP_CA (by decide), i .CA_CSR_DIR (by decide), i .SSL_KEY (by decide)] at h6
  exact ⟨⟨h1, (i _ (by decide)).1 h2, (i _ (by decide)).1 h3⟩, ⟨n, nameOf_congr he hn⟩, (i _ (by decide)).1 h4, h5, h6⟩

/-- What the checks come to, and how settings are filled in. -/
theorem check_cases (h : Host) (c : Confs) :
    ((∃ d, check h c = .ok d) ↔ (getMode c = .server ∧ ServerComplete c) ∨ (getMode c = .client ∧ ClientComplete h c)) ∧
    ∀ d, check h c = .ok d → Fills c d ∧
      getStr d .SSL_KEY_PASSWORD = some ((getStr c .SSL_KEY_PASSWORD).getD []) ∧
      (getMode c = .server → getStr d .TIMESTAMP_FORMAT = some ((getStr c .TIMESTAMP_FORMAT).getD timestampFormat)) ∧
      (getMode c = .client → (∃ n, getStr d .CNAME = some n ∧ NameOf h c n) ∧
        getStr d .PASSWORD = some ((getStr c .PASSWORD).getD (bytes "password")) ∧
        getStr d .SSL_PEER_CN = match getStr c .SSL_PEER_CN with
          | some s => some s
          | none => (getStr c .SERVER).map (fun s => s.takeWhile (fun b => b ≠ 58))) := by
  have f := fills_default c [] (o := .SSL_KEY_PASSWORD) (by decide)
  have v := default_value c .SSL_KEY_PASSWORD []
  unfold check
  simp only
  have he : ∀ o, o ≠ Opt.SSL_KEY_PASSWORD →
      (if (getStr c .SSL_KEY_PASSWORD).isNone then setStr c .SSL_KEY_PASSWORD [] else c) o = c o := by
    intro o ho
    split
    · exact setStr_ne _ _ ho
    · rfl
  generalize (if (getStr c .SSL_KEY_PASSWORD).isNone then setStr c .SSL_KEY_PASSWORD [] else c) = e at f he v
  have hm : getMode e = getMode c := getMode_congr (f.same _ (by decide))
  have hgs : ∀ o, o ≠ Opt.SSL_KEY_PASSWORD → getStr e o = getStr c o := fun o ho => getStr_congr (he o ho)
  rw [hm]
  cases hmode : getMode c with
  | unset => simp
  | server =>
    simp only [true_and, reduceCtorEq, false_and, or_false, true_implies, false_implies, and_true]
    by_cases hg : Common e
    · have hs := server_iff hg
      rw [ServerComplete.fills f] at hs
      have hsf : Fills e (server e).2 := fills_default e _ (by decide)
      rw [(general_iff e).2 hg, Bool.true_and]
      constructor
      · rw [← hs]
        constructor
        · rintro ⟨d, hd⟩
          split at hd
          · assumption
          · cases hd
        · intro h1
          exact ⟨_, by rw [if_pos h1]⟩
      · intro d hd
        split at hd
        · injection hd with hd
          subst hd
          refine ⟨f.trans hsf, hsf.kept _ _ v, ?_⟩
          rw [← hgs .TIMESTAMP_FORMAT (by decide)]
          exact default_value e .TIMESTAMP_FORMAT timestampFormat
        · cases hd
    · have hng : general e = false := by
        cases hx : general e with
        | false => rfl
        | true => exact absurd ((general_iff e).1 hx) hg
      rw [hng]
      simp only [Bool.false_and, Bool.false_eq_true, if_false, reduceCtorEq, exists_false, false_iff, false_implies,
        implies_true, and_true]
      intro hc
      exact hg ((Common.fills f).2 hc.toCommon)
  | client =>
    simp only [true_and, reduceCtorEq, false_and, false_or, true_implies, false_implies]
    by_cases hg : Common e
    · obtain ⟨hs, hv⟩ := client_cases (h := h) hg
      rw [(general_iff e).2 hg, Bool.true_and]
      constructor
      · constructor
        · rintro ⟨d, hd⟩
          split at hd
          · rename_i h1
            exact clientComplete_congr he (hs.1 h1)
          · cases hd
        · intro h1
          exact ⟨_, by rw [if_pos (hs.2 (clientComplete_congr (fun o ho => (he o ho).symm) h1))]⟩
      · intro d hd
        split at hd
        · rename_i h1
          injection hd with hd
          subst hd
          obtain ⟨w1, ⟨n, w2, w3⟩, w4, w5⟩ := hv h1
          refine ⟨f.trans w1, w1.kept _ _ v, ⟨n, w2, nameOf_congr he w3⟩, ?_, ?_⟩
          · rw [w4, hgs .PASSWORD (by decide)]
          · rw [w5, hgs .SSL_PEER_CN (by decide), hgs .SERVER (by decide)]
        · cases hd
    · have hng : general e = false := by
        cases hx : general e with
        | false => rfl
        | true => exact absurd ((general_iff e).1 hx) hg
      rw [hng]
      simp only [Bool.false_and, Bool.false_eq_true, if_false, reduceCtorEq, exists_false, false_iff, false_implies,
        implies_true, and_true]
      intro hc
      exact hg ((Common.fills f).2 hc.toCommon)

theorem start_ok {d : ConfFiles.Disk} {env : Env} {h : Host} {n : Nat} {path : Str} {c : Confs} :
    start d env h n path = .ok c ↔ ∃ c0, ConfFiles.load d env n path = .ok c0 ∧ check h c0 = .ok c := by
  unfold start
  cases ConfFiles.load d env n path with
  | undefined => simp [Out.bind]
  | error => simp [Out.bind]
  | ok c0 => simp [Out.bind]

end ConfCheck

/-- A program starts just if the settings that it has read are those of a complete server, or of a complete
client. -/
theorem C102_starts (d : ConfFiles.Disk) (env : Env) (h : Host) (n : Nat) (path : Str) :
    (∃ c, start d env h n path = .ok c) ↔ ∃ c0, ConfFiles.load d env n path = .ok c0 ∧
      ((getMode c0 = .server ∧ ServerComplete c0) ∨ (getMode c0 = .client ∧ ClientComplete h c0)) := by
  constructor
  · rintro ⟨c, hc⟩
    obtain ⟨c0, h1, h2⟩ := start_ok.1 hc
    exact ⟨c0, h1, (check_cases h c0).1.1 ⟨c, h2⟩⟩
  · rintro ⟨c0, h1, h2⟩
    obtain ⟨c, hc⟩ := (check_cases h c0).1.2 h2
    exact ⟨c, start_ok.2 ⟨c0, h1, hc⟩⟩

/-- What it starts with is what it has read, but for five settings. These are filled in only if they have not been
set. -/
theorem C102_unchanged {d : ConfFiles.Disk} {env : Env} {h : Host} {n : Nat} {path : Str} {c : Confs}
    (hs : start d env h n path = .ok c) : ∃ c0, ConfFiles.load d env n path = .ok c0 ∧
      (∀ o, o ∉ [Opt.SSL_KEY_PASSWORD, .TIMESTAMP_FORMAT, .CNAME, .PASSWORD, .SSL_PEER_CN] → c o = c0 o) ∧
      (∀ o s, getStr c0 o = some s → getStr c o = some s) := by
  obtain ⟨c0, h1, h2⟩ := start_ok.1 hs
  have := ((check_cases h c0).2 c h2).1
  exact ⟨c0, h1, this.same, this.kept⟩

/-- A server that has started is complete, and has a format for times. -/
theorem C102_server {d : ConfFiles.Disk} {env : Env} {h : Host} {n : Nat} {path : Str} {c : Confs}
    (hs : start d env h n path = .ok c) (hm : getMode c = .server) :
    ServerComplete c ∧ IsSet c .TIMESTAMP_FORMAT ∧ IsSet c .SSL_KEY_PASSWORD := by
  obtain ⟨c0, h1, h2⟩ := start_ok.1 hs
  obtain ⟨hf, hk, ht, -⟩ := (check_cases h c0).2 c h2
  have hm0 : getMode c0 = .server := by rw [← hm]; exact (getMode_congr (hf.same _ (by decide))).symm
  rcases (check_cases h c0).1.1 ⟨c, h2⟩ with ⟨-, hc⟩ | ⟨hx, -⟩
  · exact ⟨(ServerComplete.fills hf).2 hc, ⟨_, ht hm0⟩, ⟨_, hk⟩⟩
  · rw [hm0] at hx; cases hx

/-- A client that has started has the name that it should have, a password, a server, and, if none was given, it
expects the name of its server in the certificate of the server. -/
theorem C102_client_partial {d : ConfFiles.Disk} {env : Env} {h : Host} {n : Nat} {path : Str} {c : Confs}
    (hs : start d env h n path = .ok c) (hm : getMode c = .client) :
    ∃ c0, ConfFiles.load d env n path = .ok c0 ∧ ClientComplete h c0 ∧ ClientComplete h c ∧
      (∃ nm, getStr c .CNAME = some nm ∧ NameOf h c0 nm) ∧
      getStr c .PASSWORD = some ((getStr c0 .PASSWORD).getD (bytes "password")) ∧
      (∀ s, getStr c0 .SSL_PEER_CN = some s → getStr c .SSL_PEER_CN = some s) ∧
      (∀ s, getStr c0 .SSL_PEER_CN = none → getStr c .SERVER = some s → 58 ∉ s → getStr c .SSL_PEER_CN = some s) := by
  obtain ⟨c0, h1, h2⟩ := start_ok.1 hs
  obtain ⟨hf, hk, -, hcl⟩ := (check_cases h c0).2 c h2
  have hm0 : getMode c0 = .client := by rw [← hm]; exact (getMode_congr (hf.same _ (by decide))).symm
  obtain ⟨⟨nm, hn1, hn2⟩, hp, hpeer⟩ := hcl hm0
  rcases (check_cases h c0).1.1 ⟨c, h2⟩ with ⟨hx, -⟩ | ⟨-, hc⟩
  · rw [hm0] at hx; cases hx
  · refine ⟨c0, h1, hc, ?_, ⟨nm, hn1, hn2⟩, hp, fun s hs => hf.kept _ _ hs, fun s hs1 hs2 hs3 => ?_⟩
    · refine ⟨(Common.fills hf).2 hc.toCommon, ⟨nm, .given hn1⟩, (isSet_fills hf (by decide)).2 hc.server, ?_, ?_⟩
      · rw [hf.str (by decide)]; exact hc.os
      · rw [isSet_fills hf (o := .CA_BURP_CA) (by decide), isSet_fills hf (o := .CA_CSR_DIR) (by decide),
          isSet_fills hf (o := .SSL_KEY) (by decide)]
        exact hc.authority
    · rw [hf.str (by decide)] at hs2
      rw [hpeer, hs1, hs2]
      simp only [Option.map_some, Option.some.injEq]
      clear hs2 hs
      induction s with
      | nil => rfl
      | cons x xs ih =>
        have hx : x ≠ 58 := fun e => hs3 (by simp [e])
        rw [List.takeWhile_cons_of_pos (by simpa using hx), ih (fun m => hs3 (by simp [m]))]

/-! ### Examples, and where it fails -/

namespace ConfCheck

open ConfFiles

/-- A host, with or without a certificate for its client. -/
def exHost (cert : Bool) : Host :=
  ⟨fun _ => if cert then .named (bytes "Alice.example.org") else .missing, some (bytes "host.example.org")⟩

/-- A property of what a program starts with from one file. -/
def ofStart {α : Type} (cert : Bool) (content : String) (f : Confs → α) : Option α :=
  match start (disk [(bytes "/etc/burp/burp.conf", bytes content)]) plainEnv (exHost cert) 9
      (bytes "/etc/burp/burp.conf") with
  | .ok c => some (f c)
  | _ => none

end ConfCheck

example : ofStart true "mode = server\nlisten = 0.0.0.0:4971\ndirectory = /var/spool/burp\ndedup_group = global\n\
clientconfdir = /etc/burp/clientconfdir\nssl_dhfile = /d\nkeep = 7\nlockfile = /l\nssl_cert = /c\nssl_cert_ca = /a\n"
    (fun c => (getMode c, getStr c .TIMESTAMP_FORMAT)) = some (.server, some (bytes "%Y-%m-%d %H:%M:%S %z")) := by
  decide +kernel

/-- Without the number of backups to keep. -/
example : ofStart true "mode = server\nlisten = 0.0.0.0:4971\ndirectory = /var/spool/burp\ndedup_group = global\n\
clientconfdir = /etc/burp/clientconfdir\nssl_dhfile = /d\nlockfile = /l\nssl_cert = /c\nssl_cert_ca = /a\n"
    (fun c => getMode c) = none := by decide +kernel

example : ofStart true "mode = client\nserver = backup\npidfile = /l\nssl_cert = /c\nssl_cert_ca = /a\ncname_fqdn = 0\n\
cname_lowercase = 1\n"
    (fun c => (getStr c .CNAME, getStr c .PASSWORD, getStr c .SSL_PEER_CN)) =
    some (some (bytes "alice"), some (bytes "password"), some (bytes "backup")) := by decide +kernel

example : ofStart false "mode = client\nserver = backup\npidfile = /l\nssl_cert = /c\nssl_cert_ca = /a\npassword = x\n"
    (fun c => (getStr c .CNAME, getStr c .PASSWORD, getStr c .SSL_PEER_CN)) =
    some (some (bytes "host.example.org"), some (bytes "x"), some (bytes "backup")) := by decide +kernel

example : ofStart false "mode = client\nserver = s\npidfile = /l\nssl_cert = /c\nssl_cert_ca = /a\n\
autoupgrade_os = ../x\n" (fun c => getMode c) = none := by decide +kernel

/-- C102 fails: the name that a client expects in the certificate of its server should be that of the server if none
is given. For a server that is given by an address of IPv6 it is what comes before the first colon, here nothing. -/
theorem C102_peer_violated : ofStart true "mode = client\nserver = ::1\nlockfile = /l\nssl_cert = /c\nssl_cert_ca = /a\n"
    (fun c => (getStr c .SERVER, getStr c .SSL_PEER_CN)) = some (some (bytes "::1"), some []) := by decide +kernel

/-- C102 fails: the settings of a client on the server are not checked. Its own file can have a method of recovery that
is not known, and a relative path for backups that are to be deleted, which the server would not start with. -/
theorem C102_client_file_violated :
    (match loadGlobal (exEnv []) (bytes "/etc/burp/burp-server.conf")
        [bytes "mode = server", bytes "listen = 0.0.0.0:4971", bytes "directory = /var/spool/burp",
         bytes "dedup_group = global", bytes "clientconfdir = /etc/burp/clientconfdir", bytes "ssl_dhfile = /d",
         bytes "keep = 7", bytes "lockfile = /l", bytes "ssl_cert = /c", bytes "ssl_cert_ca = /a"] with
     | .ok g => match check (exHost true) g with
       | .ok g => match loadClient (exEnv []) g (some (bytes "alice")) none
           [bytes "working_dir_recovery_method = use", bytes "manual_delete = trash"] with
         | .ok c => some (getRecovery g, getRecovery c, getStr c .MANUAL_DELETE)
         | _ => none
       | _ => none
     | _ => none) = some (.delete, .unset, some (bytes "trash")) := by decide +kernel

end Verif
