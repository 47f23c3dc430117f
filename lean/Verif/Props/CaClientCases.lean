import Verif.Props.CaClient

/-!
# C84: cases, and where it fails
-/

namespace Verif
open Verif ConfLine CaClient

namespace CaClient

def exN : Paths := ⟨bytes "/etc/key", bytes "/etc/csr", bytes "/etc/cert", bytes "/etc/ca", bytes "/etc/conf", bytes "7"⟩

def exConf : Str := bytes "server = host\n# comment\nssl_peer_cn = old\ncname = me"

/-- Only the configuration file. -/
def exFS (conf : Str) : FS := fun p => if p = bytes "/etc/conf" then some conf else none

/-- All goes well, and the server has this name. -/
def exW (name : Str) : World := ⟨some (bytes "csr ok:" ++ name), true,
  [.put (bytes "/etc/key") (bytes "K"), .put (bytes "/etc/csr") (bytes "R")], true, true, bytes "C", true, bytes "A", true,
  true, true, true, true⟩

theorem exDistinct : Distinct exN := by decide +kernel

theorem exFair (name : Str) : Fair exN (exW name) := by
  refine ⟨?_, ?_⟩
  · intro o ho p hp
    simp [exW] at ho
    rcases ho with rfl | rfl
    · simp [Op.touches] at hp; exact Or.inl hp
    · simp [Op.touches] at hp; exact Or.inr hp
  · intro _ fs
    have : bytes "/etc/key" ≠ bytes "/etc/csr" := by decide +kernel
    simp [exW, exN, runAll, Op.run, this]

theorem exClean : CleanName (bytes "burpserver") :=
  ⟨by decide +kernel, by decide +kernel, 98, bytes "urpserver", 114, by decide +kernel⟩

/-- The hypotheses of `C84_got` and `C84_named_partial` are met. -/
example : ∃ ops, setup exN true (bytes "old") (exW (bytes "burpserver")) (exFS exConf) = .done ops 1 ∧
    runAll (exFS exConf) ops (bytes "/etc/conf") =
      some (bytes "server = host\n# comment\nssl_peer_cn = burpserver\ncname = me") :=
  ⟨mainOps exN (exW (bytes "burpserver")) ++
    [.put (bytes "/etc/conf.7") (bytes "server = host\n# comment\nssl_peer_cn = burpserver\ncname = me"),
      .mv (bytes "/etc/conf.7") (bytes "/etc/conf")], by decide +kernel, by decide +kernel⟩

example : ¬ bytes "burpserver" <+: bytes "old" := by decide +kernel

/-- Those of `C84_again`: the certificate does not arrive. -/
example : ∃ ops, setup exN true (bytes "old") { exW (bytes "burpserver") with certOk := false } (exFS exConf) =
    .done ops (-1) :=
  ⟨[.put (bytes "/etc/key") (bytes "K"), .put (bytes "/etc/csr") (bytes "R"), .put (bytes "/etc/cert.7") (bytes "C")] ++
    cleanup exN true, by decide +kernel⟩

end CaClient

/-- C84 fails: the new name of the server is compared with the beginning of the old one only. A client that has the
name `burpserver2` and is told `burpserver` gets its certificate, but keeps the wrong name in its configuration file,
so that from the next time on it takes the server for another one (`src/client/ca.c:249`). -/
theorem C84_prefix_violated : ∃ n peer w content ops name, Distinct n ∧ Fair n w ∧
    w.answer = some (bytes "csr ok:" ++ name) ∧ name ≠ peer ∧
    settings content = [.pair (bytes "ssl_peer_cn") peer false] ∧
    setup n true peer w (exFS content) = .done ops 1 ∧ runAll (exFS content) ops n.conf = some content :=
  ⟨exN, bytes "burpserver2", exW (bytes "burpserver"), bytes "ssl_peer_cn = burpserver2\n",
    mainOps exN (exW (bytes "burpserver")), bytes "burpserver", exDistinct, exFair _, by decide +kernel, by decide +kernel,
    by decide +kernel, by decide +kernel, by decide +kernel⟩

/-- C84 fails: without a line for the name of the server in the configuration file, none is added, and the next
time the client falls back on the address that it connects to (`src/client/ca.c:92-120`, `src/conffile.c:709-724`). -/
theorem C84_missing_violated : ∃ n w content ops name, Distinct n ∧ Fair n w ∧ CleanName name ∧
    w.answer = some (bytes "csr ok:" ++ name) ∧ ¬ name <+: bytes "host" ∧
    setup n true (bytes "host") w (exFS content) = .done ops 1 ∧
    runAll (exFS content) ops n.conf = some content ∧
    ∀ v r, .pair (bytes "ssl_peer_cn") v r ∉ settings content :=
  ⟨exN, exW (bytes "burpserver"), bytes "server = host\n",
    mainOps exN (exW (bytes "burpserver")) ++ [.put (bytes "/etc/conf.7") (bytes "server = host\n"), .del (bytes "/etc/conf.7")],
    bytes "burpserver", exDistinct, exFair _, exClean, by decide +kernel, by decide +kernel,
    by decide +kernel, by decide +kernel, by
      intro v r h
      have e : settings (bytes "server = host\n") = [.pair (bytes "server") (bytes "host") false] := by decide +kernel
      rw [e] at h
      simp at h
      have : bytes "ssl_peer_cn" ≠ bytes "server" := by decide +kernel
      exact this h.1⟩

/-- C84 fails: the name that the server gives is written as it is. At that time the client has no way yet to know
the server. A name with line breaks in it puts any other settings into the configuration file, such as a script
to be run (`src/client/ca.c:118`). -/
theorem C84_inject_violated : ∃ n w content ops new name, Distinct n ∧ Fair n w ∧
    w.answer = some (bytes "csr ok:" ++ name) ∧
    setup n true (bytes "old") w (exFS content) = .done ops 1 ∧ runAll (exFS content) ops n.conf = some new ∧
    .pair (bytes "backup_script_pre") (bytes "/evil") false ∈ settings new ∧
    .pair (bytes "backup_script_pre") (bytes "/evil") false ∉ settings content :=
  ⟨exN, exW (bytes "x\nbackup_script_pre = /evil"), bytes "ssl_peer_cn = old\n",
    mainOps exN (exW (bytes "x\nbackup_script_pre = /evil")) ++
      [.put (bytes "/etc/conf.7") (bytes "ssl_peer_cn = x\nbackup_script_pre = /evil\n"),
        .mv (bytes "/etc/conf.7") (bytes "/etc/conf")],
    bytes "ssl_peer_cn = x\nbackup_script_pre = /evil\n", bytes "x\nbackup_script_pre = /evil", exDistinct, exFair _,
    by decide +kernel, by decide +kernel, by decide +kernel, by decide +kernel, by decide +kernel⟩

/-- C84 fails: after an error the certificates are removed also if they were there before, such as that of an
authority that other programs use; only the key is known to be new (`src/client/ca.c:256-267`). -/
theorem C84_removed_violated : ∃ n peer w fs ops, Distinct n ∧ Fair n w ∧ (fs n.ca).isSome = true ∧
    (fs n.cert).isSome = true ∧ setup n true peer w fs = .done ops (-1) ∧
    runAll fs ops n.ca = none ∧ runAll fs ops n.cert = none :=
  ⟨exN, bytes "old", { exW (bytes "burpserver") with generatedOk := false },
    fun p => if p = bytes "/etc/ca" ∨ p = bytes "/etc/cert" then some (bytes "mine") else none,
    (exW []).generated ++ cleanup exN false, exDistinct,
    ⟨(exFair []).1, fun h => by cases h⟩, by decide +kernel, by decide +kernel, by decide +kernel, by decide +kernel,
    by decide +kernel⟩

/-- C84 fails: a client that is killed after the key was made, and before the certificates have come, has a key but no
certificate. From then on it does not ask again (`src/client/ca.c:199-211`). -/
theorem C84_interrupted_violated : ∃ n peer w fs ops pre, Distinct n ∧ Fair n w ∧
    setup n true peer w fs = .done ops 1 ∧ pre <+: ops ∧ runAll fs pre n.cert = none ∧
    setup n true peer w (runAll fs pre) = .done [] 0 :=
  ⟨exN, bytes "old", exW (bytes "old"), exFS exConf, mainOps exN (exW (bytes "old")), (exW []).generated,
    exDistinct, exFair _, by decide +kernel, by decide +kernel, by decide +kernel, by decide +kernel⟩

end Verif
