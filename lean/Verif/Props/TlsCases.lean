import Verif.Props.Tls

/-!
# C87: cases
-/

namespace Verif.Tls
open Verif Verif.Iobuf Verif.Asfd

/-- Two messages, the second one cut by a record. -/
def twoSent : List TxEv :=
  [.append { cmd := 99, buf := bytes "hello" }, .append { cmd := 97, buf := bytes "world!" },
   .emit 12, .emit 9, .done]

example : (txRun {} twoSent).records =
    [bytes "c0005helloa0", bytes "006world!"] := by decide +kernel

/-- The first record is in: one message, and it is delivered. -/
example : (run (fresh (txRun {} twoSent).records) [.arrive, .io [] [], .take]).delivered =
    [{ cmd := 99, buf := bytes "hello" }] := by decide +kernel

/-- Both are in: both are delivered, although the first one is taken late. -/
example : (run (fresh (txRun {} twoSent).records)
    [.arrive, .io [] [], .arrive, .io [] [], .take, .io [] [], .take]).delivered =
    [{ cmd := 99, buf := bytes "hello" }, { cmd := 97, buf := bytes "world!" }] := by decide +kernel

end Verif.Tls

namespace Verif
open Verif.Iobuf Verif.Asfd Verif.Tls

/-- A peer that does not write whole buffers (that is not a burp), with three messages. -/
def otherPeer : List Str :=
  let f (n : Nat) : Str := 99 :: hex04 n ++ List.replicate n 120
  [(f 16000).take 16004, (f 16000).drop 16004 ++ f 16000 ++ f 373]

/-- C87 is about two burps: it does not hold of a peer that writes the same messages in other pieces.
All has arrived, the receiver waits for more, and the third message lies inside TLS. -/
theorem C87_other_peer :
    let c := Tls.run (fresh otherPeer)
      [.arrive, .io [] [], .arrive, .io [] [], .take, .io [] [], .take, .io [] []]
    c.wire = [] ∧ c.socket = [] ∧ c.rx.rbuf = none ∧ c.rx.err = false ∧ c.delivered.length = 2 ∧
      c.inner.length = 356 ∧ (otherPeer.map (·.length)) = [16004, 16384] := by decide +kernel

end Verif
