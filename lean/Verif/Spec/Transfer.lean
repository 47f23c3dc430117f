import Verif.Model.Transfer

/-!
# What is assumed of zlib and of the ciphers, and what a stream of messages for a file looks like
-/

namespace Verif.Transfer

/-- Everything `deflate` puts out for the pieces of a file. -/
def Zlib.compressFrom (z : Zlib) (d : z.D) : List Str → List Str
  | [] => z.finish d
  | ch :: chs => (z.deflate d ch).2 ++ z.compressFrom (z.deflate d ch).1 chs

/-- Everything `inflate` puts out for a sequence of inputs. -/
def Zlib.decompressFrom (z : Zlib) (i : z.I) : List Str → Option Str
  | [] => some []
  | m :: ms => match z.inflate i m with
    | none => none
    | some (i', ps) => (z.decompressFrom i' ms).map (ps.flatten ++ ·)

/-- zlib gives back what it was given, however the compressed bytes are cut up. -/
def Zlib.Faithful (z : Zlib) : Prop :=
  ∀ chunks ms : List Str, ms.flatten = (z.compressFrom z.dinit chunks).flatten →
    z.decompressFrom z.iinit ms = some chunks.flatten

/-- Everything the cipher puts out for a sequence of inputs. -/
def Crypt.encryptFrom (c : Crypt) (e : c.E) : List Str → Str
  | [] => c.encryptFinal e
  | p :: ps => (c.encrypt e p).2 ++ c.encryptFrom (c.encrypt e p).1 ps

/-- Everything the cipher puts out in the other direction. -/
def Crypt.decryptFrom (c : Crypt) (d : c.D) : List Str → Option Str
  | [] => c.decryptFinal d
  | m :: ms => match c.decrypt d m with
    | none => none
    | some (d', o) => (c.decryptFrom d' ms).map (o ++ ·)

/-- The cipher gives back what it was given, however the encrypted bytes are cut up. -/
def Crypt.Faithful (c : Crypt) : Prop :=
  ∀ ps ms : List Str, ms.flatten = c.encryptFrom c.einit ps → c.decryptFrom c.dinit ms = some ps.flatten

/-- A file that takes everything that is written to it. -/
def Takes (dev : Dev) : Prop := ∀ file out, dev file out = out.length

/-- Messages for the user. -/
def Noise (m : Msg) : Prop := m.cmd = .message ∨ m.cmd = .warning

instance (m : Msg) : Decidable (Noise m) := by unfold Noise; infer_instance

/-- `got` is `sent` with messages for the user put in anywhere before the last one. -/
inductive WithNoise : List Msg → List Msg → Prop where
  | last (e : Msg) : WithNoise [e] [e]
  | same (m : Msg) {sent got : List Msg} : WithNoise sent got → WithNoise (m :: sent) (m :: got)
  | noise {m : Msg} {sent got : List Msg} : Noise m → WithNoise sent got → WithNoise sent (m :: got)

/-- The bytes of a file as they are carried by a stream of messages. -/
def payloads (ms : List Msg) : List Str := (ms.filter (fun m => m.cmd = .append)).map (·.buf)

end Verif.Transfer
