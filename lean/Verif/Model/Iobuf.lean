import Verif.Model.Cmd

/-!
# Records: `src/iobuf.c`, `src/msg.c` (`send_msg_fzp`), `src/fzp.c` (`fzp_read_ensure`)

A record is a command byte and a payload of known length. Files are byte lists: writing appends to
the end, reading takes from the front. Errors of the underlying `fread`/`gzread`/`fwrite` calls and
failing allocation are not modelled.
-/

namespace Verif.Iobuf
open Verif

/-- The contents of a filled `struct iobuf`, src/iobuf.h: `cmd`, `buf`, and `len = buf.length`. -/
structure Rec where
  cmd : Byte
  buf : Str
  deriving DecidableEq, Repr

/-- A payload seen as a C string: up to the first NUL. -/
def cstr (b : Str) : Str := b.takeWhile (fun c => decide (c ≠ 0))

/-- One upper case hexadecimal digit as printed by `%X`. -/
def hexDigit (n : Nat) : Byte := UInt8.ofNat (if n % 16 < 10 then 48 + n % 16 else 55 + n % 16)

/-- Digits printed by `%X` without padding, most significant first (`n = 0` gives none). -/
def hexDigits (n : Nat) : Str :=
  if n = 0 then [] else hexDigits (n / 16) ++ [hexDigit n]
termination_by n
decreasing_by omega

/-- `printf("%04X", n)`. -/
def hex04 (n : Nat) : Str := List.replicate (4 - (hexDigits n).length) 48 ++ hexDigits n

/-- `send_msg_fzp`, src/msg.c:11-21. `out` is what was written to the file before. Returns the file
after, and whether the call succeeded. -/
def sendMsgFzp (out : Str) (r : Rec) : Str × Bool :=
  let lead := r.cmd :: hex04 (r.buf.length % 2 ^ 32)
  if lead.length ≠ 5 then (out ++ lead, false)
  else (out ++ lead ++ r.buf ++ [newline], true)

/-- The result of `fzp_read_ensure`, src/fzp.c:491-532. -/
inductive Read where
  /-- 0: all bytes got. -/
  | ok (data rest : Str)
  /-- 1: end of file before anything was got. -/
  | eof
  /-- -1: end of file after some bytes were got. -/
  | err
  deriving DecidableEq, Repr

/-- `fzp_read_ensure`, src/fzp.c:491-532, of `n` bytes from a file whose unread bytes are `f`. -/
def readEnsure (n : Nat) (f : Str) : Read :=
  if n ≤ f.length then .ok (f.take n) (f.drop n)
  else if f = [] then .eof
  else .err

/-- `isspace` in the C locale. -/
def isSpace (c : Byte) : Bool := c == 32 || (9 ≤ c && c ≤ 13)

/-- The value of a hexadecimal digit. -/
def hexVal (c : Byte) : Option Nat :=
  if 48 ≤ c ∧ c ≤ 57 then some (c.toNat - 48)
  else if 65 ≤ c ∧ c ≤ 70 then some (c.toNat - 55)
  else if 97 ≤ c ∧ c ≤ 102 then some (c.toNat - 87)
  else none

/-- The number formed by the leading hexadecimal digits, at most `w` of them; `none` if there is
no digit. -/
def scanDigits : (w : Nat) → Str → (acc : Option Nat) → Option Nat
  | 0, _, acc => acc
  | _, [], acc => acc
  | w + 1, c :: s, acc =>
    match hexVal c with
    | none => acc
    | some v => scanDigits w s (some (acc.getD 0 * 16 + v))

/-- The optional sign of a `%04X` conversion: negative?, characters left of the 4, the rest. -/
def scanSign (s : Str) : Bool × Nat × Str :=
  match s with
  | [] => (false, 4, [])
  | c :: r => if c = 45 then (true, 3, r) else if c = 43 then (false, 3, r) else (false, 4, c :: r)

/-- The optional `0x` of a `%04X` conversion. -/
def scanPrefix (w : Nat) (s : Str) : Nat × Str :=
  match s with
  | z :: x :: d :: r =>
    if z = 48 ∧ (x = 120 ∨ x = 88) ∧ (hexVal d).isSome then (w - 2, d :: r) else (w, s)
  | _ => (w, s)

/-- `sscanf(s, "%04X", &u)`: white space is skipped, then at most 4 characters are used for an
optional sign, an optional `0x` and hexadecimal digits; a negative value wraps. (A `0x` that no
digit follows is read as the digit 0; C leaves that to the implementation.) -/
def scanX (s : Str) : Option Nat :=
  let sg := scanSign (s.dropWhile isSpace)
  let px := scanPrefix sg.2.1 sg.2.2
  (scanDigits px.1 px.2 none).map (fun v => if sg.1 then (2 ^ 32 - v) % 2 ^ 32 else v)

/-- `sscanf(lead, "%c%04X", &command, &s)`, src/iobuf.c:149: `none` unless both were read. -/
def scanLead (lead : Str) : Option (Byte × Nat) :=
  match cstr lead with
  | [] => none
  | c :: s => (scanX s).map (fun n => (c, n))

/-- The result of filling a record from a file. -/
inductive Fill where
  /-- 0: a record, and the unread rest of the file. -/
  | ok (r : Rec) (rest : Str)
  /-- 1: end of file. -/
  | eof
  /-- -1 -/
  | err
  deriving DecidableEq, Repr

/-- `do_iobuf_fill_from_fzp`, src/iobuf.c:129-170. -/
def fillFzp (f : Str) (extra : Nat) : Fill :=
  match readEnsure 5 f with
  | .eof => .eof
  | .err => .err
  | .ok lead f1 =>
    match scanLead lead with
    | none => .err
    | some (c, len) =>
      match readEnsure (len + extra) f1 with
      | .eof => .eof
      | .err => .err
      | .ok data f2 => .ok ⟨c, data.take len⟩ f2

/-- `iobuf_fill_from_fzp`, src/iobuf.c:172-175. -/
def fill (f : Str) : Fill := fillFzp f 1

theorem fill_lt {f : Str} {r : Rec} {rest : Str} (h : fill f = .ok r rest) :
    rest.length < f.length := by
  unfold fill fillFzp readEnsure at h
  split at h
  · simp at h
  · simp at h
  · rename_i lead f1 h1
    split at h1
    · simp only [Read.ok.injEq] at h1
      obtain ⟨rfl, rfl⟩ := h1
      split at h
      · simp at h
      · split at h
        · simp at h
        · simp at h
        · rename_i h2
          split at h2
          · simp only [Read.ok.injEq] at h2
            obtain ⟨rfl, rfl⟩ := h2
            simp only [Fill.ok.injEq] at h
            rw [← h.2]
            simp only [List.length_drop]
            omega
          · split at h2 <;> simp at h2
    · split at h1 <;> simp at h1

/-- Repeatedly reading records until the end of the file or an error: the records, and whether the
end was clean. -/
def readAll (f : Str) : List Rec × Bool :=
  match h : fill f with
  | .eof => ([], true)
  | .err => ([], false)
  | .ok r rest =>
    have _ := fill_lt h
    (r :: (readAll rest).1, (readAll rest).2)
termination_by f.length

/-- Writing records one after the other, stopping at the first failure. -/
def writeAll (out : Str) : List Rec → Str × Bool
  | [] => (out, true)
  | r :: rs =>
    match sendMsgFzp out r with
    | (out', true) => writeAll out' rs
    | (out', false) => (out', false)

/-- `iobuf_pathcmp`, src/iobuf.c:71-97, on the command and path of two entries. -/
def iobufPathcmp (a b : Cmd × Option Str) : Int :=
  let r := PathCmp.pathcmpP a.2 b.2
  if r ≠ 0 then r
  else if a.1 = .metadata ∨ a.1 = .encMetadata then
    if b.1 = .metadata ∨ b.1 = .encMetadata then 0 else 1
  else if a.1 = .vss ∨ a.1 = .encVss then
    if b.1 = .vss ∨ b.1 = .encVss then 0 else -1
  else if a.1 = .vssT ∨ a.1 = .encVssT then
    if b.1 = .vssT ∨ b.1 = .encVssT then 0 else 1
  else
    if b.1 = .metadata ∨ b.1 = .encMetadata then -1
    else if b.1 = .vss ∨ b.1 = .encVss then 1
    else if b.1 = .vssT ∨ b.1 = .encVssT then -1
    else 0

end Verif.Iobuf
