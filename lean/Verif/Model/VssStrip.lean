import Verif.Model.Transfer

/-!
# Stripping Windows backup streams: `src/server/vss_strip.c` and `src/bfile.c`

`vss_strip` is a program of its own that filters a file. The client has its own version for restoring
Windows files on other systems, which gets the file in pieces.
-/

namespace Verif.VssStrip
open Verif Verif.Transfer

/-- A number in the order of bytes of Intel processors; burp reads the structure as it is in memory. -/
def little : Str → Nat
  | [] => 0
  | b :: bs => b.toNat + 256 * little bs

/-- `bsidsize`, src/burp.h:177. -/
def bsidsize : Nat := 20

/-- `dwStreamId`, src/burp.h:170-176. -/
def streamId (h : Str) : Nat := little (h.take 4)

/-- `sid->Size+sid->dwStreamNameSize`, src/server/vss_strip.c:117, src/bfile.c:57, as `size_t`: 64 bits, of
which the second number is a signed number of 32 bits. Simplification: an overflow of the signed addition
wraps around. -/
def total (h : Str) : Nat :=
  let size := little ((h.drop 8).take 8)
  let name := little ((h.drop 16).take 4)
  (size + (if name < 2 ^ 31 then name else name + (2 ^ 64 - 2 ^ 32))) % 2 ^ 64

/-- `main_work`, src/server/vss_strip.c:111-129, with `ensure_read`, 52-63, `extract_data`, 91-109, and
`skip_data`, 19-35: whether it returned 0, and what it wrote. Writing does not fail. -/
def mainWork (inp : Str) : Bool × Str :=
  if inp.length < bsidsize then (true, [])
  else
    let h := inp.take bsidsize
    let rest := inp.drop bsidsize
    if streamId h = 1 then (decide (total h ≤ rest.length), rest.take (total h))
    else if total h ≤ rest.length then mainWork (rest.drop (total h))
    else (false, [])
  termination_by inp.length
  decreasing_by simp only [List.length_drop, bsidsize] at *; omega

/-- `dump_headers`, src/server/vss_strip.c:65-77: whether it returned 0, and the headers printed. -/
def dumpHeaders (inp : Str) : Bool × List Str :=
  if inp.length < bsidsize then (true, [])
  else
    let h := inp.take bsidsize
    let rest := inp.drop bsidsize
    if total h ≤ rest.length then
      let r := dumpHeaders (rest.drop (total h))
      (r.1, h :: r.2)
    else (false, [h])
  termination_by inp.length
  decreasing_by simp only [List.length_drop, bsidsize] at *; omega

/-- `struct mysid`, src/bfile.h:16-21: reading a header, of which there is `got` (`needed_s` is
`bsidsize` less the length of that), or the data after the header `h`, of which `needed_d` is `left`. -/
inductive St where
  | header (got : Str)
  | data (h : Str) (left : Nat)
  deriving DecidableEq, Repr

/-- `setup_vss_strip`, src/bfile.c:26-30. -/
def setup : St := .header []

/-- A header is complete, src/bfile.c:56-62. -/
def afterHeader (h : Str) : St := if total h = 0 then .header [] else .data h (total h)

/-- What comes of `bfile_write_vss_strip`. -/
inductive Res where
  | ok (st : St) (file : Str)
  | error (file : Str)
  /-- the -1 of a failed `write` is taken for a number of bytes: the loop goes back and on -/
  | runaway (file : Str)
  deriving DecidableEq, Repr

/-- `if(mysid->needed_s)`, src/bfile.c:45-63: the state and what is left of the buffer. -/
def headerPart (st : St) (buf : Str) : St × Str :=
  match st with
  | .data h left => (.data h left, buf)
  | .header got =>
    let n := min (bsidsize - got.length) buf.length
    let got' := got ++ buf.take n
    (if got'.length = bsidsize then afterHeader got' else .header got', buf.drop n)

/-- What `if(mysid->needed_d)` comes to. -/
inductive Part where
  | next (st : St) (file buf : Str)
  | stop (r : Res)
  deriving DecidableEq, Repr

/-- `if(mysid->needed_d)`, src/bfile.c:64-89, not on Windows. `wrote` is unsigned, so that the test for an
error finds only 0. -/
def dataPart (dev : Dev) (st : St) (file buf : Str) : Part :=
  match st with
  | .header got => .next (.header got) file buf
  | .data h left =>
    let got := min left buf.length
    if streamId h = 1 then
      if dev file (buf.take got) < 0 then .stop (.runaway file)
      else if dev file (buf.take got) = 0 then .stop (.error file)
      else
        let wrote := (dev file (buf.take got)).toNat
        .next (if left - wrote = 0 then .header [] else .data h (left - wrote))
          (file ++ (buf.take got).take wrote) (buf.drop wrote)
    else .next (if left - got = 0 then .header [] else .data h (left - got)) file (buf.drop got)

/-- The loop of `bfile_write_vss_strip`, src/bfile.c:43-90. Every round takes a byte of the buffer or ends
the loop, so the number of bytes is enough for `fuel`. -/
def stripLoop (dev : Dev) : (fuel : Nat) → St → (file buf : Str) → Res
  | _, st, file, [] => .ok st file
  | 0, _, file, _ :: _ => .error file
  | fuel + 1, st, file, b :: bs =>
    match dataPart dev (headerPart st (b :: bs)).1 file (headerPart st (b :: bs)).2 with
    | .stop r => r
    | .next st' file' buf' => stripLoop dev fuel st' file' buf'

/-- `bfile_write_vss_strip`, src/bfile.c:32-93. -/
def stripWrite (dev : Dev) (st : St) (file buf : Str) : Res := stripLoop dev buf.length st file buf

/-- The pieces of a file written one after another. -/
def stripAll (dev : Dev) (st : St) (file : Str) : List Str → Res
  | [] => .ok st file
  | b :: bs => match stripWrite dev st file b with
    | .ok st' file' => stripAll dev st' file' bs
    | r => r

end Verif.VssStrip
