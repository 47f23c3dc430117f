import Verif.Model.JsonInput
import Verif.Model.BackupNumber

/-!
# JSON as text: `src/yajl`, and how a monitor client gets at it

The server makes the text of its answers with the generator of yajl (`src/yajl/yajl_gen.c`). A monitor client gets
the text as lines (`parse_readbuf_line_buf`, `src/asfd.c`) and gives each of them to the parser of yajl
(`src/yajl/yajl_lex.c`, `src/yajl/yajl_parser.c`), which calls the functions of `Verif.Model.JsonInput`.

Allocation does not fail. The parser is as `json_input_init` sets it up: it does not look whether strings are UTF-8,
and allows neither comments nor several values nor garbage after the end.
-/

namespace Verif.Yajl
open Verif.JsonInput

/-- `'"'` -/
abbrev quote : Byte := 34
/-- `'\\'` -/
abbrev backslash : Byte := 92

/-! ### Strings -/

/-- A digit of `CharToHex`, `src/yajl/yajl_encode.c:24-29`. -/
def hexChar (n : Nat) : Byte := if n < 10 then UInt8.ofNat (48 + n) else UInt8.ofNat (55 + n)

/-- What is written for one byte, `yajl_string_encode`, `src/yajl/yajl_encode.c:44-66`. Nobody asks for a solidus to
be escaped. -/
def encodeByte (c : Byte) : Str :=
  if c = 13 then [backslash, 114]
  else if c = 10 then [backslash, 110]
  else if c = backslash then [backslash, backslash]
  else if c = quote then [backslash, quote]
  else if c = 12 then [backslash, 102]
  else if c = 8 then [backslash, 98]
  else if c = 9 then [backslash, 116]
  else if c.toNat < 32 then [backslash, 117, 48, 48, hexChar (c.toNat / 16), hexChar (c.toNat % 16)]
  else [c]

/-- `yajl_string_encode`, `src/yajl/yajl_encode.c:31-76`. -/
def encode (s : Str) : Str := (s.map encodeByte).flatten

/-- A digit in `hexToDigit`, `src/yajl/yajl_encode.c:82-85`, with the arithmetic of `unsigned char`. `none` is a
failing `assert`. -/
def hexDigit (c : Byte) : Option Nat :=
  let d : Byte := if c.toNat ≥ 65 then (c &&& 0xDF) - 7 - 48 else c - 48
  if d.toNat < 16 then some d.toNat else none

/-- `hexToDigit`, `src/yajl/yajl_encode.c:78-88`, of four digits. -/
def hexVal (a b c d : Byte) : Option Nat := do
  let a ← hexDigit a
  let b ← hexDigit b
  let c ← hexDigit c
  let d ← hexDigit d
  return ((a * 16 + b) * 16 + c) * 16 + d

/-- `Utf32toUtf8`, `src/yajl/yajl_encode.c:90-114`. -/
def utf8 (n : Nat) : Str :=
  if n < 0x80 then [UInt8.ofNat n]
  else if n < 0x800 then [UInt8.ofNat (0xC0 + n / 64), UInt8.ofNat (0x80 + n % 64)]
  else if n < 0x10000 then
    [UInt8.ofNat (0xE0 + n / 4096), UInt8.ofNat (0x80 + n / 64 % 64), UInt8.ofNat (0x80 + n % 64)]
  else if n < 0x200000 then
    [UInt8.ofNat (0xF0 + n / 262144), UInt8.ofNat (0x80 + n / 4096 % 64), UInt8.ofNat (0x80 + n / 64 % 64),
      UInt8.ofNat (0x80 + n % 64)]
  else [63]

/-- The codepoint of two surrogates, `src/yajl/yajl_encode.c:148-151`. -/
def joined (hi lo : Nat) : Nat := (hi / 64 % 16 + 1) * 65536 + hi % 64 * 1024 + lo % 1024

/-- What stands for the letter behind a backslash, `src/yajl/yajl_encode.c:127-135`. `none` is a failing
`assert`. -/
def unescape (c : Byte) : Option Byte :=
  if c = 114 then some 13
  else if c = 110 then some 10
  else if c = backslash then some backslash
  else if c = 47 then some 47
  else if c = quote then some quote
  else if c = 102 then some 12
  else if c = 98 then some 8
  else if c = 116 then some 9
  else none

/-- What stands behind `\u`, `src/yajl/yajl_encode.c:136-167`, and what is left of the string. -/
def unescapeHex : Str → Option (Str × Str)
  | h1 :: h2 :: h3 :: h4 :: t => match hexVal h1 h2 h3 h4 with
    | none => none
    | some n =>
      if n / 1024 % 64 = 54 then
        if t.take 2 = [backslash, 117] then
          match t.drop 2 with
          | l1 :: l2 :: l3 :: l4 :: t' => match hexVal l1 l2 l3 l4 with
            | none => none
            | some m => some (utf8 (joined n m), t')
          | _ => none
        else some ([63], t)
      else some (utf8 n, t)
  | _ => none

/-- What stands behind a backslash, `src/yajl/yajl_encode.c:123-171`. -/
def unescapeText : Str → Option (Str × Str)
  | [] => none
  | e :: t => if e = 117 then unescapeHex t else (unescape e).map (fun x => ([x], t))

theorem unescapeText_le {t x r : Str} (h : unescapeText t = some (x, r)) : r.length < t.length := by
  cases t with
  | nil => cases h
  | cons e t =>
    rw [unescapeText] at h
    split at h
    · unfold unescapeHex at h
      split at h
      · next h1 h2 h3 h4 t =>
        split at h
        · cases h
        · split at h
          · split at h
            · have hl := congrArg List.length (show t.drop 2 = t.drop 2 from rfl)
              split at h
              · next l1 l2 l3 l4 t' heq =>
                split at h
                · cases h
                · cases h
                  have := congrArg List.length heq
                  simp only [List.length_drop, List.length_cons] at this ⊢
                  omega
              · cases h
            · cases h
              simp only [List.length_cons]
              omega
          · cases h
            simp only [List.length_cons]
            omega
      · cases h
    · cases hu : unescape e with
      | none => rw [hu] at h; cases h
      | some y => rw [hu] at h; cases h; simp

/-- `yajl_string_decode`, `src/yajl/yajl_encode.c:116-179`. `none` is a failing `assert`, or reading behind the end
of the string. -/
def decode : Str → Option Str
  | [] => some []
  | c :: t =>
    if c ≠ backslash then (decode t).map ([c] ++ ·)
    else match _h : unescapeText t with
      | none => none
      | some p => (decode p.2).map (p.1 ++ ·)
  termination_by s => s.length
  decreasing_by
    · simp
    · have := unescapeText_le (x := p.1) (r := p.2) _h
      simp only [List.length_cons]
      omega

/-! ### The generator -/

/-- `yajl_gen_state`, `src/yajl/yajl_gen.c:31-40`. -/
inductive GSt where
  | start
  | mapStart
  | mapKey
  | mapVal
  | arrStart
  | inArr
  | complete
  deriving DecidableEq, Repr

/-- A generator: `state[depth]`, and the states below. There are `YAJL_MAX_DEPTH` of them. -/
structure Gen where
  cur : GSt
  outer : List GSt
  deriving DecidableEq, Repr

/-- `yajl_gen_alloc`, `src/yajl/yajl_gen.c:135-166`. -/
def Gen.init : Gen := ⟨.start, []⟩

/-- What a call gives: the text that it appends, or it is refused. burp does not go on after that. -/
inductive GOut where
  | ok (g : Gen) (out : Str)
  | refused
  deriving DecidableEq, Repr

/-- `YAJL_MAX_DEPTH`, `src/yajl/yajl/yajl_common.h:32`. -/
def maxDepth : Nat := 128

/-- `INSERT_SEP`, `src/yajl/yajl_gen.c:206-218`. `b` is `yajl_gen_beautify`. -/
def insertSep (b : Bool) (g : Gen) : Str :=
  if g.cur = .mapKey ∨ g.cur = .inArr then (if b then [44, newline] else [44])
  else if g.cur = .mapVal then (if b then [58, space] else [58])
  else []

/-- The indentation of a depth, from `INSERT_WHITESPACE`. -/
def indent (n : Nat) : Str := List.replicate (4 * n) space

/-- `INSERT_WHITESPACE`, `src/yajl/yajl_gen.c:220-230`. -/
def insertWhitespace (b : Bool) (g : Gen) : Str :=
  if b ∧ g.cur ≠ .mapVal then indent g.outer.length else []

/-- `ENSURE_NOT_KEY`, `src/yajl/yajl_gen.c:232-236`. -/
def notKey (g : Gen) : Bool := decide (g.cur ≠ .mapKey ∧ g.cur ≠ .mapStart)

/-- `ENSURE_VALID_STATE`, `src/yajl/yajl_gen.c:240-245`. Nothing sets the state `yajl_gen_error`. -/
def valid (g : Gen) : Bool := decide (g.cur ≠ .complete)

/-- `APPENDED_ATOM`, `src/yajl/yajl_gen.c:258-275`. -/
def appendedAtom : GSt → GSt
  | .start => .complete
  | .mapStart => .mapVal
  | .mapKey => .mapVal
  | .arrStart => .inArr
  | .mapVal => .mapKey
  | s => s

/-- `FINAL_NEWLINE`, `src/yajl/yajl_gen.c:277-280`. -/
def finalNewline (b : Bool) (s : GSt) : Str := if b ∧ s = .complete then [newline] else []

/-- `%lld`. -/
def showInt (v : Int) : Str :=
  if v < 0 then 45 :: BackupNumber.decimal v.natAbs else BackupNumber.decimal v.natAbs

/-- The end of what an atom does. -/
def atom (b : Bool) (g : Gen) (text : Str) : GOut :=
  .ok ⟨appendedAtom g.cur, g.outer⟩
    (insertSep b g ++ insertWhitespace b g ++ text ++ finalNewline b (appendedAtom g.cur))

/-- `yajl_gen_integer`, `src/yajl/yajl_gen.c:282-298`. -/
def genInteger (b : Bool) (g : Gen) (v : Int) : GOut :=
  if valid g ∧ notKey g then atom b g (showInt v) else .refused

/-- `yajl_gen_string`, `src/yajl/yajl_gen.c:359-380`. -/
def genString (b : Bool) (g : Gen) (s : Str) : GOut :=
  if valid g then atom b g ([quote] ++ encode s ++ [quote]) else .refused

/-- `yajl_gen_map_open`, `src/yajl/yajl_gen.c:404-417`, and `yajl_gen_array_open`, `:435-447`. -/
def genOpen (b : Bool) (g : Gen) (s : GSt) (c : Byte) : GOut :=
  if valid g ∧ notKey g then
    if g.outer.length + 1 ≥ maxDepth then .refused
    else .ok ⟨s, g.cur :: g.outer⟩
      (insertSep b g ++ insertWhitespace b g ++ [c] ++ (if b then [newline] else []))
  else .refused

/-- `yajl_gen_map_close`, `src/yajl/yajl_gen.c:419-433`, and `yajl_gen_array_close`, `:449-462`. What is open is not
looked at. -/
def genClose (b : Bool) (g : Gen) (c : Byte) : GOut :=
  if valid g then
    match g.outer with
    | [] => .refused
    | s :: ss => .ok ⟨appendedAtom s, ss⟩
        ((if b then [newline] else []) ++ insertWhitespace b ⟨appendedAtom s, ss⟩ ++ [c] ++
          finalNewline b (appendedAtom s))
  else .refused

/-- A call of the generator. Keys are strings for it. -/
def genTok (b : Bool) (g : Gen) : Tok → GOut
  | .int v => genInteger b g v
  | .str s => genString b g s
  | .key s => genString b g s
  | .startMap => genOpen b g .mapStart 123
  | .endMap => genClose b g 125
  | .startArr => genOpen b g .arrStart 91
  | .endArr => genClose b g 93

/-- Calls, one after the other. -/
def genAll (b : Bool) (g : Gen) : List Tok → GOut
  | [] => .ok g []
  | t :: ts => match genTok b g t with
    | .refused => .refused
    | .ok g' out => match genAll b g' ts with
      | .refused => .refused
      | .ok g'' out' => .ok g'' (out ++ out')

/-- What the server sends for an answer: `json_start`, `src/server/monitor/json_output.c:55-67`, to `json_end` and
`write_all`, `:27-53` and `:83-93`, which adds the end of the line if the text is not a pretty one. -/
def answerText (b : Bool) (ts : List Tok) : Option Str :=
  match genAll b .init ts with
  | .refused => none
  | .ok _ out => some (out ++ if b then [] else [newline])

/-! ### The lexer -/

/-- `yajl_tok`, `src/yajl/yajl_lex.h:28-52`, without the end of the text and the error. -/
inductive LTok where
  | leftBracket
  | rightBracket
  | leftBrace
  | rightBrace
  | comma
  | colon
  | bool
  | null
  | integer
  | double
  | string (escapes : Bool)
  deriving DecidableEq, Repr

/-- `VHC`: a digit of a hexadecimal number, `charLookupTable`, `src/yajl/yajl_lex.c:162-208`. -/
def isHex (c : Byte) : Bool :=
  let n := c.toNat
  decide (48 ≤ n ∧ n ≤ 57 ∨ 65 ≤ n ∧ n ≤ 70 ∨ 97 ≤ n ∧ n ≤ 102)

/-- `VEC`: may stand behind a backslash. -/
def isEscape (c : Byte) : Bool :=
  decide (c = quote ∨ c = backslash ∨ c = 47 ∨ c = 98 ∨ c = 102 ∨ c = 110 ∨ c = 114 ∨ c = 116)

/-- `IJC`: may not stand in a string. -/
def isBad (c : Byte) : Bool := decide (c.toNat < 32 ∨ c = quote ∨ c = backslash)

/-- Where `yajl_lex_string` is in a string: anywhere, behind a backslash, or before the last `n + 1` digits behind
`\u`. -/
inductive StrSt where
  | plain
  | escape
  | hex (n : Nat)
  deriving DecidableEq, Repr

/-- What `yajl_lex_string` does with a byte. -/
inductive StrStep where
  | close
  | go (st : StrSt)
  | bad
  deriving DecidableEq, Repr

/-- `yajl_lex_string`, `src/yajl/yajl_lex.c:345-395`, one byte. The program skips bytes that need no attention in a
loop of their own, `yajl_string_scan`. -/
def strStep : StrSt → Byte → StrStep
  | .plain, c => if c = quote then .close else if c = backslash then .go .escape
      else if isBad c then .bad else .go .plain
  | .escape, c => if c = 117 then .go (.hex 3) else if isEscape c then .go .plain else .bad
  | .hex n, c => if isHex c then (match n with
      | 0 => .go .plain
      | n + 1 => .go (.hex n)) else .bad

/-- What becomes of a token that has begun: the text ends before it does, it is wrong, or it has a text and
something follows. -/
inductive Scan where
  | eof
  | error
  | done (k : LTok) (text : Str) (rest : Str)
  deriving DecidableEq, Repr

/-- One more byte belongs to it. -/
def Scan.cons (c : Byte) : Scan → Scan
  | .done k t r => .done k (c :: t) r
  | s => s

/-- `yajl_lex_string`, `src/yajl/yajl_lex.c:308-409`, behind the first quote. `e` is `hasEscapes`. The text that is
given back has the quote at the end. -/
def lexString (st : StrSt) (e : Bool) : Str → Scan
  | [] => .eof
  | c :: t => match strStep st c with
    | .close => .done (.string e) [c] t
    | .go st' => (lexString st' (e || decide (st' = .escape)) t).cons c
    | .bad => .error

/-- Where `yajl_lex_number` is. -/
inductive NumSt where
  | start
  | minus
  | zero
  | digits
  | dot
  | fraction
  | e
  | sign
  | exponent
  deriving DecidableEq, Repr

/-- What `yajl_lex_number` does with a byte: it may find that the number has ended before it. -/
inductive NumStep where
  | go (st : NumSt)
  | stop (k : LTok)
  | bad
  deriving DecidableEq, Repr

/-- `'0'` to `'9'`. -/
def isNum (c : Byte) : Bool := decide (48 ≤ c.toNat ∧ c.toNat ≤ 57)

/-- Behind the digits before the point: `src/yajl/yajl_lex.c:450` and `:471`. -/
def afterInt (c : Byte) : NumStep :=
  if c = dot then .go .dot else if c = 101 ∨ c = 69 then .go .e else .stop .integer

/-- `yajl_lex_number`, `src/yajl/yajl_lex.c:413-500`, one byte. -/
def numStep : NumSt → Byte → NumStep
  | .start, c => if c = 45 then .go .minus else if c = 48 then .go .zero else if isNum c then .go .digits else .bad
  | .minus, c => if c = 48 then .go .zero else if isNum c then .go .digits else .bad
  | .zero, c => afterInt c
  | .digits, c => if isNum c then .go .digits else afterInt c
  | .dot, c => if isNum c then .go .fraction else .bad
  | .fraction, c => if isNum c then .go .fraction else if c = 101 ∨ c = 69 then .go .e else .stop .double
  | .e, c => if c = 43 ∨ c = 45 then .go .sign else if isNum c then .go .exponent else .bad
  | .sign, c => if isNum c then .go .exponent else .bad
  | .exponent, c => if isNum c then .go .exponent else .stop .double

/-- `yajl_lex_number`, `src/yajl/yajl_lex.c:413-500`. -/
def lexNumber (st : NumSt) : Str → Scan
  | [] => .eof
  | c :: t => match numStep st c with
    | .go st' => (lexNumber st' t).cons c
    | .stop k => .done k [] (c :: t)
    | .bad => .error

/-- The rest of a word: `src/yajl/yajl_lex.c:622-639`, and the same for the two others. -/
def lexWord (k : LTok) : Str → Str → Scan
  | [], t => .done k [] t
  | _ :: _, [] => .eof
  | w :: ws, c :: t => if c = w then (lexWord k ws t).cons c else .error

/-- What the lexer finds: no token before the end of the text, of which it keeps what belongs to a token that has
begun (`lexer->buf`); an error; or a token with its text. -/
inductive Lexed where
  | eof (kept : Str)
  | error
  | tok (k : LTok) (text : Str) (rest : Str)
  deriving DecidableEq, Repr

/-- White space, `src/yajl/yajl_lex.c:619`. -/
def isWs (c : Byte) : Bool := decide (c = 32 ∨ 9 ≤ c.toNat ∧ c.toNat ≤ 13)

/-- The token whose first bytes are `c`, and maybe some of `t`. -/
def Scan.lexed (c : Byte) (t : Str) : Scan → Lexed
  | .eof => .eof (c :: t)
  | .error => .error
  | .done k w r => .tok k (c :: w) r

/-- What a token can be, by its first byte. -/
inductive Kind where
  | sign (k : LTok)
  | word (k : LTok) (rest : Str)
  | str
  | num (st : NumSt)
  | wrong
  deriving DecidableEq, Repr

/-- The `switch` in `yajl_lex_lex`, `src/yajl/yajl_lex.c:600-722`. -/
def kindOf (c : Byte) : Kind :=
  if c = 123 then .sign .leftBracket
  else if c = 125 then .sign .rightBracket
  else if c = 91 then .sign .leftBrace
  else if c = 93 then .sign .rightBrace
  else if c = 44 then .sign .comma
  else if c = 58 then .sign .colon
  else if c = 116 then .word .bool (bytes "rue")
  else if c = 102 then .word .bool (bytes "alse")
  else if c = 110 then .word .null (bytes "ull")
  else if c = quote then .str
  else match numStep .start c with
    | .go st => .num st
    | _ => .wrong

/-- The rest of a token, behind its first byte. -/
def scanFrom : Kind → Str → Scan
  | .sign k, t => .done k [] t
  | .word k ws, t => lexWord k ws t
  | .str, t => lexString .plain false t
  | .num st, t => lexNumber st t
  | .wrong, _ => .error

/-- `yajl_lex_lex`, `src/yajl/yajl_lex.c:551-768`. The text is what was kept from the call before, followed by what
has come since: `readChar` reads the one and then the other, and what is kept is always read again from its
beginning. The quotes of a string are in the text of the token, here. -/
def lexTok : Str → Lexed
  | [] => .eof []
  | c :: t => if isWs c then lexTok t else (scanFrom (kindOf c) t).lexed c t

/-! ### The parser -/

/-- `yajl_state`, `src/yajl/yajl_parser.h:26-41`. The state `yajl_state_got_value` is only for several values. -/
inductive PSt where
  | start
  | complete
  | parseError
  | lexError
  | mapStart
  | mapSep
  | mapNeedVal
  | mapGotVal
  | mapNeedKey
  | arrStart
  | arrGotVal
  | arrNeedVal
  deriving DecidableEq, Repr

/-- `LLONG_MAX` -/
def llongMax : Int := 9223372036854775807
/-- `LLONG_MIN` -/
def llongMin : Int := -9223372036854775808
/-- `MAX_VALUE_TO_MULTIPLY`, `src/yajl/yajl_parser.c:32`. -/
def maxToMultiply : Int := llongMax / 10 + llongMax % 10

/-- What `yajl_parse_integer` gives: a number, `ERANGE`, or an overflow of a `long long`, which is not defined. -/
inductive IntRes where
  | val (v : Int)
  | erange
  | overflow
  deriving DecidableEq, Repr

/-- The loop in `yajl_parse_integer`, `src/yajl/yajl_parser.c:44-60`. -/
def parseDigits (ret : Int) : Str → IntRes
  | [] => .val ret
  | c :: t =>
    if ret > maxToMultiply then .erange
    else if ret * 10 > llongMax then .overflow
    else if llongMax - ret * 10 < (c.toNat : Int) - 48 then .erange
    else if c.toNat < 48 ∨ c.toNat > 57 then .erange
    else parseDigits (ret * 10 + ((c.toNat : Int) - 48)) t

/-- `yajl_parse_integer`, `src/yajl/yajl_parser.c:35-63`. -/
def parseInteger (s : Str) : IntRes :=
  let neg := s.head? = some 45
  let s := if neg then s.tail else s
  let s := if s.head? = some 43 then s.tail else s
  match parseDigits 0 s with
  | .val v => .val (if neg then -v else v)
  | r => r

/-- What the parser makes of a token: it goes on in a state, with the calls that it has made; or something happens
that is not defined (an overflow, or a failing `assert`). -/
inductive POut where
  | next (cur : PSt) (outer : List PSt) (calls : List Tok)
  | undef
  deriving DecidableEq, Repr

/-- The state behind a value, `src/yajl/yajl_parser.c:364-374`. -/
def gotValue : PSt → PSt
  | .start => .complete
  | .mapNeedVal => .mapGotVal
  | _ => .arrGotVal

/-- The text of a string without its quotes, `src/yajl/yajl_lex.c:745-751`. -/
def body (w : Str) : Str := (w.drop 1).dropLast

/-- The string for a token, `src/yajl/yajl_parser.c:247-262`. -/
def stringOf (escapes : Bool) (w : Str) : Option Str := if escapes then decode (body w) else some (body w)

/-- `yajl_bs_pop`: back to the state below, `src/yajl/yajl_parser.c`. There is one, whenever this is called. -/
def pop (outer : List PSt) (calls : List Tok) : POut :=
  match outer with
  | [] => .undef
  | s :: ss => .next s ss calls

/-- A token where a value should be, `src/yajl/yajl_parser.c:224-380`. -/
def onValue (cur : PSt) (outer : List PSt) (k : LTok) (w : Str) : POut :=
  match k with
  | .string e => match stringOf e w with
    | none => .undef
    | some s => .next (gotValue cur) outer [.str s]
  | .bool => .next (gotValue cur) outer []
  | .null => .next (gotValue cur) outer []
  | .leftBracket => .next .mapStart (gotValue cur :: outer) [.startMap]
  | .leftBrace => .next .arrStart (gotValue cur :: outer) [.startArr]
  | .integer => match parseInteger w with
    | .val v => .next (gotValue cur) outer [.int v]
    | .erange => .next .parseError outer []
    | .overflow => .undef
  | .double => .next (gotValue cur) outer []
  | .rightBrace => if cur = .arrStart then pop outer [.endArr] else .next .parseError outer []
  | _ => .next .parseError outer []

/-- `yajl_do_parse`, `src/yajl/yajl_parser.c:191-505`, with a token. -/
def onTok (cur : PSt) (outer : List PSt) (k : LTok) (w : Str) : POut :=
  match cur with
  | .complete => .next .parseError outer []
  | .parseError => .next .parseError outer []
  | .lexError => .next .lexError outer []
  | .start | .mapNeedVal | .arrNeedVal | .arrStart => onValue cur outer k w
  | .mapStart | .mapNeedKey => match k with
    | .string e => match stringOf e w with
      | none => .undef
      | some s => .next .mapSep outer [.key s]
    | .rightBracket => if cur = .mapStart then pop outer [.endMap] else .next .parseError outer []
    | _ => .next .parseError outer []
  | .mapSep => match k with
    | .colon => .next .mapNeedVal outer []
    | _ => .next .parseError outer []
  | .mapGotVal => match k with
    | .rightBracket => pop outer [.endMap]
    | .comma => .next .mapNeedKey outer []
    | _ => .next .parseError outer []
  | .arrGotVal => match k with
    | .rightBrace => pop outer [.endArr]
    | .comma => .next .arrNeedVal outer []
    | _ => .next .parseError outer []

/-- A parser between two pieces of text: the stack of states, and what the lexer has kept. -/
structure Parser where
  cur : PSt
  outer : List PSt
  kept : Str
  deriving DecidableEq, Repr

/-- `yajl_alloc`, `src/yajl/yajl.c:72-106`. -/
def Parser.init : Parser := ⟨.start, [], []⟩

/-- `yajl_status` -/
inductive Status where
  | ok
  | error
  | undef
  deriving DecidableEq, Repr

/-- What `yajl_do_parse` gives. -/
structure Parsed where
  status : Status
  parser : Parser
  calls : List Tok
  deriving DecidableEq, Repr

/-- Calls that were made before. -/
def Parsed.after (calls : List Tok) (p : Parsed) : Parsed := { p with calls := calls ++ p.calls }

/-- An error that the lexer has found. At the end it is one of the parser, `src/yajl/yajl_parser.c:209-218`. -/
def lexFailed (cur : PSt) : PSt := if cur = .complete then .parseError else .lexError

theorem scan_lt {c : Byte} {t : Str} {x : Scan} (h : ∀ k w r, x = .done k w r → r.length ≤ t.length) :
    ∀ {k w r}, x.lexed c t = .tok k w r → r.length < (c :: t).length := by
  intro k w r hk
  cases x with
  | eof => cases hk
  | error => cases hk
  | done k' w' r' =>
    injection hk with _ _ h3
    subst h3
    have := h _ _ _ rfl
    simp only [List.length_cons]
    omega

theorem cons_done {c : Byte} {x : Scan} {k w r} (h : x.cons c = .done k w r) :
    ∃ w', w = c :: w' ∧ x = .done k w' r := by
  cases x with
  | eof => cases h
  | error => cases h
  | done k' w' r' =>
    injection h with h1 h2 h3
    exact ⟨w', h2.symm, by rw [h1, h3]⟩

theorem lexString_le : ∀ (t : Str) (st : StrSt) (e : Bool) {k w r},
    lexString st e t = .done k w r → r.length ≤ t.length
  | [], _, _, _, _, _, h => by cases h
  | c :: t, st, e, k, w, r, h => by
    rw [lexString] at h
    split at h
    · injection h with _ _ h3
      subst h3
      simp
    · obtain ⟨w', _, h'⟩ := cons_done h
      have := lexString_le t _ _ h'
      simp only [List.length_cons]
      omega
    · cases h

theorem lexNumber_le : ∀ (t : Str) (st : NumSt) {k w r}, lexNumber st t = .done k w r → r.length ≤ t.length
  | [], _, _, _, _, h => by cases h
  | c :: t, st, k, w, r, h => by
    rw [lexNumber] at h
    split at h
    · obtain ⟨w', _, h'⟩ := cons_done h
      have := lexNumber_le t _ h'
      simp only [List.length_cons]
      omega
    · injection h with _ _ h3
      subst h3
      exact Nat.le_refl _
    · cases h

theorem lexWord_le {k0 : LTok} : ∀ (ws t : Str) {k w r}, lexWord k0 ws t = .done k w r → r.length ≤ t.length
  | [], t, _, _, _, h => by
    injection h with _ _ h3
    subst h3
    exact Nat.le_refl _
  | _ :: _, [], _, _, _, h => by cases h
  | x :: ws, c :: t, k, w, r, h => by
    rw [lexWord] at h
    split at h
    · obtain ⟨w', _, h'⟩ := cons_done h
      have := lexWord_le ws t h'
      simp only [List.length_cons]
      omega
    · cases h

theorem scanFrom_le (x : Kind) (t : Str) {k w r} (h : scanFrom x t = .done k w r) : r.length ≤ t.length := by
  cases x with
  | sign k' =>
    injection h with _ _ h3
    subst h3
    exact Nat.le_refl _
  | word k' ws => exact lexWord_le _ _ h
  | str => exact lexString_le _ _ _ h
  | num st => exact lexNumber_le _ _ h
  | wrong => cases h

/-- A token takes something from the text. -/
theorem lexTok_lt : ∀ (t : Str) {k w r}, lexTok t = .tok k w r → r.length < t.length
  | [], _, _, _, h => by cases h
  | c :: t, k, w, r, h => by
    rw [lexTok] at h
    split at h
    · have := lexTok_lt t h
      simp only [List.length_cons]
      omega
    · exact scan_lt (fun _ _ _ => scanFrom_le _ t) h

/-- `yajl_do_parse`, `src/yajl/yajl_parser.c:191-505`: the tokens of a text, up to its end or to an error. At the end
of the value the program does not ask the lexer if nothing has come; the lexer would find nothing. -/
def parseText (cur : PSt) (outer : List PSt) (t : Str) : Parsed :=
  match _h : lexTok t with
  | .eof kept => ⟨.ok, ⟨cur, outer, kept⟩, []⟩
  | .error => ⟨.error, ⟨lexFailed cur, outer, []⟩, []⟩
  | .tok k w r => match onTok cur outer k w with
    | .undef => ⟨.undef, ⟨cur, outer, []⟩, []⟩
    | .next cur' outer' calls =>
      if cur' = .parseError ∨ cur' = .lexError then ⟨.error, ⟨cur', outer', []⟩, calls⟩
      else (parseText cur' outer' r).after calls
  termination_by t.length
  decreasing_by exact lexTok_lt t _h

/-- `yajl_parse`, `src/yajl/yajl.c:158-173`. -/
def parse (p : Parser) (t : Str) : Parsed :=
  if p.cur = .parseError ∨ p.cur = .lexError then ⟨.error, p, []⟩ else parseText p.cur p.outer (p.kept ++ t)

/-- Pieces of text, one after the other, as long as there is no error. -/
def parseAll (p : Parser) : List Str → Parsed
  | [] => ⟨.ok, p, []⟩
  | t :: ts =>
    let r := parse p t
    if r.status = .ok then (parseAll r.parser ts).after r.calls else r

/-- `yajl_complete_parse`, `src/yajl/yajl.c:186-202`, and `yajl_do_finish`, `src/yajl/yajl_parser.c:157-189`. -/
def finish (p : Parser) : Parsed :=
  let r := parse p [space]
  if r.status ≠ .ok then r
  else if r.parser.cur = .complete then r
  else { r with status := .error, parser := { r.parser with cur := .parseError } }

/-! ### A monitor client -/

/-- What there is between two calls of `json_input`: the parser, if there is one, and what has been made of the
text. -/
structure Reader where
  yajl : Option Parser
  st : St

/-- What `json_input` gives. -/
inductive JOut where
  | ret (v : Int) (r : Reader)
  | undef

/-- `json_input`, `src/client/monitor/json_input.c:582-618`. If one of the functions that the parser calls gives up,
it calls no more of them. -/
def jsonInput (now : UInt64) (r : Reader) (line : Str) : JOut :=
  let o := parse (r.yajl.getD .init) line
  match feed now r.st o.calls with
  | .undefined => .undef
  | .stop => .ret (-1) ⟨none, r.st⟩
  | .ok st => match o.status with
    | .undef => .undef
    | .error => .ret (-1) ⟨none, st⟩
    | .ok =>
      if st.depth = 0 then
        let f := finish o.parser
        match feed now st f.calls with
        | .undefined => .undef
        | .stop => .ret (-1) ⟨none, st⟩
        | .ok st' => match f.status with
          | .undef => .undef
          | .error => .ret (-1) ⟨none, st'⟩
          | .ok => .ret (result st') ⟨none, st'⟩
      else .ret 0 ⟨some o.parser, st⟩

/-- `bufmaxsize`, `src/asfd.c:582`, with `ASYNC_BUF_LEN` from `src/async.h:4`. -/
def bufMax : Nat := 16000 * 2 + 32

/-- White space at the end goes away, `src/asfd.c:97-100`. -/
def strip (s : Str) : Str := (s.reverse.dropWhile isWs).reverse

/-- What `parse_readbuf_line_buf` finds: no line yet, a line that is too long, or a line, and what follows. -/
inductive LineOut where
  | none
  | tooLong
  | line (l : Str) (rest : Str)
  deriving DecidableEq, Repr

/-- `parse_readbuf_line_buf`, `src/asfd.c:81-106`, with `extract_buf`, `:37-69`. -/
def getLine (buf : Str) : LineOut :=
  let l := buf.takeWhile (· ≠ newline)
  match buf.dropWhile (· ≠ newline) with
  | [] => .none
  | c :: rest => if l.length + 1 ≥ bufMax then .tooLong else .line (strip (l ++ [c])) rest

theorem getLine_lt {buf l rest : Str} (h : getLine buf = .line l rest) : rest.length < buf.length := by
  unfold getLine at h
  have hb := congrArg List.length (List.takeWhile_append_dropWhile (p := fun c : Byte => c ≠ newline) (l := buf))
  rw [List.length_append] at hb
  simp only at h
  split at h
  · cases h
  · next c r hr =>
    split at h
    · cases h
    · injection h with _ h2
      subst h2
      have := congrArg List.length hr
      simp only [List.length_cons] at this
      simp only [ne_eq] at hb this
      omega

/-- All the lines in what has been read, and what is left: the loop in `main_loop`,
`src/client/monitor/status_client_ncurses.c:1396-1411`. `none` is an error. -/
def getLines (buf : Str) : Option (List Str × Str) :=
  match _h : getLine buf with
  | .none => some ([], buf)
  | .tooLong => none
  | .line l rest => (getLines rest).map (fun p => (l :: p.1, p.2))
  termination_by buf.length
  decreasing_by exact getLine_lt _h

/-- Reading, `asfd_do_read`, `src/asfd.c:165-190`, until there are no more lines, again and again. A read gets no
more than there is room for; if there is no room it gets nothing, and takes this for the end of the data. -/
def readLines (buf : Str) : List Str → Option (List Str × Str)
  | [] => some ([], buf)
  | r :: rs =>
    if r.length = 0 ∨ buf.length + r.length > bufMax then none
    else match getLines (buf ++ r) with
      | none => none
      | some (ls, buf') => (readLines buf' rs).map (fun p => (ls ++ p.1, p.2))

/-- The lines of an input, one after the other, and what `json_input` returns for each of them. -/
def inputLines (now : UInt64) (r : Reader) : List Str → Option (List Int × Reader)
  | [] => some ([], r)
  | l :: ls => match jsonInput now r l with
    | .undef => none
    | .ret v r' => if v < 0 then some ([v], r') else (inputLines now r' ls).map (fun p => (v :: p.1, p.2))

/-! ### Messages of a monitor -/

/-- A byte of a message, in `logp`, `src/log.c:60-66`, in the locale of a C program that has not set one. -/
def logByte (c : Byte) : Byte :=
  if c = quote then 39 else if 32 ≤ c.toNat ∧ c.toNat ≤ 126 then c else dot

/-- What a monitor prints for a message, `src/log.c:67`. -/
def logText (msg : Str) : Str :=
  bytes "{ \"logline\": \"" ++ msg.map logByte ++ bytes "\" }" ++ [newline]

end Verif.Yajl
