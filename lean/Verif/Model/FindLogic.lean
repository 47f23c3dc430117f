import Verif.Model.ConfLine
import Verif.Model.Find

/-!
# Logic expressions: `src/client/find_logic.c`, with the helpers for it from `src/handy.c`

Allocation does not fail. The caches of parsed expressions and of compiled regular expressions are left out:
they give what was computed before. Regular expressions are a parameter.
-/

namespace Verif.FindLogic
open Verif

/-- `'\''`, `'"'`, `'\\'`, `'('`, `')'`, `'='`. -/
abbrev squote : Byte := 39
abbrev dquote : Byte := 34
abbrev backslash : Byte := 92
abbrev lparen : Byte := 40
abbrev rparen : Byte := 41
abbrev equals : Byte := 61

/-! ### Splitting the text -/

/-- `charcount_noescaped`, src/handy.c:614-646, from a point in the text: the quote it is in, the byte
before. -/
def charcount (search : Byte) (rep : Bool) (quote prev : Option Byte) : Str → Nat
  | [] => 0
  | c :: cs =>
    if quote = none ∧ (c = squote ∨ c = dquote) then charcount search rep (some c) (some c) cs
    else if quote = some c then
      if prev = some backslash then charcount search rep quote (some c) cs
      else charcount search rep none (some c) cs
    else if quote = none ∧ c = search then
      if prev = some backslash then charcount search rep quote (some c) cs
      else if rep = true ∨ prev ≠ some c then charcount search rep quote (some c) cs + 1
      else charcount search rep quote (some c) cs
    else charcount search rep quote (some c) cs

/-- The loop of `charreplace_noescaped_w`, src/handy.c:674-695. -/
def replaceLoop (search : Byte) (replace : Str) (quote prev : Option Byte) : Str → Str
  | [] => []
  | c :: cs =>
    if quote = none ∧ (c = squote ∨ c = dquote) then c :: replaceLoop search replace (some c) (some c) cs
    else if quote = some c then
      if prev = some backslash then c :: replaceLoop search replace quote (some c) cs
      else c :: replaceLoop search replace none (some c) cs
    else if quote = none ∧ c = search then
      if prev = some backslash then c :: replaceLoop search replace quote (some c) cs
      else replace ++ replaceLoop search replace quote (some c) cs
    else c :: replaceLoop search replace quote (some c) cs

/-- `charreplace_noescaped_w`, src/handy.c:648-700: the text and the number of replacements. -/
def charreplace (orig : Str) (search : Byte) (replace : Str) : Str × Nat :=
  let n := charcount search true none none orig
  (if n = 0 then orig else replaceLoop search replace none none orig, n)

/-- `strip_whitespace_w`, src/handy.c:741-760; `none` if it reads outside of the text: there is nothing but
blanks. -/
def stripWhitespace (src : Str) : Option Str :=
  if src.all (· = space) then none
  else if src.head? ≠ some space ∧ src.getLast? ≠ some space then some src
  else some ((src.dropWhile (· = space)).reverse.dropWhile (· = space)).reverse

/-- The state of the loop of `charsplit_noescaped_w`: the position `buf`, the counter `j`, the tokens (`k` is
their number). -/
structure Split where
  buf : Nat := 0
  j : Nat := 0
  toks : List Str := []
  deriving DecidableEq, Repr

/-- At a delimiter, src/handy.c:800-816. -/
def Split.cut (s : Split) (ptr : Str) (again : Bool) : Split :=
  if again then { s with buf := s.buf + 1 }
  else
    let buf := if s.toks.length > 0 then s.buf + 1 else s.buf
    ⟨buf + s.j, 0, s.toks ++ [(ptr.drop buf).take s.j]⟩

/-- The loop, src/handy.c:787-823. -/
def splitLoop (delimiter : Byte) (ptr : Str) (quote prev : Option Byte) (s : Split) : Str → Split
  | [] => s
  | c :: cs =>
    if quote = none ∧ (c = squote ∨ c = dquote) then
      splitLoop delimiter ptr (some c) (some c) { s with j := s.j + 1 } cs
    else if quote = some c then
      if prev = some backslash then splitLoop delimiter ptr quote (some c) { s with j := s.j + 1 } cs
      else splitLoop delimiter ptr none (some c) { s with j := s.j + 1 } cs
    else if quote = none ∧ c = delimiter then
      if prev = some backslash then splitLoop delimiter ptr quote (some c) { s with j := s.j + 1 } cs
      else splitLoop delimiter ptr quote (some c) (s.cut ptr (prev == some c)) cs
    else splitLoop delimiter ptr quote (some c) { s with j := s.j + 1 } cs

/-- src/handy.c:824: from what is left at `buf`, with the byte before. -/
def skipDelimiters (delimiter : Byte) (prev : Option Byte) : Str → Str
  | [] => []
  | c :: cs => if c = delimiter ∧ prev ≠ some backslash then skipDelimiters delimiter (some c) cs else c :: cs

/-- What splitting gives: a list; no list (`NULL`), since there is no delimiter; or something undefined. -/
inductive Toks where
  | list (l : List Str)
  | null
  | undefined
  deriving DecidableEq, Repr

/-- `charsplit_noescaped_w`, src/handy.c:764-838. -/
def charsplit (src : Str) (delimiter : Byte) : Toks :=
  match stripWhitespace src with
  | none => .undefined
  | some ptr =>
    if charcount delimiter false none none ptr = 0 then .null
    else
      let s := splitLoop delimiter ptr none none {} ptr
      let prev := if s.buf = 0 then none else (ptr.drop (s.buf - 1)).head?
      .list (s.toks ++ [(skipDelimiters delimiter prev (ptr.drop s.buf)).take s.j])

/-- `create_token_list`, src/client/find_logic.c:190-211: the tokens and `valid`. -/
def createTokenList (expr : Str) : Toks × Bool :=
  let n := charreplace expr lparen [space, lparen, space]
  let n2 := charreplace n.1 rparen [space, rparen, space]
  (charsplit n2.1 space, n.2 == n2.2)

/-! ### Tests -/

/-- A value, or undefined behaviour. -/
inductive Res where
  | val (n : Nat)
  | undefined
  deriving DecidableEq, Repr

/-- `strip_quotes`, src/client/find_logic.c:281-294; for a lone quote `len-2` is negative. -/
def stripQuotes (src : Str) : Option (Option Str) :=
  match src with
  | [] => some none
  | c :: cs =>
    if (c = squote ∨ c = dquote) ∧ (c :: cs).getLast? = some c then
      if cs.isEmpty then none else some (some cs.dropLast)
    else some none

/-- `eval_file_ext`, src/client/find_logic.c:297-316: `exts` are the texts behind the dots of the file
name. -/
def extsOf : Str → List Str
  | [] => []
  | c :: cs => if c = dot then cs :: extsOf cs else extsOf cs

def evalFileExt (tok fname : Str) : Res :=
  let t := tok.dropWhile (· = equals)
  if t.isEmpty then .val 0
  else match stripQuotes t with
    | none => .undefined
    | some strip => .val (if (extsOf fname).any (fun e => Find.sameCase (strip.getD t) e) then 1 else 0)

/-- `eval_path_match`, src/client/find_logic.c:319-352. -/
def evalPathMatch (regex : Str → Str → Bool) (tok fname : Str) : Res :=
  let t := tok.dropWhile (· = equals)
  if t.isEmpty then .val 0
  else match stripQuotes t with
    | none => .undefined
    | some strip => .val (if regex (strip.getD t) fname then 1 else 0)

/-- The part of a path behind the last slash, src/client/find_logic.c:357-358. -/
def lastName (fname : Str) : Str := (fname.reverse.takeWhile (· ≠ slash)).reverse

/-- `eval_file_match`, src/client/find_logic.c:355-360. -/
def evalFileMatch (regex : Str → Str → Bool) (tok fname : Str) : Res :=
  evalPathMatch regex tok (lastName fname)

/-- The comparisons of `eval_file_size`; `bad` is `EVAL_FALSE`. -/
inductive SizeOp where
  | placeholder | lt | lte | gt | gte | eq | bad
  deriving DecidableEq, Repr

/-- One character of the comparison, src/client/find_logic.c:373-398. -/
def sizeOpStep (e : SizeOp) (c : Byte) : SizeOp :=
  if c = 60 then .lt
  else if c = 62 then .gt
  else match e with
    | .lt => .lte
    | .gt => .gte
    | .placeholder => .eq
    | .eq => .eq
    | _ => .bad

def isSizeOp (c : Byte) : Bool := c = 60 || c = 62 || c = equals

/-- `eval_file_size`, src/client/find_logic.c:363-427. An error of `get_file_size` is not noticed: the number
in front is taken. (Simplification: for numbers that start with a sign.) -/
def evalFileSize (tok : Str) (filesize : Nat) : Res :=
  if tok.isEmpty then .val 0
  else
    let e := (tok.takeWhile isSizeOp).foldl sizeOpStep .placeholder
    let t := tok.dropWhile isSizeOp
    match stripQuotes t with
    | none => .undefined
    | some strip =>
      let v := strip.getD t
      let s := (ConfLine.getFileSize v).getD (ConfLine.number v)
      .val (match e with
        | .lt => if filesize < s then 1 else 0
        | .lte => if filesize ≤ s then 1 else 0
        | .gt => if filesize > s then 1 else 0
        | .gte => if filesize ≥ s then 1 else 0
        | .eq => if filesize = s then 1 else 0
        | _ => 0)

/-- What is tested: the regular expressions, the file name and its size. -/
structure Env where
  regex : Str → Str → Bool
  fname : Str
  size : Nat

/-- `eval_func`, src/client/find_logic.c:430-444. -/
def evalFunc (env : Env) (tok : Str) : Res :=
  if tok.take 8 = bytes "file_ext" then evalFileExt (tok.drop 8) env.fname
  else if tok.take 10 = bytes "file_match" then evalFileMatch env.regex (tok.drop 10) env.fname
  else if tok.take 10 = bytes "path_match" then evalPathMatch env.regex (tok.drop 10) env.fname
  else if tok.take 9 = bytes "file_size" then evalFileSize (tok.drop 9) env.size
  else .val 0

/-- The values of tokens, src/client/find_logic.c:28-32; 0 and 1 are false and true. -/
abbrev LP : Nat := 2
abbrev RP : Nat := 3
abbrev AND : Nat := 4
abbrev OR : Nat := 5
abbrev NOT : Nat := 6

/-- `str_to_node`, src/client/find_logic.c:447-463. -/
def strToNode (env : Env) (tok : Str) : Res :=
  if tok.take 3 = bytes "and" then .val AND
  else if tok.take 2 = bytes "or" then .val OR
  else if tok.take 1 = bytes "(" then .val LP
  else if tok.take 1 = bytes ")" then .val RP
  else if tok.take 3 = bytes "not" then .val NOT
  else evalFunc env tok

/-! ### Evaluating the list of tokens -/

/-- `!n`. -/
def lnot (n : Nat) : Nat := if n = 0 then 1 else 0

/-- `eval_triplet`, src/client/find_logic.c:466-481. -/
def evalTriplet (a f b df : Nat) : Nat :=
  if f = AND then (if a ≠ 0 ∧ b ≠ 0 then 1 else 0)
  else if f = OR then (if a ≠ 0 ∨ b ≠ 0 then 1 else 0)
  else df

/-- The loop that takes out negations, src/client/find_logic.c:516-532. -/
def removeNots (negate : Bool) : List Nat → List Nat
  | [] => []
  | v :: vs =>
    if v = NOT then removeNots (!negate) vs
    else (if negate then lnot v else v) :: removeNots false vs

theorem removeNots_length (b : Bool) (l : List Nat) : (removeNots b l).length ≤ l.length := by
  induction l generalizing b with
  | nil => simp [removeNots]
  | cons v vs ih =>
    unfold removeNots
    split
    · have := ih (!b); simp only [List.length_cons]; omega
    · have := ih false; simp only [List.length_cons]; omega

/-- The tokens without negations, src/client/find_logic.c:500-538. -/
def withoutNots (l : List Nat) : List Nat := if l.length > 3 ∧ NOT ∈ l then removeNots false l else l

/-- `eval_triplet` on the head of a list. -/
def tripletOf (df : Nat) : List Nat → Nat
  | a :: f :: b :: _ => evalTriplet a f b df
  | _ => df

/-- The end of `bool_eval`, src/client/find_logic.c:564-565, for at most three tokens. -/
def lastTriplet (df : Nat) : List Nat → Res
  | [] => .undefined
  | [a, f, b] => .val (evalTriplet a f b df)
  | _ => .val df

/-- `bool_eval`, src/client/find_logic.c:484-566, on a list whose links are in order. An empty list, whose head is
`NULL`, is undefined. -/
def boolEval (df : Nat) (l : List Nat) : Res :=
  match l with
  | [v] => .val v
  | [h, t] => .val (if h = NOT then lnot t else t)
  | l =>
    if (withoutNots l).length > 3 then
      boolEval df (tripletOf df (withoutNots l) :: (withoutNots l).drop 3)
    else lastTriplet df (withoutNots l)
termination_by l.length
decreasing_by
  have h1 : (withoutNots l).length ≤ l.length := by
    unfold withoutNots
    split
    · exact removeNots_length _ _
    · exact Nat.le_refl _
  simp only [List.length_cons, List.length_drop]
  omega

/-- A node of the list: its value, and whether its `prev` points to a node that has been freed. -/
abbrev Node := Nat × Bool

/-- `find`, src/client/find_logic.c:229-238: the positions, from `start` on, of a token; `i` is that of the first
node. -/
def findPos (what start i : Nat) : List Node → List Nat
  | [] => []
  | n :: ns => if start ≤ i ∧ n.1 = what then i :: findPos what start (i + 1) ns
      else findPos what start (i + 1) ns

/-- What `parens`, src/client/find_logic.c:246-278, finds. If there is no closing parenthesis, freed memory is
read. -/
inductive Parens where
  | no
  | undefined
  | at (left right : Nat)
  deriving DecidableEq, Repr

def parens (l : List Node) : Parens :=
  match (findPos LP 0 0 l).getLast? with
  | none => .no
  | some left =>
    match (findPos RP (left + 4) 0 l).head? with
    | some right => .at left right
    | none =>
      match (findPos RP (left + 1) 0 l).head? with
      | some right => .at left right
      | none => .undefined

/-- The first node's `prev`, as src/client/find_logic.c:606-609 leave it. -/
def fixHead (stale : Bool) : List Node → List Node
  | [] => []
  | n :: ns => (n.1, stale) :: ns

/-- The links of a list, which `list_reset`, src/client/find_logic.c:150-167, follows from the tail, are in
order. -/
def linked (l : List Node) (tailStale : Bool) : Bool := !tailStale && l.all (fun n => !n.2)

/-- What one round of `eval_parsed_expression` leads to: a result, or another list. -/
inductive Round where
  | done (r : Res)
  | again (l : List Node) (tailStale : Bool)
  deriving DecidableEq, Repr

/-- The part between parentheses is replaced by its value, src/client/find_logic.c:582-623. `tailStale`: the
list's `tail` points to a freed node. -/
def replaceGroup (df : Nat) (l : List Node) (tailStale : Bool) (left right : Nat) : Round :=
  match l[left]? with
  | none => .done .undefined
  | some begin_ =>
    if begin_.2 then .done .undefined
    else match boolEval df (((l.map Prod.fst).drop (left + 1)).take (right - left - 1)) with
      | .undefined => .done .undefined
      | .val v =>
        .again (l.take left ++ (v, false) :: fixHead (decide (0 < left)) (l.drop (right + 1)))
          (if (l.drop (right + 1)).isEmpty then decide (left = 0) else tailStale)

/-- The body of `eval_parsed_expression`, for two tokens or more. -/
def round (df : Nat) (l : List Node) (tailStale : Bool) : Round :=
  match parens l with
  | .no => .done (if linked l tailStale then boolEval df (l.map Prod.fst) else .undefined)
  | .undefined => .done .undefined
  | .at left right => replaceGroup df l tailStale left right

/-- `eval_parsed_expression`, src/client/find_logic.c:569-625, with the `list_reset` of the list that always
follows (in `bool_eval` or in `eval_expression`). (A round always makes the list shorter.) -/
def evalParsed (df : Nat) (l : List Node) (tailStale : Bool) : Res :=
  match l with
  | [] => .val df
  | [n] => if linked [n] tailStale then .val n.1 else .undefined
  | l =>
    match round df l tailStale with
    | .done r => r
    | .again l' ts => if l'.length < l.length then evalParsed df l' ts else .undefined
termination_by l.length

/-- The tokens as nodes. -/
def nodesOf (env : Env) : List Str → Option (List Nat)
  | [] => some []
  | t :: ts => match strToNode env t, nodesOf env ts with
    | .val n, some ns => some (n :: ns)
    | _, _ => none

/-- `eval_expression`, src/client/find_logic.c:627-650. -/
def evalExpression (env : Env) (expr : Str) (df : Nat) : Res :=
  match createTokenList expr with
  | (.null, _) => .val df
  | (.undefined, _) => .undefined
  | (.list toks, valid) =>
    if !valid then .val df
    else match nodesOf env toks with
      | none => .undefined
      | some ns => evalParsed df (ns.map (fun n => (n, false))) false

/-- The loop of `is_logic`, src/client/find_logic.c:682-685. -/
def logicLoop (env : Env) (miss df : Nat) : List Str → Res
  | [] => .val df
  | e :: es => match evalExpression env e miss with
    | .undefined => .undefined
    | .val n => if n ≠ 0 then .val 1 else logicLoop env miss df es

/-- `is_logic`, src/client/find_logic.c:678-686. -/
def isLogic (env : Env) (isReg : Bool) (exprs : List Str) (miss df : Nat) : Res :=
  if exprs.isEmpty then .val miss
  else if !isReg then .val df
  else logicLoop env miss df exprs

/-- `is_logic_excluded`, src/client/find_logic.c:688-691. -/
def isLogicExcluded (env : Env) (isReg : Bool) (exprs : List Str) : Res := isLogic env isReg exprs 0 0

/-- `is_logic_included`, src/client/find_logic.c:693-696. -/
def isLogicIncluded (env : Env) (isReg : Bool) (exprs : List Str) : Res := isLogic env isReg exprs 1 0

end Verif.FindLogic
