import Verif.Model.Timer

/-!
# Address lists: `src/ipacl.c`, and their use in `src/server/main.c`

Addresses are taken in network order, as are the masks: `cpu_to_be32` and `htobe64` put both into the
same order in memory, and the operations work bit by bit. `unsigned long` has 64 bits. Allocation does
not fail. `inet_pton` is a parameter.
-/

namespace Verif.Ipacl
open Verif.BackupNumber Verif.Timer

/-- `ipacl_netmask_map`, `src/ipacl.c:19-150`, taken over line by line. -/
def netmaskMap : List (Nat × Nat × Nat × Nat) :=
   [(0x00000000, 0x00000000, 0x00000000, 0x00000000),
    (0x80000000, 0x00000000, 0x00000000, 0x00000000),
    (0xC0000000, 0x00000000, 0x00000000, 0x00000000),
    (0xE0000000, 0x00000000, 0x00000000, 0x00000000),
    (0xF0000000, 0x00000000, 0x00000000, 0x00000000),
    (0xF8000000, 0x00000000, 0x00000000, 0x00000000),
    (0xFC000000, 0x00000000, 0x00000000, 0x00000000),
    (0xFE000000, 0x00000000, 0x00000000, 0x00000000),
    (0xFF000000, 0x00000000, 0x00000000, 0x00000000),
    (0xFF800000, 0x00000000, 0x00000000, 0x00000000),
    (0xFFC00000, 0x00000000, 0x00000000, 0x00000000),
    (0xFFE00000, 0x00000000, 0x00000000, 0x00000000),
    (0xFFF00000, 0x00000000, 0x00000000, 0x00000000),
    (0xFFF80000, 0x00000000, 0x00000000, 0x00000000),
    (0xFFFC0000, 0x00000000, 0x00000000, 0x00000000),
    (0xFFFE0000, 0x00000000, 0x00000000, 0x00000000),
    (0xFFFF0000, 0x00000000, 0x00000000, 0x00000000),
    (0xFFFF8000, 0x00000000, 0x00000000, 0x00000000),
    (0xFFFFC000, 0x00000000, 0x00000000, 0x00000000),
    (0xFFFFE000, 0x00000000, 0x00000000, 0x00000000),
    (0xFFFFF000, 0x00000000, 0x00000000, 0x00000000),
    (0xFFFFF800, 0x00000000, 0x00000000, 0x00000000),
    (0xFFFFFC00, 0x00000000, 0x00000000, 0x00000000),
    (0xFFFFFE00, 0x00000000, 0x00000000, 0x00000000),
    (0xFFFFFF00, 0x00000000, 0x00000000, 0x00000000),
    (0xFFFFFF80, 0x00000000, 0x00000000, 0x00000000),
    (0xFFFFFFC0, 0x00000000, 0x00000000, 0x00000000),
    (0xFFFFFFE0, 0x00000000, 0x00000000, 0x00000000),
    (0xFFFFFFF0, 0x00000000, 0x00000000, 0x00000000),
    (0xFFFFFFF8, 0x00000000, 0x00000000, 0x00000000),
    (0xFFFFFFFC, 0x00000000, 0x00000000, 0x00000000),
    (0xFFFFFFFE, 0x00000000, 0x00000000, 0x00000000),
    (0xFFFFFFFF, 0x00000000, 0x00000000, 0x00000000),
    (0xFFFFFFFF, 0x80000000, 0x00000000, 0x00000000),
    (0xFFFFFFFF, 0xC0000000, 0x00000000, 0x00000000),
    (0xFFFFFFFF, 0xE0000000, 0x00000000, 0x00000000),
    (0xFFFFFFFF, 0xF0000000, 0x00000000, 0x00000000),
    (0xFFFFFFFF, 0xF8000000, 0x00000000, 0x00000000),
    (0xFFFFFFFF, 0xFC000000, 0x00000000, 0x00000000),
    (0xFFFFFFFF, 0xFE000000, 0x00000000, 0x00000000),
    (0xFFFFFFFF, 0xFF000000, 0x00000000, 0x00000000),
    (0xFFFFFFFF, 0xFF800000, 0x00000000, 0x00000000),
    (0xFFFFFFFF, 0xFFC00000, 0x00000000, 0x00000000),
    (0xFFFFFFFF, 0xFFE00000, 0x00000000, 0x00000000),
    (0xFFFFFFFF, 0xFFF00000, 0x00000000, 0x00000000),
    (0xFFFFFFFF, 0xFFF80000, 0x00000000, 0x00000000),
    (0xFFFFFFFF, 0xFFFC0000, 0x00000000, 0x00000000),
    (0xFFFFFFFF, 0xFFFE0000, 0x00000000, 0x00000000),
    (0xFFFFFFFF, 0xFFFF0000, 0x00000000, 0x00000000),
    (0xFFFFFFFF, 0xFFFF8000, 0x00000000, 0x00000000),
    (0xFFFFFFFF, 0xFFFFC000, 0x00000000, 0x00000000),
    (0xFFFFFFFF, 0xFFFFE000, 0x00000000, 0x00000000),
    (0xFFFFFFFF, 0xFFFFF000, 0x00000000, 0x00000000),
    (0xFFFFFFFF, 0xFFFFF800, 0x00000000, 0x00000000),
    (0xFFFFFFFF, 0xFFFFFC00, 0x00000000, 0x00000000),
    (0xFFFFFFFF, 0xFFFFFE00, 0x00000000, 0x00000000),
    (0xFFFFFFFF, 0xFFFFFF00, 0x00000000, 0x00000000),
    (0xFFFFFFFF, 0xFFFFFF80, 0x00000000, 0x00000000),
    (0xFFFFFFFF, 0xFFFFFFC0, 0x00000000, 0x00000000),
    (0xFFFFFFFF, 0xFFFFFFE0, 0x00000000, 0x00000000),
    (0xFFFFFFFF, 0xFFFFFFF0, 0x00000000, 0x00000000),
    (0xFFFFFFFF, 0xFFFFFFF8, 0x00000000, 0x00000000),
    (0xFFFFFFFF, 0xFFFFFFFC, 0x00000000, 0x00000000),
    (0xFFFFFFFF, 0xFFFFFFFE, 0x00000000, 0x00000000),
    (0xFFFFFFFF, 0xFFFFFFFF, 0x00000000, 0x00000000),
    (0xFFFFFFFF, 0xFFFFFFFF, 0x80000000, 0x00000000),
    (0xFFFFFFFF, 0xFFFFFFFF, 0xC0000000, 0x00000000),
    (0xFFFFFFFF, 0xFFFFFFFF, 0xE0000000, 0x00000000),
    (0xFFFFFFFF, 0xFFFFFFFF, 0xF0000000, 0x00000000),
    (0xFFFFFFFF, 0xFFFFFFFF, 0xF8000000, 0x00000000),
    (0xFFFFFFFF, 0xFFFFFFFF, 0xFC000000, 0x00000000),
    (0xFFFFFFFF, 0xFFFFFFFF, 0xFE000000, 0x00000000),
    (0xFFFFFFFF, 0xFFFFFFFF, 0xFF000000, 0x00000000),
    (0xFFFFFFFF, 0xFFFFFFFF, 0xFF800000, 0x00000000),
    (0xFFFFFFFF, 0xFFFFFFFF, 0xFFC00000, 0x00000000),
    (0xFFFFFFFF, 0xFFFFFFFF, 0xFFE00000, 0x00000000),
    (0xFFFFFFFF, 0xFFFFFFFF, 0xFFF00000, 0x00000000),
    (0xFFFFFFFF, 0xFFFFFFFF, 0xFFF80000, 0x00000000),
    (0xFFFFFFFF, 0xFFFFFFFF, 0xFFFC0000, 0x00000000),
    (0xFFFFFFFF, 0xFFFFFFFF, 0xFFFE0000, 0x00000000),
    (0xFFFFFFFF, 0xFFFFFFFF, 0xFFFF0000, 0x00000000),
    (0xFFFFFFFF, 0xFFFFFFFF, 0xFFFF8000, 0x00000000),
    (0xFFFFFFFF, 0xFFFFFFFF, 0xFFFFC000, 0x00000000),
    (0xFFFFFFFF, 0xFFFFFFFF, 0xFFFFE000, 0x00000000),
    (0xFFFFFFFF, 0xFFFFFFFF, 0xFFFFF000, 0x00000000),
    (0xFFFFFFFF, 0xFFFFFFFF, 0xFFFFF800, 0x00000000),
    (0xFFFFFFFF, 0xFFFFFFFF, 0xFFFFFC00, 0x00000000),
    (0xFFFFFFFF, 0xFFFFFFFF, 0xFFFFFE00, 0x00000000),
    (0xFFFFFFFF, 0xFFFFFFFF, 0xFFFFFF00, 0x00000000),
    (0xFFFFFFFF, 0xFFFFFFFF, 0xFFFFFF80, 0x00000000),
    (0xFFFFFFFF, 0xFFFFFFFF, 0xFFFFFFC0, 0x00000000),
    (0xFFFFFFFF, 0xFFFFFFFF, 0xFFFFFFE0, 0x00000000),
    (0xFFFFFFFF, 0xFFFFFFFF, 0xFFFFFFF0, 0x00000000),
    (0xFFFFFFFF, 0xFFFFFFFF, 0xFFFFFFF8, 0x00000000),
    (0xFFFFFFFF, 0xFFFFFFFF, 0xFFFFFFFC, 0x00000000),
    (0xFFFFFFFF, 0xFFFFFFFF, 0xFFFFFFFE, 0x00000000),
    (0xFFFFFFFF, 0xFFFFFFFF, 0xFFFFFFFF, 0x00000000),
    (0xFFFFFFFF, 0xFFFFFFFF, 0xFFFFFFFF, 0x80000000),
    (0xFFFFFFFF, 0xFFFFFFFF, 0xFFFFFFFF, 0xC0000000),
    (0xFFFFFFFF, 0xFFFFFFFF, 0xFFFFFFFF, 0xE0000000),
    (0xFFFFFFFF, 0xFFFFFFFF, 0xFFFFFFFF, 0xF0000000),
    (0xFFFFFFFF, 0xFFFFFFFF, 0xFFFFFFFF, 0xF8000000),
    (0xFFFFFFFF, 0xFFFFFFFF, 0xFFFFFFFF, 0xFC000000),
    (0xFFFFFFFF, 0xFFFFFFFF, 0xFFFFFFFF, 0xFE000000),
    (0xFFFFFFFF, 0xFFFFFFFF, 0xFFFFFFFF, 0xFF000000),
    (0xFFFFFFFF, 0xFFFFFFFF, 0xFFFFFFFF, 0xFF800000),
    (0xFFFFFFFF, 0xFFFFFFFF, 0xFFFFFFFF, 0xFFC00000),
    (0xFFFFFFFF, 0xFFFFFFFF, 0xFFFFFFFF, 0xFFE00000),
    (0xFFFFFFFF, 0xFFFFFFFF, 0xFFFFFFFF, 0xFFF00000),
    (0xFFFFFFFF, 0xFFFFFFFF, 0xFFFFFFFF, 0xFFF80000),
    (0xFFFFFFFF, 0xFFFFFFFF, 0xFFFFFFFF, 0xFFFC0000),
    (0xFFFFFFFF, 0xFFFFFFFF, 0xFFFFFFFF, 0xFFFE0000),
    (0xFFFFFFFF, 0xFFFFFFFF, 0xFFFFFFFF, 0xFFFF0000),
    (0xFFFFFFFF, 0xFFFFFFFF, 0xFFFFFFFF, 0xFFFF8000),
    (0xFFFFFFFF, 0xFFFFFFFF, 0xFFFFFFFF, 0xFFFFC000),
    (0xFFFFFFFF, 0xFFFFFFFF, 0xFFFFFFFF, 0xFFFFE000),
    (0xFFFFFFFF, 0xFFFFFFFF, 0xFFFFFFFF, 0xFFFFF000),
    (0xFFFFFFFF, 0xFFFFFFFF, 0xFFFFFFFF, 0xFFFFF800),
    (0xFFFFFFFF, 0xFFFFFFFF, 0xFFFFFFFF, 0xFFFFFC00),
    (0xFFFFFFFF, 0xFFFFFFFF, 0xFFFFFFFF, 0xFFFFFE00),
    (0xFFFFFFFF, 0xFFFFFFFF, 0xFFFFFFFF, 0xFFFFFF00),
    (0xFFFFFFFF, 0xFFFFFFFF, 0xFFFFFFFF, 0xFFFFFF80),
    (0xFFFFFFFF, 0xFFFFFFFF, 0xFFFFFFFF, 0xFFFFFFC0),
    (0xFFFFFFFF, 0xFFFFFFFF, 0xFFFFFFFF, 0xFFFFFFE0),
    (0xFFFFFFFF, 0xFFFFFFFF, 0xFFFFFFFF, 0xFFFFFFF0),
    (0xFFFFFFFF, 0xFFFFFFFF, 0xFFFFFFFF, 0xFFFFFFF8),
    (0xFFFFFFFF, 0xFFFFFFFF, 0xFFFFFFFF, 0xFFFFFFFC),
    (0xFFFFFFFF, 0xFFFFFFFF, 0xFFFFFFFF, 0xFFFFFFFE),
    (0xFFFFFFFF, 0xFFFFFFFF, 0xFFFFFFFF, 0xFFFFFFFF)]

/-- `ipacl_netmask`, `src/ipacl.c:153-157`: the first word. -/
def netmask (pfxlen : Nat) : BitVec 32 := BitVec.ofNat 32 (netmaskMap.getD pfxlen (0, 0, 0, 0)).1

/-- `ipacl_netmask6`, `src/ipacl.c:159-163`: the four words, as one number. -/
def netmask6 (pfxlen : Nat) : BitVec 128 :=
  let e := netmaskMap.getD pfxlen (0, 0, 0, 0)
  BitVec.ofNat 128 (((e.1 * 2 ^ 32 + e.2.1) * 2 ^ 32 + e.2.2.1) * 2 ^ 32 + e.2.2.2)

/-- An address with its family. -/
inductive Addr where
  | v4 (a : BitVec 32)
  | v6 (a : BitVec 128)
  deriving DecidableEq

/-- `struct ipacl_entity`, `src/ipacl.h`. -/
inductive Elem where
  | net4 (ip : BitVec 32) (cidr : Nat)
  | net6 (ip : BitVec 128) (cidr : Nat)
  deriving DecidableEq

/-- `ipacl_create`, `src/ipacl.c:232-255`, with `ipacl_net4_data_netmask`, `ipacl_net6_data_netmask` and
`ip6_netmask` (165-186): the network is masked, and put at the head of the list. -/
def create (acl : List Elem) (a : Addr) (cidr : Nat) : List Elem :=
  (match a with
    | .v4 a => .net4 (a &&& netmask cidr) cidr
    | .v6 a => .net6 (a &&& netmask6 cidr) cidr) :: acl

/-- `ipv_prefix_equal`, `src/ipacl.c:188-193`. -/
def prefixEqual4 (a1 a2 : BitVec 32) (prefixlen : Nat) : Bool :=
  decide ((a1 ^^^ a2) &&& netmask prefixlen = 0)

/-- `__ipv6_prefix_equal64_half`, `src/ipacl.c:195-200`. -/
def prefixEqualHalf (a1 a2 : BitVec 64) (len : Nat) : Bool :=
  !(decide (len ≠ 0) && decide ((a1 ^^^ a2) &&& (BitVec.allOnes 64 <<< (64 - len)) ≠ 0))

/-- The first and the second half of an address: `a[0]` and `a[1]` in `src/ipacl.c:206-207`. -/
def half0 (a : BitVec 128) : BitVec 64 := a.extractLsb' 64 64
@[inherit_doc half0] def half1 (a : BitVec 128) : BitVec 64 := a.extractLsb' 0 64

/-- `ipv6_prefix_equal`, `src/ipacl.c:202-217`. -/
def prefixEqual6 (a1 a2 : BitVec 128) (prefixlen : Nat) : Bool :=
  if prefixlen ≥ 64 then
    if half0 a1 ^^^ half0 a2 ≠ 0 then false
    else prefixEqualHalf (half1 a1) (half1 a2) (prefixlen - 64)
  else prefixEqualHalf (half0 a1) (half0 a2) prefixlen

/-- `ipacl_net4_do_match`, `ipacl_net6_do_match`, `src/ipacl.c:227-230`, and the comparison of the family,
`src/ipacl.c:425-430`. -/
def elemMatch (e : Elem) (s : Addr) : Bool :=
  match e, s with
  | .net4 ip cidr, .v4 a => prefixEqual4 a ip cidr
  | .net6 ip cidr, .v6 a => prefixEqual6 a ip cidr
  | _, _ => false

/-- `ipacl_test_saddr_storage`, `src/ipacl.c:413-432`. -/
def test : List Elem → Addr → Bool
  | [], _ => false
  | e :: es, s => if elemMatch e s then true else test es s

/-- `parse_prefix`, `src/ipacl.c:257-274`: `strtol`, and what follows the number is ignored. -/
def parsePrefix (str : Str) : Option Int :=
  let s := str.dropWhile isSpace
  let neg := s.head? = some 45
  let s := if s.head? = some 45 || s.head? = some 43 then s.drop 1 else s
  let digits := s.takeWhile isDigit
  if digits.isEmpty then none
  else
    let v : Int := if neg then -(decValue 0 digits : Int) else (decValue 0 digits : Int)
    if v < -2 ^ 63 ∨ 2 ^ 63 ≤ v then none else some v

/-- `check_prefix`, `src/ipacl.c:276-289`. -/
def checkPrefix (a : Addr) (p : Int) : Option Nat :=
  let m : Int := match a with
    | .v4 _ => 32
    | .v6 _ => 128
  let p := if p = -1 then m else p
  if 0 ≤ p ∧ p ≤ m then some p.toNat else none

/-- `trim`, `src/ipacl.c:304-321`. -/
def trim (s : Str) : Str := ((s.dropWhile isSpace).reverse.dropWhile isSpace).reverse

/-- `strrchr(s, '/')`: what is before the last separator, and what is after it. -/
def cutLast (s : Str) : Str × Option Str :=
  if slash ∈ s then
    (((s.reverse.dropWhile (· ≠ slash)).drop 1).reverse, some (s.reverse.takeWhile (· ≠ slash)).reverse)
  else (s, none)

/-- `inet_pton`. -/
structure Pton where
  v4 : Str → Option (BitVec 32)
  v6 : Str → Option (BitVec 128)

/-- The two attempts with `inet_pton`, `src/ipacl.c:350-355`. -/
def address (pton : Pton) (s : Str) : Option Addr :=
  match pton.v4 s with
  | some a => some (.v4 a)
  | none => match pton.v6 s with
    | some a => some (.v6 a)
    | none => none

/-- `ipacl_emplace`, `src/ipacl.c:323-363`. `none` for an error. -/
def emplace (pton : Pton) (acl : List Elem) (s : Str) : Option (List Elem) :=
  if s = [] then some acl
  else match address pton (cutLast s).1 with
    | none => none
    | some a => match (cutLast s).2 with
      | none => (checkPrefix a (-1)).map (create acl a)
      | some p => match parsePrefix p with
        | none => none
        | some n => (checkPrefix a n).map (create acl a)

/-- The separators, `src/ipacl.c:391`. -/
def isSep (c : Byte) : Bool := c = 32 || c = 44 || c = 59

/-- `strtok_r` until there are no more tokens. Simplification: all are cut off first; in
`src/ipacl.c:391-398` each is used before the next is cut off. -/
def tokens (s : Str) : List Str :=
  match h : s.dropWhile isSep with
  | [] => []
  | c :: cs => (c :: cs).takeWhile (fun x => !isSep x) :: tokens ((c :: cs).dropWhile (fun x => !isSep x))
termination_by s.length
decreasing_by
  have h1 : ((c :: cs).dropWhile (fun x => !isSep x)).length < (c :: cs).length := by
    have hc : isSep c = false := by
      have := List.head_dropWhile_not isSep (l := s) (by rw [h]; simp)
      simpa [h] using this
    rw [List.dropWhile_cons, if_pos (by simp [hc])]
    exact Nat.lt_succ_of_le (List.dropWhile_sublist _).length_le
  have h2 : (c :: cs).length ≤ s.length := by
    rw [← h]; exact (List.dropWhile_sublist _).length_le
  omega

/-- The loop of `ipacl_append`, `src/ipacl.c:391-398`. -/
def appendTokens (pton : Pton) (acl : List Elem) : List Str → Option (List Elem)
  | [] => some acl
  | t :: ts => match emplace pton acl (trim t) with
    | none => none
    | some acl => appendTokens pton acl ts

/-- `ipacl_append`, `src/ipacl.c:366-398`. -/
def append (pton : Pton) (acl : List Elem) (s : Str) : Option (List Elem) :=
  appendTokens pton acl (tokens s)

/-- The loop of `check_ipacl`, `src/server/main.c:236-246`; also of `init_listen_socket`, 184-192. -/
def appendAll (pton : Pton) (acl : List Elem) : List Str → Option (List Elem)
  | [] => some acl
  | s :: ss => match append pton acl s with
    | none => none
    | some acl => appendAll pton acl ss

/-- `check_ipacl`, `src/server/main.c:229-256`: whether the client may go on. -/
def allowed (pton : Pton) (conf : List Str) (addr : Addr) : Bool :=
  match appendAll pton [] conf with
  | none => false
  | some acl => !(!acl.isEmpty && !test acl addr)

end Verif.Ipacl
