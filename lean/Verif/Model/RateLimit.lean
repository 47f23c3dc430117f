/-!
# Limiting the rate of sending: `src/asfd.c`, `src/conffile.c`

`check_ratelimit` and the two functions that write to a connection, as far as they are concerned with
it. The clock and the operating system are parameters of each attempt to write. Speeds are whole
numbers of bytes per second, where the code has a `float`: the number that is compared with it is a
whole number, because both sides of the division are, so that this loses nothing but rounding.
-/

namespace Verif.RateLimit

/-- What the setting becomes, `load_conf_field_and_value`, src/conffile.c:279-293: megabits per
second are turned into bytes per second (`rate`), and only zero is refused. -/
def setting (rate : Int) : Option Int := if rate = 0 then none else some rate

/-- The fields of `struct asfd` for limiting the rate, src/asfd.h:59-62, and `asfd->sent`. -/
structure Rl where
  /-- `rlstart`, 0 before the first attempt. -/
  start : Int := 0
  /-- `rlbytes`. -/
  bytes : Nat := 0
  /-- `rlsleeptime`, in microseconds: `asfd_init`, src/asfd.c:578. -/
  sleep : Nat := 10000
  /-- `sent`. -/
  sent : Nat := 0
  deriving DecidableEq, Repr

/-- An attempt to write. -/
structure Try where
  /-- `as->now`, read at the beginning of `async_io`. -/
  now : Int
  /-- What `time(NULL)` says in `check_ratelimit`. -/
  clock : Int
  /-- `writebuflen`. -/
  queued : Nat
  /-- How many bytes the operating system takes, at most. -/
  takes : Nat
  deriving DecidableEq, Repr

/-- `check_ratelimit`, src/asfd.c:250-283: whether to write now. If not, it has slept for
`rlsleeptime`. The division is one of unsigned numbers. -/
def check (limit : Int) (r : Rl) (t : Try) : Rl × Bool :=
  let r := if r.start = 0 then { r with start := t.clock } else r
  let diff := t.now - r.start
  if diff < 0 then ({ r with bytes := 0 }, true)
  else if diff = 0 then (r, true)
  else if limit ≤ ((r.bytes / diff.toNat : Nat) : Int) then
    ({ r with sleep := if r.sleep * 2 ≥ 500000 then 500000 else r.sleep * 2 }, false)
  else
    ({ r with sleep := if r.sleep / 2 ≤ 9999 then 10000 else r.sleep / 2 }, true)

/-- `asfd_do_write`, src/asfd.c:285-313, and `asfd_do_write_ssl`, src/asfd.c:321-370. `limit` is
`asfd->ratelimit`, 0 if it is not set. -/
def write (limit : Int) (r : Rl) (t : Try) : Rl :=
  let w := min t.takes t.queued
  if limit = 0 then { r with sent := r.sent + w }
  else
    match check limit r t with
    | (r, false) => r
    | (r, true) => { r with bytes := r.bytes + w, sent := r.sent + w }

/-- Attempts to write, one after the other. -/
def run (limit : Int) (r : Rl) (ts : List Try) : Rl := ts.foldl (write limit) r

end Verif.RateLimit
