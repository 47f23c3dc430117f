import Verif.Model.Negotiate

/-!
# What client and server should have agreed on
-/

namespace Verif.Negotiate
open Verif.Confs

/-- The server has a restore for the client. -/
def Offers (h : Host) (d : Confs) : Bool := (getStr (setRestorePath h d) .RESTORE_PATH).isSome

/-- The client takes the restore that the server offers. -/
def Takes (h : Host) (act : Act) (c d : Confs) : Bool :=
  Offers h d && decide (act ≠ .monitor) && decide (getInt c .SERVER_CAN_RESTORE ≠ 0)

/-- The client refuses it. -/
def Refuses (h : Host) (act : Act) (c d : Confs) : Bool :=
  Offers h d && decide (act ≠ .monitor) && decide (getInt c .SERVER_CAN_RESTORE = 0)

/-- Both ends of a seed are set. -/
def Seeds (c : Confs) (src dst : Str) : Prop :=
  getStr c .SEED_SRC = some src ∧ getStr c .SEED_DST = some dst ∧ src ≠ [] ∧ dst ≠ []

/-- Everything that each side has to accept is accepted. `d` are the settings that the server has for the client,
`d1` those after a restore has been offered, `d2` those of the client that it acts for. `c` are the settings of the
client, `act1` and `c1` what it does and its settings after a restore has been offered, `c2` its settings after the
server has said what to include. -/
structure Deal (me : Me) (h : Host) (act : Act) (c d d1 d2 : Confs) (act1 : Act) (c1 : Confs) (inc1 : Option Str)
    (c2 : Confs) : Prop where
  /-- the server can read the restore that it offers -/
  server_restore :
    if Takes h act c d then
      parsePath h (set (setRestorePath h d) .INCEXCDIR (.lst [])) (getStr (setRestorePath h d) .RESTORE_PATH) = some d1
    else d1 = if Refuses h act c d then set (setRestorePath h d) .RESTORE_PATH (.str none) else setRestorePath h d
  /-- the client can use it -/
  client_restore :
    clientSrestore me.env (Offers h d) (doSends Flags.incexcRestore d1 ++ [bytes "srestore end"]) act c =
      some (act1, c1, inc1)
  /-- if the client wants to act for another, it is allowed to -/
  acts_for : match getStr c1 .ORIG_CLIENT with
    | none => d2 = d1
    | some o => o ≠ [] ∧ ∃ x, switchConfs h d1 (o.take 499) = some x ∧
        if Takes h act c d then parsePath h x (getStr x .RESTORE_PATH) = some d2 else d2 = x
  /-- the client can use what the server wants to be included -/
  client_includes :
    clientSincexc me.env (decide (getLst d .STARTDIR ≠ [] ∨ getLst d .INCGLOB ≠ []))
      (doSends Flags.incexc d2 ++ [bytes "sincexc end"]) act1 inc1 c1 = some c2
  /-- the operating system has a name, if it is known -/
  os : me.os ≠ some []
  /-- the server accepts the seeds of the client -/
  seeds : ∀ src dst, Seeds c2 src dst →
    (Seed.setupSeed true src).isSome = true ∧ (Seed.setupSeed false dst).isSome = true

/-- What the client and the server know when they have finished: `r` is what the client has, `s` what the server
has. -/
structure Agreed (me : Me) (h : Host) (act : Act) (c d d2 : Confs) (act1 : Act) (c2 : Confs) (r : Cl) (s : Sv) : Prop where
  /-- both use the same hash, the better one if both have it -/
  hash : rshash r.confs = rshash s.confs ∧ rshash s.confs = if me.blake2 && h.blake2 then .blake2 else .md4
  /-- both know that messages can be sent -/
  message : getInt r.confs .MESSAGE = 1 ∧ getInt s.confs .MESSAGE = 1
  /-- both know that counters are sent -/
  counters : getInt r.confs .SEND_CLIENT_CNTR = 1 ∧ getInt s.confs .SEND_CLIENT_CNTR = 1
  /-- the client does what it wanted, or a restore if the server wanted one and it accepted -/
  action : r.act = act1 ∧ (act1 = if Takes h act c d then .restore else act)
  /-- and the server knows -/
  restore : s.srestore = Takes h act c d
  /-- a restore that is refused is not offered again -/
  refused : s.unlinked = if Refuses h act c d then (getStr (setRestorePath h d) .RESTORE_PATH).toList else []
  /-- nothing else has changed on the client -/
  client_rest : ∀ o, o ∉ [Opt.MESSAGE, .SEND_CLIENT_CNTR, .RSHASH] → r.confs o = c2 o
  /-- the server has all that the client includes and excludes -/
  incexc : s.incexc = some ((doSends Flags.incexc c2).flatMap (· ++ [newline]) ++ [newline] ++
    bytes "compression = " ++ showInt (getInt d2 .COMPRESSION) ++ [newline])
  /-- the server knows what kind of machine the client is -/
  windows : s.confs .CLIENT_IS_WINDOWS =
    if (me.os.map isWindows).getD false then .int 1 else d2 .CLIENT_IS_WINDOWS
  /-- for a backup, it knows how many other servers the client could try -/
  failovers : s.confs .BACKUP_FAILOVERS_LEFT =
    if act1 = .backup ∨ act1 = .backupTimed then .int me.failovers else d2 .BACKUP_FAILOVERS_LEFT
  /-- it knows how to treat data of Windows in a restore -/
  vss : s.confs .VSS_RESTORE = if getInt c2 .VSS_RESTORE = 0 then .int 0
    else if getInt c2 .VSS_RESTORE = 1 then .int 1 else d2 .VSS_RESTORE
  /-- and whether the case of letters matters in a regular expression -/
  icase : s.confs .REGEX_CASE_INSENSITIVE =
    if getInt c2 .REGEX_CASE_INSENSITIVE ≠ 0 then .int 1 else d2 .REGEX_CASE_INSENSITIVE
  /-- both ends of a seed are known -/
  seeds : (∀ src dst, Seeds c2 src dst →
      s.confs .SEED_SRC = .str (Seed.setupSeed true src) ∧ s.confs .SEED_DST = .str (Seed.setupSeed false dst)) ∧
    ((∀ src dst, ¬ Seeds c2 src dst) →
      s.confs .SEED_SRC = d2 .SEED_SRC ∧ s.confs .SEED_DST = d2 .SEED_DST)
  /-- nothing else has changed on the server -/
  server_rest : ∀ o, o ∉ [Opt.MESSAGE, .SEND_CLIENT_CNTR, .RSHASH, .CLIENT_IS_WINDOWS, .BACKUP_FAILOVERS_LEFT,
    .VSS_RESTORE, .REGEX_CASE_INSENSITIVE, .SEED_SRC, .SEED_DST] → s.confs o = d2 o

/-- A schedule: `n` steps, each of one of the two sides. -/
inductive Steps (h : Host) : Nat → World → World → Prop
  | nil (w) : Steps h 0 w w
  | cons {n u v w} (h1 : Step h u v) (h2 : Steps h n v w) : Steps h (n + 1) u w

/-- Nobody can go on: both are done, or have failed, or wait for the other. -/
def Stuck (h : Host) (w : World) : Prop := ∀ v, ¬ Step h w v

/-- The server, and somebody who sends it whatever they like. -/
def serverRun (h : Host) : Sv → List Str → Sv
  | s, [] => s
  | s, m :: ms => if s.over then s else serverRun h (serverStep h s m).1 ms

/-- What a client may do. -/
def rights : List Opt := [.CLIENT_CAN_DELETE, .CLIENT_CAN_DIFF, .CLIENT_CAN_FORCE_BACKUP, .CLIENT_CAN_LIST,
  .CLIENT_CAN_MONITOR, .CLIENT_CAN_RESTORE, .CLIENT_CAN_VERIFY]

end Verif.Negotiate
