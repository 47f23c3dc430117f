import Verif.Model.JsonInput

/-!
# Specification: what a monitor client shows
-/

namespace Verif.JsonInput
open Verif.Monitor

/-- What the server calls a flag. -/
def flagName : Flag → Option Str
  | .hardlinked => some (bytes "hardlinked")
  | .deletable => some (bytes "deletable")
  | .working => some (bytes "working")
  | .finishing => some (bytes "finishing")
  | .current => some (bytes "current")
  | .manifest => some (bytes "manifest")
  | .log g => some g.name
  | .live => none

/-- An entry of the client shows a backup that the server has told about. A backup is live if a child is at work
on it. -/
structure Shows (kids : List ChildInfo) (b : BackupInfo) (e : Entry) : Prop where
  bno : e.bno = b.bno
  timestamp : e.timestamp = some b.timestamp
  flags : ∀ f, f ∈ e.flags ↔
    (∃ n ∈ b.flags ++ b.logs, flagName f = some n) ∨ (f = .live ∧ ∃ k ∈ kids, unsigned k.bno = b.bno)

/-- The backups that are shown are those that the server has told about, the latest one first. -/
structure ShowsAll (kids : List ChildInfo) (bs : List BackupInfo) (es : List Entry) : Prop where
  order : es.Pairwise (fun a b => b.bno < a.bno)
  all : ∀ b ∈ bs, ∃ e ∈ es, Shows kids b e
  only : ∀ e ∈ es, ∃ b ∈ bs, Shows kids b e

/-- A child at work is shown with the counters that the server has told about; some of them have only one number.
The time of the beginning is
there even if nothing was said about it. -/
structure ShowsKid (k : ChildInfo) (c : Kid) : Prop where
  pid : c.pid = k.pid
  bno : c.bno = k.bno
  phase : 1 ≤ k.status → k.status ≤ 9 → c.phase = k.status
  told : ∀ r ∈ k.counters, c.ent r.1.toByte =
    if (r.1, Cntr.Flag.single) ∈ Cntr.table then ⟨r.2.count, 0, 0, 0, 0⟩ else r.2
  untold : ∀ r ∈ Cntr.table, r.1 ∉ k.counters.map (·.1) → r.1 ≠ .timestamp → c.ent r.1.toByte = Cntr.Ent.zero

/-- What is shown of a client, apart from the backups. -/
structure ShowsClient (i : Info) (c : Client) : Prop where
  name : c.name = i.name
  run : c.run = i.run
  length : c.kids.length = i.children.length
  kids : ∀ k ∈ i.children, ∃ x ∈ c.kids, ShowsKid k x
  only : ∀ x ∈ c.kids, ∃ k ∈ i.children, ShowsKid k x

/-- The pointers `prev` lead back through the list. -/
def Linked (p : Option Nat) : List Entry → Prop
  | [] => True
  | e :: es => e.prev = p ∧ Linked (some e.id) es

/-- What a server says about the counters of a child: each at most once. -/
def RowsOk (rows : List (Cmd × Cntr.Ent)) : Prop :=
  (rows.map (·.1)).Nodup ∧ ∀ r ∈ rows, ((r.1, Cntr.Flag.tabulate) ∈ Cntr.table) ∨ ((r.1, Cntr.Flag.single) ∈ Cntr.table)

/-- What a server says about a backup. -/
structure BackupOk (b : BackupInfo) : Prop where
  bno : 0 < b.bno ∧ b.bno < 2 ^ 64
  flags : ∀ n ∈ b.flags, ∃ f, flagName f = some n ∧ ∀ g, f ≠ .log g
  logs : ∀ n ∈ b.logs, ∃ g : Log, g.name = n
  counters : b.counters = none
  entries : b.entries = none

/-- What a server of the present version says about a client. -/
structure InfoOk (i : Info) : Prop where
  name : NoNul i.name
  phase : i.phase = none
  kids : (i.children.map (·.pid)).Nodup
  rows : ∀ k ∈ i.children, RowsOk k.counters
  backups : ∀ b ∈ i.backups, BackupOk b
  nodup : (i.backups.map (·.bno)).Nodup

/-- The client of a name, if there is one. -/
def lookup (l : List Client) (n : Str) : Option Client := l.find? (fun c => decide (c.name = n))

/-- The backups that are shown of a client. -/
def shownBackups (l : List Client) (n : Str) : List Entry := ((lookup l n).map (·.bus)).getD []

/-- The backups that were shown before are in order, and the latest of them is still there, or there was but
one. Otherwise the program goes wrong. -/
def Steady (es : List Entry) (bs : List BackupInfo) : Prop :=
  es.Pairwise (fun a b => b.bno < a.bno) ∧ (es.length ≤ 1 ∨ ∃ e ∈ es.head?, ∃ b ∈ bs, b.bno = e.bno)

/-- Nothing has been left over from the answers before. -/
structure Ready (s : St) : Prop where
  number : s.number = 0
  flags : s.flags = []
  timestamp : s.timestamp = none
  cnew : s.cl.cnew = none
  current : s.cl.current = .null
  inBackups : s.inBackups = false
  inFlags : s.inFlags = false
  inCounters : s.inCounters = false
  inList : s.inList = false
  inContent : s.inContent = false
  coming : s.coming = []
  bus : s.bus = []

/-- The backup that is selected is shown. -/
def Held (s : St) : Prop := ∀ i, s.sel = some i → ∃ c ∈ s.cl.list, ∃ e ∈ c.bus, e.id = i

/-- An answer of a server: an overview, one client or one backup, the lines of a log, or a warning. -/
inductive AnswerOk : Option Log → Msg → Prop where
  | clients {asked : Option Log} {l : List Info} : (∀ i ∈ l, InfoOk i) →
      (∀ i ∈ l, ∀ b ∈ i.backups, asked = none ∨ b.lines = none ∨ b.logs = []) → AnswerOk asked (.clients l)
  | log {g : Log} {i : Info} {b : BackupInfo} {l : List Str} : InfoOk i → i.backups = [b] → b.lines = some l →
      b.logs ≠ [] → (∀ n ∈ l, NoNul n) → AnswerOk (some g) (.clients [i])
  | warning {asked : Option Log} {t : Str} : NoNul t → AnswerOk asked (.warning t)

/-- Answers, one after the other, with the times at which they come. -/
def hear (field : Cmd → Str) (s : St) : List (UInt64 × Option Log × Msg) → Out
  | [] => .ok s
  | m :: ms => match feed m.1 s (msgToks field m.2.1 m.2.2) with
    | .ok s' => hear field s' ms
    | o => o

/-- What a server knows about a client, in order. -/
structure StatOk (c : CStat) : Prop where
  name : NoNul c.name
  kids : (c.cntrs.map (·.r.pid)).Nodup
  bno : ∀ b ∈ c.bus, 0 < b.bno ∧ b.bno < 2 ^ 64
  nodup : (c.bus.map (·.bno)).Nodup
  apart : ∀ b ∈ c.bus, b.current = true → b.working = false ∧ b.finishing = false

end Verif.JsonInput
