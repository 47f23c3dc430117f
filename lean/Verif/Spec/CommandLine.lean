import Verif.Model.CommandLine

/-!
# What a command line says

A command line spells a list of options. What it asks for is read off that list: the last word on a subject counts,
except that the first two `-b` are the two backups, and that all overrides are kept in their order.
-/

namespace Verif.CommandLine
open Verif Seed

/-- How an option is written. -/
def Letter.char : Letter → Char
  | .action => 'a' | .backup => 'b' | .client => 'C' | .conf => 'c' | .dir => 'd' | .override => 'o'
  | .foreground => 'F' | .force => 'f' | .generateCa => 'g' | .help => 'h' | .symbols => 'i' | .unused => 'j'
  | .logfile => 'l' | .noFork => 'n' | .quiet => 'Q' | .delay => 'q' | .iregex => 'R' | .regex => 'r' | .strip => 's'
  | .test => 't' | .version => 'V' | .verbose => 'v' | .vssOff => 'X' | .vssStrip => 'x' | .browsefile => 'z'
  | .question => '?'

/-- Its byte. -/
def Letter.byte (l : Letter) : Byte := UInt8.ofNat l.char.toNat

/-- Whether it has an argument. -/
def Letter.takes (l : Letter) : Bool := decide (l ∈ [.action, .backup, .client, .conf, .dir, .override, .logfile, .delay,
  .iregex, .regex, .strip, .browsefile])

/-- An option with its argument. -/
abbrev Given := Letter × Option Str

/-- A word with options that have no arguments, and then what is in `rest`. -/
def dashed (fs : List Letter) (rest : Str) : Str := 45 :: (fs.map Letter.byte ++ rest)

/-- The words `ws` are a way to write the options `gs`. -/
inductive Spells : List Given → List Str → Prop where
  /-- nothing -/
  | done : Spells [] []
  /-- `--` at the end -/
  | stop : Spells [] [bytes "--"]
  /-- `-fFn` -/
  | flags {gs ws} (fs : List Letter) : fs ≠ [] → (∀ f ∈ fs, f.takes = false) → Spells gs ws →
      Spells (fs.map (fun f => (f, none)) ++ gs) (dashed fs [] :: ws)
  /-- `-fb3` -/
  | attached {gs ws} (fs : List Letter) (l : Letter) (v : Str) : (∀ f ∈ fs, f.takes = false) → l.takes = true → v ≠ [] →
      Spells gs ws → Spells (fs.map (fun f => (f, none)) ++ (l, some v) :: gs) (dashed fs (l.byte :: v) :: ws)
  /-- `-fb 3`; the argument can be any word -/
  | separate {gs ws} (fs : List Letter) (l : Letter) (v : Str) : (∀ f ∈ fs, f.takes = false) → l.takes = true →
      Spells gs ws → Spells (fs.map (fun f => (f, none)) ++ (l, some v) :: gs) (dashed fs [l.byte] :: v :: ws)

/-- The arguments of one option, in order. -/
def vals (l : Letter) (gs : List Given) : List Str := gs.filterMap (fun g => if g.1 = l then g.2 else none)

/-- Whether an option is there. -/
def has (l : Letter) (gs : List Given) : Bool := gs.any (fun g => decide (g.1 = l))

/-- The last option that is one of two. -/
def lastOf (k l : Letter) (gs : List Given) : Option Given :=
  (gs.filter (fun g => decide (g.1 = k) || decide (g.1 = l))).getLast?

/-- The actions, and how they begin. Deletion has to be spelled out. -/
def actions : List (String × Act) :=
  [("b", .backup), ("t", .backupTimed), ("T", .timerCheck), ("r", .restore), ("R", .restore), ("v", .verify),
   ("V", .verify), ("l", .list), ("L", .listLong), ("p", .listParseable), ("s", .status), ("S", .statusSnapshot),
   ("e", .estimate), ("delete", .delete), ("d", .diff), ("D", .diffLong), ("m", .monitor)]

/-- The action that a word means. -/
def actionOf (v : Str) : Option Act := (actions.find? (fun x => (bytes x.1).isPrefixOf v)).map Prod.snd

/-- Settings that come from one option. -/
def overridesOf : Given → List Str
  | (.override, some v) => [v]
  | (.action, some v) => if (bytes "R").isPrefixOf v || (bytes "V").isPrefixOf v then [bytes "restore_list=/dev/stdin"]
      else []
  | (.quiet, _) => [bytes "progress_counter=0", bytes "stdout=0"]
  | (.verbose, _) => [bytes "stdout=1"]
  | _ => []

/-- What a list of options says. -/
def lineOf (conffile : Str) (gs : List Given) : Line where
  act := ((vals .action gs).getLast?.bind actionOf).getD .list
  backup := (vals .backup gs)[0]?
  backup2 := (vals .backup gs)[1]?
  origClient := (vals .client gs).getLast?
  conffile := (vals .conf gs).getLast?.getD conffile
  dir := (vals .dir gs).getLast?
  daemon := !has .foreground gs
  force := has .force gs
  generateCa := has .generateCa gs
  logfile := (vals .logfile gs).getLast?
  forking := !has .noFork gs
  overrides := gs.flatMap overridesOf
  randomise := ((vals .delay gs).getLast?.map Cntr.atoi).getD 0
  regex := (lastOf .regex .iregex gs).bind Prod.snd
  caseInsensitive := (lastOf .regex .iregex gs).any (fun g => decide (g.1 = .iregex))
  strip := ((vals .strip gs).getLast?.map Cntr.atoi).getD 0
  vss := match lastOf .vssOff .vssStrip gs with
    | none => .on
    | some g => if g.1 = .vssOff then .off else .offStrip
  test := has .test gs
  browsefile := (vals .browsefile gs).getLast?

/-- An option that only shows something. -/
def Shows (g : Given) : Prop := g.1 = .symbols ∨ g.1 = .version

/-- An option that is answered with the help. -/
def Helps (g : Given) : Prop :=
  g.1 = .help ∨ g.1 = .question ∨ g.1 = .unused ∨ ∃ v, g = (.action, some v) ∧ actionOf v = none

/-- Neither. -/
def Plain (g : Given) : Prop := ¬ Shows g ∧ ¬ Helps g

/-- Options that have something to do with each other have the same number. -/
def Letter.subject : Letter → Nat
  | .action | .override | .quiet | .verbose => 0
  | .regex | .iregex => 1
  | .vssOff | .vssStrip => 2
  | l => 3 + l.char.toNat

/-- More than the help or a version is given. -/
def Out.Acts (o : Out) : Prop := o ≠ .usage ∧ o ≠ .shown

/-- The overrides that the configuration is read with. -/
def allOverrides (l : Line) : List Str := if l.act = .listParseable then l.overrides ++ [bytes "stdout=0"] else l.overrides

/-- What is run for what is said: the latest backup where one is needed and none is given, and for a difference what is
on disk now; a client without a name is none. -/
def effective (l : Line) : Line :=
  { l with
    backup := if l.backup = none ∧ l.act ∈ [Act.restore, .verify, .diff, .diffLong] then some (bytes "0") else l.backup
    backup2 := if l.backup2 = none ∧ l.act ∈ [Act.diff, .diffLong] then some (bytes "n") else l.backup2
    origClient := if l.origClient = some [] then none else l.origClient
    dir := l.dir.map stripTrailing
    overrides := allOverrides l }

/-- Whether a deletion does not say of what. -/
def Aimless (l : Line) : Prop := l.act = .delete ∧ l.backup = none

/-- The most that is waited: for backups that are started by a timer. -/
def waits (l : Line) (c : Conf) : Int :=
  if l.act = .backupTimed ∨ l.act = .timerCheck then (if l.randomise = 0 then c.randomise else l.randomise) else 0

end Verif.CommandLine
