import Verif.Model.ResumeFiles
import Verif.Spec.Manifest
import Verif.Spec.Resume

/-!
# What is in the files of an interrupted backup
-/

namespace Verif.ResumeFiles
open Verif Verif.Sbuf Verif.Iobuf Verif.Phase2 Verif.Resume

/-- The rows that can be read from a file of counters: the letter, and the record with the kind and path of
the entry. -/
def rowsIn (f : Str) : List (Byte × Rec) :=
  match h : readRow f with
  | none => []
  | some (what, r, rest) =>
    have _ := readRow_lt h
    (what, r) :: rowsIn rest
termination_by f.length

/-- The letter for what is counted, `src/sbuf.h:64-70`. -/
def letter : ResumeCntr.What → Byte
  | .new => 110
  | .changed => 99
  | .same => 117
  | .deleted => 100

/-- A row as it is in the file. -/
def rawRow (r : ResumeCntr.Row) : Byte × Rec := (letter r.what, ⟨r.key.1.toByte, r.key.2.getD []⟩)

/-- A row that is written: it has a path, which is a string and fits a record. -/
def RowOk (r : ResumeCntr.Row) : Prop := ∃ p, r.key.2 = some p ∧ NoNul p ∧ Fits p

/-- Rows are written one after the other. -/
def writeRows (f : Str) : List (Byte × Rec) → Str × Bool
  | [] => (f, true)
  | x :: xs => if (writeRow f x.1 x.2).2 then writeRows (writeRow f x.1 x.2).1 xs else ((writeRow f x.1 x.2).1, false)

/-- The file holds exactly the entries `es`. -/
def Whole (es : List Entry) (f : Str) : Prop := writeEntries [] (es.map Entry.toSbuf) = (f, true)

/-- The file holds the entries `es`, and behind them `t`, the beginning of the entry `e` that was being
written when the server stopped. -/
def TornAt (es : List Entry) (e : Entry) (t f : Str) : Prop :=
  ∃ g h, Whole es g ∧ e.Ok ∧ toManifest [] e.toSbuf = (h, true) ∧ t <+: h ∧ t ≠ h ∧ f = g ++ t

/-- The file holds the entries `es`, and behind them perhaps the beginning of another one. -/
def Torn (es : List Entry) (f : Str) : Prop := ∃ e t, TornAt es e t f

/-- The file holds the rows `rs`, and behind them perhaps the beginning of another one. -/
def TornRows (rs : List ResumeCntr.Row) (f : Str) : Prop :=
  ∃ g t h r, writeRows [] (rs.map rawRow) = (g, true) ∧ RowOk r ∧
    writeRow [] (rawRow r).1 (rawRow r).2 = (h, true) ∧ t <+: h ∧ t ≠ h ∧ f = g ++ t

/-- The kind of an entry. -/
def kindOf : Entry → Cmd
  | .plain k _ _ => k
  | .link k _ _ _ => k
  | .stored k _ _ _ _ => k

/-- The path of an entry. -/
def pathOf : Entry → Str
  | .plain _ _ p => p
  | .link _ _ p _ => p
  | .stored _ _ _ p _ => p

/-- The attributes of an entry. -/
def attrOf : Entry → Str
  | .plain _ a _ => a
  | .link _ a _ _ => a
  | .stored _ _ a _ _ => a

/-- Whether an entry says where its data are and how long they are. -/
def hasData : Entry → Bool
  | .stored .. => true
  | _ => false

variable {E : Type}

/-- The entry is what is written for the record: it has the kind and the path of the scanned entry, it is a
directory if that is one, and it has data if it is of a kind that has. -/
def StandsFor (w : Walk E) (isDir : E → Bool) (st : Stat) (o : Out E) (e : Entry) : Prop :=
  e.Ok ∧ w.key (subject o) = (kindOf e, some (pathOf e)) ∧
  isDir (subject o) = st.isDir (some (attrOf e)) ∧
  hasData e = ((kindOf e).isFiledata || (kindOf e).isVssdata)

/-- Entries that stand for records, one for each. -/
def AllStandFor (w : Walk E) (isDir : E → Bool) (st : Stat) (os : List (Out E)) (es : List Entry) : Prop :=
  ∃ ps : List (Out E × Entry), os = ps.map (·.1) ∧ es = ps.map (·.2) ∧ ∀ p ∈ ps, StandsFor w isDir st p.1 p.2

/-- The file of a scan or of a manifest can be read to its end, and has the entries `l`. -/
def Lists (w : Walk E) (l : List E) (f : Str) : Prop :=
  ∃ ps : List (E × Entry), l = ps.map (·.1) ∧ readEntries f = (ps.map (fun p => p.2.toSbuf), true) ∧
    ∀ p ∈ ps, p.2.Ok ∧ w.key p.1 = (kindOf p.2, some (pathOf p.2))

/-- As `Lists`, for the previous manifest, which there may be or not. -/
def ListsPrev (w : Walk E) : Option (List E) → Option Str → Prop
  | none, none => True
  | some l, some f => Lists w l f
  | _, _ => False

/-- The two lists of a backup that has been interrupted any number of times and resumed each time. Each time
it stops at any place, and with any part of the last entry written. What is in the files of counters does
not matter here. -/
inductive Stopped (w : Walk E) (isDir sent : E → Bool) (st : Stat) (maxSub : Int) (scan : List E)
    (prev : Option (List E)) (scanF : Str) (prevF : Option Str) : Str → Str → Prop where
  | first {n ch un es us fc fu} (h : StoppedAfter w sent scan prev n ch un)
      (hc : AllStandFor w isDir st ch es) (hu : AllStandFor w isDir st un us)
      (tc : Torn es fc) (tu : Torn us fu) :
      Stopped w isDir sent st maxSub scan prev scanF prevF fc fu
  | again {n ch un es us fc fu xc xu} {scan' : List E} {prev' : Option (List E)} {cd cn : Str} {d : Dpth.Dpth}
      {r : Resumed} (before : Stopped w isDir sent st maxSub scan prev scanF prevF fc fu)
      (hr : doResume st maxSub d ⟨fc, fu, cd, cn, scanF, prevF⟩ = some r)
      (hs : scan' <:+ scan) (hsf : Lists w scan' (r.scanLeft ⟨fc, fu, cd, cn, scanF, prevF⟩))
      (hp : ∀ l', prev' = some l' → ∃ l, prev = some l ∧ l' <:+ l)
      (hpf : ListsPrev w prev' (r.prevLeft ⟨fc, fu, cd, cn, scanF, prevF⟩))
      (h : StoppedAfter w sent scan' prev' n ch un)
      (hc : AllStandFor w isDir st ch es) (hu : AllStandFor w isDir st un us)
      (tc : Torn es xc) (tu : Torn us xu) :
      Stopped w isDir sent st maxSub scan prev scanF prevF (r.changed ++ xc) (r.unchanged ++ xu)

end Verif.ResumeFiles
