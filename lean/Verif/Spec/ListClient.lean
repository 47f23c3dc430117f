import Verif.Model.ListClient
import Verif.Spec.Attribs

/-!
# What a listing should show
-/

namespace Verif.ListClient
open Verif Verif.Iobuf Verif.Attribs

/-- Lines of text. -/
def lines (l : List Str) : Str := (l.map (· ++ [newline])).flatten

/-- An entry as there are in manifests: of a kind that is listed, or metadata; with a path and no NUL in it,
and attributes that a file can have. -/
structure Ent.Good (e : Ent) : Prop where
  kind : e.cmd ∈ [.directory, .file, .encFile, .efsFile, .special, .softLink, .hardLink] ∨ e.cmd.isMetadata = true
  ne : e.path ≠ []
  path : NoNul e.path
  link : NoNul e.link
  attr : e.attr.InRange

/-- What can be listed: not metadata. -/
def visible (es : List Ent) : List Ent := es.filter fun e => !e.cmd.isMetadata

/-- The line for an entry in a long listing. -/
def longLine (clock : Int → Str) (e : Ent) : Str :=
  lsToBuf clock e.attr e.path ++ if e.cmd.isLink then bytes " -> " ++ e.link else []

/-- The line for an entry in each kind of listing. -/
def lineOf (style : Style) (clock : Int → Str) (e : Ent) : Str :=
  match style with
  | .short => e.path
  | .long => longLine clock e
  | .parseable => bytes "f" ++ hex04 e.path.length ++ e.path

/-- What is printed about a backup before its contents. -/
def header (style : Style) (desc : Request.Bu → Str) (regexText : Option Str) (b : Request.Bu) : Str :=
  if style = .parseable then []
  else lines ((bytes "Backup: " ++ b.bak.timestamp ++ desc b) ::
    match regexText with | none => [] | some r => [bytes "With regex: " ++ r])

/-- The types of files that there are letters for, `S_IFDIR` and so on without the bits for the permissions. -/
def letters : List (Int × Char) := [(4, 'd'), (6, 'b'), (2, 'c'), (10, 'l'), (1, 'p'), (12, 's')]

/-- Two modes that are the same for a user: they are of the same type, if there is a letter for it, and every
bit of the permissions is the same. -/
def SameMode (m m' : Int) : Prop :=
  (∀ t ∈ letters.map (·.1), m / 4096 % 16 = t ↔ m' / 4096 % 16 = t) ∧ ∀ k < 12, m / 2 ^ k % 2 = m' / 2 ^ k % 2

/-- Texts of times are no longer than the numbers of a year, a month, and so on, can be. -/
def Short (clock : Int → Str) : Prop := ∀ t, (clock t).length ≤ 26

end Verif.ListClient
