import Verif.Spec.Sdirs
import Verif.Props.Prepend
import Verif.Props.Auth

/-! Helper lemmas for `Verif/Props/Sdirs.lean`. -/

namespace Verif.Sdirs
open Verif Verif.Prepend Verif.Auth

theorem comp (p f : Str) : components (prependS (some p) f) = components p ++ components f := by
  rw [C53_components]; rfl

theorem comp_client {c : Str} (hc : cnameValid c = .valid) (p : Str) :
    components (prependS (some p) c) = components p ++ [c] := (C40_name_partial c p hc).1

theorem comp_lits :
    components (bytes ".created") = [bytes ".created"] ∧ components (bytes ".command") = [bytes ".command"]
    ∧ components (bytes "working") = [bytes "working"] ∧ components (bytes "finishing") = [bytes "finishing"]
    ∧ components (bytes "current") = [bytes "current"]
    ∧ components (bytes "current.tmp") = [bytes "current.tmp"]
    ∧ components (bytes "restore_list") = [bytes "restore_list"]
    ∧ components (bytes "timestamp") = [bytes "timestamp"]
    ∧ components (bytes "phase1.gz") = [bytes "phase1.gz"] ∧ components (bytes "changed") = [bytes "changed"]
    ∧ components (bytes "unchanged") = [bytes "unchanged"]
    ∧ components (bytes "counters_d") = [bytes "counters_d"]
    ∧ components (bytes "counters_n") = [bytes "counters_n"]
    ∧ components (bytes "manifest.gz") = [bytes "manifest.gz"]
    ∧ components (bytes "data.tmp") = [bytes "data.tmp"]
    ∧ components (bytes "deltmppath") = [bytes "deltmppath"] ∧ components (bytes "data") = [bytes "data"]
    ∧ components (bytes "incexc") = [bytes "incexc"] ∧ components (bytes "deleteme") = [bytes "deleteme"]
    ∧ components (bytes "lockfile") = [bytes "lockfile"] ∧ components (bytes "relink") = [bytes "relink"]
    ∧ components (bytes "data/t") = [bytes "data", bytes "t"] := by
  refine ⟨?_, ?_, ?_, ?_, ?_, ?_, ?_, ?_, ?_, ?_, ?_, ?_, ?_, ?_, ?_, ?_, ?_, ?_, ?_, ?_, ?_, ?_⟩ <;> decide

theorem splitSep_none {sep : Byte} : ∀ {n : Str}, sep ∉ n → splitSep sep n = [n]
  | [], _ => rfl
  | c :: cs, h => by
    have hc : ¬ c = sep := by
      intro hc
      subst hc
      exact h (List.mem_cons_self ..)
    rw [splitSep, if_neg hc, splitSep_none (fun hm => h (List.mem_cons_of_mem _ hm))]

theorem comp_name {n : Str} (h : BackupName n) : components n = [n] := by
  unfold components
  rw [splitSep_none h.2]
  obtain ⟨c, hc, _⟩ := h.1
  cases n with
  | nil => cases hc
  | cons x xs => rfl

theorem prefix_fork {a b x y : List Str} {c e : Str} (h : a ++ c :: x <+: b ++ e :: y)
    (hl : a = b) : c = e := by
  subst hl
  rw [List.prefix_append_right_inj] at h
  obtain ⟨t, ht⟩ := h
  injection ht

theorem outside_fork {a x y : List Str} {c e : Str} (hce : c ≠ e) :
    Outside (a ++ c :: x) (a ++ e :: y) :=
  ⟨fun h => hce (prefix_fork h rfl), fun h => hce (prefix_fork h rfl).symm⟩

theorem prefix_or {a b l : List Str} (ha : a <+: l) (hb : b <+: l) : a <+: b ∨ b <+: a :=
  List.prefix_or_prefix_of_prefix ha hb

/-- Ways that part before they reach the end stay apart. -/
theorem outside_append {a b : List Str} (h : Outside a b) (x y : List Str) : Outside (a ++ x) (b ++ y) := by
  constructor
  · intro hp
    rcases prefix_or ((List.prefix_append a x).trans hp) (List.prefix_append b y) with h1 | h1
    · exact h.1 h1
    · exact h.2 h1
  · intro hp
    rcases prefix_or (List.prefix_append a x) ((List.prefix_append b y).trans hp) with h1 | h1
    · exact h.1 h1
    · exact h.2 h1

end Verif.Sdirs
