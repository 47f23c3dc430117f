import Verif.Spec.ResumeFiles
import Verif.Lemmas.Sbuf
import Verif.Lemmas.Resume
import Verif.Lemmas.Dpth

namespace Verif.ResumeFiles
open Verif Verif.Sbuf Verif.Iobuf

/-! ### Reading looks at nothing behind what it reads -/

theorem readEnsure_ok {n : Nat} {f a b : Str} (h : readEnsure n f = .ok a b) : f = a ++ b ∧ a.length = n := by
  unfold readEnsure at h
  by_cases hn : n ≤ f.length
  · rw [if_pos hn] at h
    simp only [Read.ok.injEq] at h
    rw [← h.1, ← h.2]
    exact ⟨(List.take_append_drop n f).symm, by simp [hn]⟩
  · rw [if_neg hn] at h
    by_cases hf : f = []
    · rw [if_pos hf] at h; cases h
    · rw [if_neg hf] at h; cases h

theorem fill_local {f rest : Str} {r : Rec} (h : fill f = .ok r rest) :
    ∃ u, f = u ++ rest ∧ ∀ x, fill (u ++ x) = .ok r x := by
  unfold fill fillFzp at h
  cases h1 : readEnsure 5 f with
  | eof => rw [h1] at h; cases h
  | err => rw [h1] at h; cases h
  | ok lead f1 =>
    rw [h1] at h
    simp only at h
    obtain ⟨e1, l1⟩ := readEnsure_ok h1
    cases h2 : scanLead lead with
    | none => rw [h2] at h; cases h
    | some cl =>
      obtain ⟨c, len⟩ := cl
      rw [h2] at h
      simp only at h
      cases h3 : readEnsure (len + 1) f1 with
      | eof => rw [h3] at h; cases h
      | err => rw [h3] at h; cases h
      | ok data f2 =>
        rw [h3] at h
        simp only [Fill.ok.injEq] at h
        obtain ⟨e2, l2⟩ := readEnsure_ok h3
        refine ⟨lead ++ data, by rw [e1, e2, ← h.2]; simp, ?_⟩
        intro x
        unfold fill fillFzp
        have k1 : readEnsure 5 ((lead ++ data) ++ x) = .ok lead (data ++ x) := by
          rw [← l1, List.append_assoc]; exact readEnsure_append
        have k2 : readEnsure (len + 1) (data ++ x) = .ok data x := by
          rw [← l2]; exact readEnsure_append
        rw [k1]
        simp only [h2, k2, h.1]

theorem fillFile_local {sb sb' : Sbuf} {f rest : Str} (h : fillFile sb f = (.entry sb', rest)) :
    ∃ u, f = u ++ rest ∧ ∀ x, fillFile sb (u ++ x) = (.entry sb', x) := by
  induction f using WellFounded.induction (measure (fun (f : Str) => f.length)).wf generalizing sb with
  | _ f ih =>
    rw [fillFile] at h
    split at h
    · simp at h
    · simp at h
    · rename_i r rest1 h1
      have hl := fill_lt h1
      obtain ⟨u, e, hu⟩ := fill_local h1
      have step : ∀ x, fillFile sb (u ++ x) =
          match parse sb r with
          | (sb', .needMore) => fillFile sb' x
          | (sb', .complete) => (.entry sb', x)
          | (_, .finished) => (.finished, x)
          | (_, .error) => (.error, x) := by
        intro x
        have := hu x
        rw [fillFile]
        split
        · rename_i h'; rw [this] at h'; cases h'
        · rename_i h'; rw [this] at h'; cases h'
        · rename_i r' rest' h'
          rw [this] at h'
          simp only [Fill.ok.injEq] at h'
          obtain ⟨rfl, rfl⟩ := h'
          rfl
      split at h
      · rename_i sb1 hp
        obtain ⟨v, e2, hv⟩ := ih rest1 hl h
        refine ⟨u ++ v, by rw [e, e2]; simp, fun x => ?_⟩
        rw [List.append_assoc, step, hp]
        exact hv x
      · rename_i sb1 hp
        simp only [Prod.mk.injEq, FillRet.entry.injEq] at h
        refine ⟨u, by rw [e, h.2], fun x => ?_⟩
        rw [step, hp]
        simp [h.1]
      · simp at h
      · simp at h

theorem readEntries_cons {f rest : Str} {sb : Sbuf} (h : fillFile empty f = (.entry sb, rest)) :
    readEntries f = (sb :: (readEntries rest).1, (readEntries rest).2) := by
  rw [readEntries]
  split
  · rename_i h'; rw [h] at h'; simp at h'
  · rename_i h'; rw [h] at h'; simp at h'
  · rename_i r' rest' h'
    rw [h] at h'
    simp only [Prod.mk.injEq, FillRet.entry.injEq] at h'
    obtain ⟨rfl, rfl⟩ := h'
    rfl

theorem readEntries_empty : readEntries [] = ([], true) := by
  apply readEntries_none
  rw [fillFile]
  split
  · rfl
  · rename_i h; simp [fill, fillFzp, readEnsure] at h
  · rename_i h; simp [fill, fillFzp, readEnsure] at h

/-- `u` is a beginning of a file that holds exactly the entries `es`. -/
def Block (u : Str) (es : List Sbuf) : Prop :=
  ∀ x, readEntries (u ++ x) = (es ++ (readEntries x).1, (readEntries x).2)

theorem block_nil : Block [] [] := fun x => by simp

theorem block_append {u v : Str} {es fs : List Sbuf} (h : Block u es) (h' : Block v fs) :
    Block (u ++ v) (es ++ fs) := by
  intro x
  rw [List.append_assoc, h, h']
  simp

theorem block_one {f rest : Str} {sb : Sbuf} (h : fillFile empty f = (.entry sb, rest)) :
    ∃ u, f = u ++ rest ∧ Block u [sb] := by
  obtain ⟨u, e, hu⟩ := fillFile_local h
  exact ⟨u, e, fun x => by rw [readEntries_cons (hu x)]; simp⟩

theorem block_read {u : Str} {es : List Sbuf} (h : Block u es) : readEntries u = (es, true) := by
  have := h []
  rw [readEntries_empty] at this
  simpa using this

theorem block_entries {es : List Entry} (h : ∀ e ∈ es, e.Ok) :
    Block (es.map encEntry).flatten (es.map Entry.toSbuf) := fun x => readEntries_entries h x

/-- The position `p` in the file is behind `n` entries. -/
def Behind (f : Str) (n p : Nat) : Prop :=
  ∃ u v es, f = u ++ v ∧ u.length = p ∧ es.length = n ∧ Block u es

theorem behind_start (f : Str) : Behind f 0 0 := ⟨[], f, [], rfl, rfl, rfl, block_nil⟩

theorem behind_take {f : Str} {n p : Nat} (h : Behind f n p) :
    Block (f.take p) ((readEntries f).1.take n) ∧ (readEntries (f.drop p)).1 = (readEntries f).1.drop n ∧
    (readEntries (f.drop p)).2 = (readEntries f).2 ∧ p ≤ f.length ∧ n ≤ (readEntries f).1.length := by
  obtain ⟨u, v, es, rfl, rfl, rfl, hb⟩ := h
  have := hb v
  rw [List.take_left, List.drop_left, this]
  refine ⟨by rw [List.take_left]; exact hb, by rw [List.drop_left], rfl, by simp, by simp⟩

theorem truncate_le {f : Str} {p : Nat} (h : p ≤ f.length) : truncate f p = f.take p := by
  unfold truncate
  rw [show p - f.length = 0 by omega]
  simp

/-! ### The loops, one step at a time -/

theorem fill_cases (f : Str) : (∃ sb rest, fillFile empty f = (.entry sb, rest)) ∨
    (((fillFile empty f).1 = .finished ∨ (fillFile empty f).1 = .error) ∧ (readEntries f).1 = [] ∧
      ((readEntries f).2 = true ↔ (fillFile empty f).1 = .finished)) := by
  rcases h : fillFile empty f with ⟨r, rest⟩
  cases r with
  | entry sb => exact Or.inl ⟨sb, rest, rfl⟩
  | finished =>
    right
    have := readEntries_none (f := f) (by rw [h])
    rw [this]
    simp
  | error =>
    right
    have := readEntries_err (f := f) (by rw [h])
    rw [this]
    simp

theorem lastGoodFrom_entry {st : Stat} {total : Nat} {got : Bool} {acc : Option (Cmd × Option Str) × Nat}
    {s : Side} {rest rest' : Str} {sb : Sbuf} (h : fillFile empty rest = (.entry sb, rest')) :
    lastGoodFrom st total got acc s rest =
      match setHigher s.dpth sb with
      | none => none
      | some d => lastGoodFrom st total (Resume.vssStart (infoOf st) sb got)
          (if Resume.vssStart (infoOf st) sb got then acc
            else if (!(keyOf sb).1.isFiledata && !(keyOf sb).1.isVssdata) || sb.endfile.isSome then
              (some (keyOf sb), total - rest'.length)
            else acc)
          ⟨ResumeCntr.addLength lengthIn s.cntr sb, d⟩ rest' := by
  rw [lastGoodFrom]
  split
  · rename_i h'
    rw [h] at h'
    simp only [Prod.mk.injEq, FillRet.entry.injEq] at h'
    obtain ⟨rfl, rfl⟩ := h'
    rfl
  · rename_i h'; rw [h] at h'; simp at h'
  · rename_i h'; rw [h] at h'; simp at h'

theorem lastGoodFrom_end {st : Stat} {total : Nat} {got : Bool} {acc : Option (Cmd × Option Str) × Nat}
    {s : Side} {rest : Str} (h : (fillFile empty rest).1 = .finished ∨ (fillFile empty rest).1 = .error) :
    lastGoodFrom st total got acc s rest =
      (setHigher s.dpth (leftIn empty rest)).map (fun d => (acc, { s with dpth := d })) := by
  rw [lastGoodFrom]
  split
  · rename_i h'; rw [h'] at h; simp at h
  · rfl
  · rfl

theorem forwardPastFrom_entry {target : Cmd × Option Str} {total : Nat} {rest rest' : Str} {sb : Sbuf}
    (h : fillFile empty rest = (.entry sb, rest')) :
    forwardPastFrom target total rest =
      if iobufPathcmp target (keyOf sb) = 0 then some (total - rest'.length)
      else if iobufPathcmp target (keyOf sb) = -1 then some (total - rest.length)
      else forwardPastFrom target total rest' := by
  rw [forwardPastFrom]
  split
  · rename_i h'
    rw [h] at h'
    simp only [Prod.mk.injEq, FillRet.entry.injEq] at h'
    obtain ⟨rfl, rfl⟩ := h'
    rfl
  · rename_i h'; rw [h] at h'; simp at h'
  · rename_i h'; rw [h] at h'; simp at h'

theorem forwardPastFrom_end {target : Cmd × Option Str} {total : Nat} {rest : Str}
    (h : (fillFile empty rest).1 = .finished ∨ (fillFile empty rest).1 = .error) :
    forwardPastFrom target total rest =
      if (fillFile empty rest).1 = .finished then some (total - rest.length) else none := by
  rw [forwardPastFrom]
  split
  · rename_i h'; rw [h'] at h; simp at h
  · rename_i h'; rw [h']; simp
  · rename_i h'; rw [h']; simp

theorem forwardBeforeFrom_entry {st : Stat} {target : Cmd × Option Str} {total pos : Nat} {s : Side}
    {rest rest' : Str} {sb : Sbuf} (h : fillFile empty rest = (.entry sb, rest')) :
    forwardBeforeFrom st target total pos s rest =
      match setHigher s.dpth sb with
      | none => none
      | some d =>
        if iobufPathcmp target (keyOf sb) ≤ 0 then some (pos, { s with dpth := d })
        else forwardBeforeFrom st target total
          (if sb.endfile.isSome || !(keyOf sb).1.isFiledata then total - rest'.length else pos)
          ⟨ResumeCntr.addLength lengthIn s.cntr sb, d⟩ rest' := by
  rw [forwardBeforeFrom]
  split
  · rename_i h'
    rw [h] at h'
    simp only [Prod.mk.injEq, FillRet.entry.injEq] at h'
    obtain ⟨rfl, rfl⟩ := h'
    rfl
  · rename_i h'; rw [h] at h'; simp at h'
  · rename_i h'; rw [h] at h'; simp at h'

theorem forwardBeforeFrom_end {st : Stat} {target : Cmd × Option Str} {total pos : Nat} {s : Side}
    {rest : Str} (h : (fillFile empty rest).1 = .finished ∨ (fillFile empty rest).1 = .error) :
    forwardBeforeFrom st target total pos s rest =
      (setHigher s.dpth (leftIn empty rest)).map (fun d => (pos, { s with dpth := d })) := by
  rw [forwardBeforeFrom]
  split
  · rename_i h'; rw [h'] at h; simp at h
  · rfl
  · rfl

/-- What is left of a file when its entries have been read. -/
def tailOf (f : Str) : Str :=
  match h : fillFile empty f with
  | (.entry _, rest) =>
    have _ := fillFile_lt h
    tailOf rest
  | (.finished, _) => f
  | (.error, _) => f
termination_by f.length

theorem tailOf_entry {f rest : Str} {sb : Sbuf} (h : fillFile empty f = (.entry sb, rest)) :
    tailOf f = tailOf rest := by
  rw [tailOf]
  split
  · rename_i h'
    rw [h] at h'
    simp only [Prod.mk.injEq] at h'
    rw [h'.2]
  · rename_i h'; rw [h] at h'; simp at h'
  · rename_i h'; rw [h] at h'; simp at h'

theorem tailOf_end {f : Str} (h : (fillFile empty f).1 = .finished ∨ (fillFile empty f).1 = .error) :
    tailOf f = f := by
  rw [tailOf]
  split
  · rename_i h'; rw [h'] at h; simp at h
  · rfl
  · rfl

/-- The data paths that are met in a file: those of its entries, and the one in what is left behind them. -/
def pathsIn (f : Str) : List (Option Str) :=
  (readEntries f).1.map (·.datapth) ++ [(leftIn empty (tailOf f)).datapth]

theorem pathsIn_entry {f rest : Str} {sb : Sbuf} (h : fillFile empty f = (.entry sb, rest)) :
    pathsIn f = sb.datapth :: pathsIn rest := by
  unfold pathsIn
  rw [readEntries_cons h, tailOf_entry h]
  simp

theorem setAll_cons (d : Dpth.Dpth) (sb : Sbuf) (es : List (Option Str)) :
    Dpth.setAll d (sb.datapth :: es) = (setHigher d sb).bind (fun d => Dpth.setAll d es) := by
  unfold setHigher
  cases sb.datapth with
  | none => simp [Dpth.setAll]
  | some x =>
    simp only [Dpth.setAll]
    cases Dpth.setFromString d x <;> rfl

/-! ### The loops and the lists of entries -/

theorem lastGoodFrom_spec (st : Stat) (f : Str) : ∀ (rest : Str) (u : Str) (pre : List Sbuf) (got : Bool)
    (acc : Option (Cmd × Option Str) × Nat) (accL : Option Sbuf × Nat) (s : Side),
    f = u ++ rest → Block u pre → Behind f accL.2 acc.2 → acc.1 = accL.1.map keyOf →
    match lastGoodFrom st f.length got acc s rest with
    | none => Dpth.setAll s.dpth (pathsIn rest) = none
    | some (acc', s') =>
      acc'.1 = (Resume.lastGoodLoop (infoOf st) got pre.length accL (readEntries rest).1).1.map keyOf ∧
      Behind f (Resume.lastGoodLoop (infoOf st) got pre.length accL (readEntries rest).1).2 acc'.2 ∧
      s'.cntr = ResumeCntr.lastGoodCount lengthIn s.cntr (readEntries rest).1 ∧
      Dpth.setAll s.dpth (pathsIn rest) = some s'.dpth := by
  intro rest
  induction rest using WellFounded.induction (measure (fun (f : Str) => f.length)).wf with
  | _ rest ih =>
    intro u pre got acc accL s hf hb hacc hk
    rcases fill_cases rest with ⟨sb, rest', h⟩ | ⟨h, h1, _⟩
    · rw [lastGoodFrom_entry h, readEntries_cons h, pathsIn_entry h, setAll_cons]
      cases hs : setHigher s.dpth sb with
      | none => simp
      | some d =>
        simp only [Option.bind_some]
        obtain ⟨v, e, hv⟩ := block_one h
        have hb' := block_append hb hv
        have hf' : f = (u ++ v) ++ rest' := by rw [hf, e]; simp
        have hpos : f.length - rest'.length = (u ++ v).length := by
          rw [hf']; simp only [List.length_append]; omega
        have := ih rest' (fillFile_lt h) (u ++ v) (pre ++ [sb]) (Resume.vssStart (infoOf st) sb got)
          (if Resume.vssStart (infoOf st) sb got then acc
            else if (!(keyOf sb).1.isFiledata && !(keyOf sb).1.isVssdata) || sb.endfile.isSome then
              (some (keyOf sb), f.length - rest'.length)
            else acc)
          (if Resume.vssStart (infoOf st) sb got then accL
            else if (!(keyOf sb).1.isFiledata && !(keyOf sb).1.isVssdata) || sb.endfile.isSome then
              (some sb, pre.length + 1)
            else accL)
          ⟨ResumeCntr.addLength lengthIn s.cntr sb, d⟩ hf' hb'
          (by
            split
            · exact hacc
            · split
              · exact ⟨u ++ v, rest', pre ++ [sb], hf', hpos.symm, by simp, hb'⟩
              · exact hacc)
          (by
            split
            · exact hk
            · split
              · rfl
              · exact hk)
        rw [List.length_append] at this
        exact this
    · rw [lastGoodFrom_end h, h1]
      unfold pathsIn
      rw [h1, tailOf_end h, List.map_nil, List.nil_append, setAll_cons]
      cases hs : setHigher s.dpth (leftIn empty rest) with
      | none => simp
      | some d =>
        simp only [Option.map_some, Option.bind_some, Dpth.setAll]
        exact ⟨hk, hacc, rfl, trivial⟩

theorem forwardPastFrom_spec (target : Cmd × Option Str) (f : Str) : ∀ (rest : Str) (u : Str) (pre : List Sbuf),
    f = u ++ rest → Block u pre →
    match forwardPastFrom target f.length rest with
    | none => (readEntries rest).2 = false
    | some p => ∃ n, Behind f n p ∧
        (readEntries f).1.drop n = Resume.forwardPast target keyOf (readEntries rest).1 := by
  intro rest
  induction rest using WellFounded.induction (measure (fun (f : Str) => f.length)).wf with
  | _ rest ih =>
    intro u pre hf hb
    have hall : readEntries f = (pre ++ (readEntries rest).1, (readEntries rest).2) := by rw [hf]; exact hb rest
    have hhere : f.length - rest.length = u.length := by rw [hf]; simp
    rcases fill_cases rest with ⟨sb, rest', h⟩ | ⟨h, h1, h2⟩
    · obtain ⟨v, e, hv⟩ := block_one h
      have hb' := block_append hb hv
      have hf' : f = (u ++ v) ++ rest' := by rw [hf, e]; simp
      have hpos : f.length - rest'.length = (u ++ v).length := by
        rw [hf']; simp only [List.length_append]; omega
      rw [forwardPastFrom_entry h]
      by_cases c0 : iobufPathcmp target (keyOf sb) = 0
      · rw [if_pos c0]
        refine ⟨pre.length + 1, ⟨u ++ v, rest', pre ++ [sb], hf', hpos.symm, by simp, hb'⟩, ?_⟩
        rw [hall, readEntries_cons h]
        simp [Resume.forwardPast, c0]
      · rw [if_neg c0]
        by_cases c1 : iobufPathcmp target (keyOf sb) = -1
        · rw [if_pos c1]
          refine ⟨pre.length, ⟨u, rest, pre, hf, hhere.symm, rfl, hb⟩, ?_⟩
          rw [hall, readEntries_cons h]
          simp [Resume.forwardPast, c1]
        · rw [if_neg c1, readEntries_cons h]
          have := ih rest' (fillFile_lt h) (u ++ v) (pre ++ [sb]) hf' hb'
          cases hr : forwardPastFrom target f.length rest' with
          | none => rw [hr] at this; exact this
          | some p =>
            rw [hr] at this
            obtain ⟨n, hn, hd⟩ := this
            exact ⟨n, hn, by rw [hd]; simp [Resume.forwardPast, c0, c1]⟩
    · rw [forwardPastFrom_end h]
      by_cases hfin : (fillFile empty rest).1 = .finished
      · rw [if_pos hfin]
        refine ⟨pre.length, ⟨u, rest, pre, hf, hhere.symm, rfl, hb⟩, ?_⟩
        rw [hall, h1]
        simp [Resume.forwardPast]
      · rw [if_neg hfin]
        cases hb2 : (readEntries rest).2 with
        | false => rfl
        | true => exact absurd (h2.1 hb2) hfin

/-- The data paths that `forward_before_entry` looks at. -/
def pathsBefore (target : Cmd × Option Str) (f : Str) : List (Option Str) :=
  match h : fillFile empty f with
  | (.entry sb, rest) =>
    have _ := fillFile_lt h
    if iobufPathcmp target (keyOf sb) ≤ 0 then [sb.datapth] else sb.datapth :: pathsBefore target rest
  | (.finished, _) => [(leftIn empty f).datapth]
  | (.error, _) => [(leftIn empty f).datapth]
termination_by f.length

theorem pathsBefore_entry {target : Cmd × Option Str} {f rest : Str} {sb : Sbuf}
    (h : fillFile empty f = (.entry sb, rest)) : pathsBefore target f =
      if iobufPathcmp target (keyOf sb) ≤ 0 then [sb.datapth] else sb.datapth :: pathsBefore target rest := by
  rw [pathsBefore]
  split
  · rename_i h'
    rw [h] at h'
    simp only [Prod.mk.injEq, FillRet.entry.injEq] at h'
    obtain ⟨rfl, rfl⟩ := h'
    rfl
  · rename_i h'; rw [h] at h'; simp at h'
  · rename_i h'; rw [h] at h'; simp at h'

theorem pathsBefore_end {target : Cmd × Option Str} {f : Str}
    (h : (fillFile empty f).1 = .finished ∨ (fillFile empty f).1 = .error) :
    pathsBefore target f = [(leftIn empty f).datapth] := by
  rw [pathsBefore]
  split
  · rename_i h'; rw [h'] at h; simp at h
  · rfl
  · rfl

theorem forwardBeforeFrom_spec (st : Stat) (target : Cmd × Option Str) (f : Str) : ∀ (rest : Str) (u : Str)
    (pre : List Sbuf) (pos n : Nat) (s : Side), f = u ++ rest → Block u pre → Behind f n pos →
    match forwardBeforeFrom st target f.length pos s rest with
    | none => Dpth.setAll s.dpth (pathsBefore target rest) = none
    | some (pos', s') =>
      Behind f (Resume.forwardBeforeLoop target (infoOf st) pre.length n (readEntries rest).1) pos' ∧
      s'.cntr = ResumeCntr.beforeCount target (infoOf st) lengthIn s.cntr (readEntries rest).1 ∧
      Dpth.setAll s.dpth (pathsBefore target rest) = some s'.dpth := by
  intro rest
  induction rest using WellFounded.induction (measure (fun (f : Str) => f.length)).wf with
  | _ rest ih =>
    intro u pre pos n s hf hb hpn
    rcases fill_cases rest with ⟨sb, rest', h⟩ | ⟨h, h1, _⟩
    · rw [forwardBeforeFrom_entry h, readEntries_cons h, pathsBefore_entry h]
      by_cases hc : iobufPathcmp target (keyOf sb) ≤ 0
      · rw [if_pos hc, setAll_cons]
        cases hs : setHigher s.dpth sb with
        | none => simp
        | some d =>
          simp only [if_pos hc, Option.bind_some, Dpth.setAll]
          have hc' : iobufPathcmp target ((infoOf st).key sb) ≤ 0 := hc
          simp only [Resume.forwardBeforeLoop, ResumeCntr.beforeCount, if_pos hc']
          refine ⟨hpn, ?_, ?_⟩ <;> trivial
      · rw [if_neg hc, setAll_cons]
        cases hs : setHigher s.dpth sb with
        | none => simp
        | some d =>
          simp only [if_neg hc, Option.bind_some]
          obtain ⟨v, e, hv⟩ := block_one h
          have hb' := block_append hb hv
          have hf' : f = (u ++ v) ++ rest' := by rw [hf, e]; simp
          have hpos : f.length - rest'.length = (u ++ v).length := by
            rw [hf']; simp only [List.length_append]; omega
          have hc' : ¬ iobufPathcmp target ((infoOf st).key sb) ≤ 0 := hc
          simp only [Resume.forwardBeforeLoop, ResumeCntr.beforeCount, if_neg hc']
          have := ih rest' (fillFile_lt h) (u ++ v) (pre ++ [sb])
            (if sb.endfile.isSome || !(keyOf sb).1.isFiledata then f.length - rest'.length else pos)
            (if sb.endfile.isSome || !(keyOf sb).1.isFiledata then pre.length + 1 else n)
            ⟨ResumeCntr.addLength lengthIn s.cntr sb, d⟩ hf' hb'
            (by
              split
              · exact ⟨u ++ v, rest', pre ++ [sb], hf', hpos.symm, by simp, hb'⟩
              · exact hpn)
          rw [List.length_append] at this
          exact this
    · rw [forwardBeforeFrom_end h, h1, pathsBefore_end h, setAll_cons]
      cases hs : setHigher s.dpth (leftIn empty rest) with
      | none => simp
      | some d =>
        simp only [Option.map_some, Option.bind_some, Dpth.setAll]
        refine ⟨hpn, ?_, ?_⟩ <;> trivial

/-! ### The files of counters -/

theorem readRow_local {f rest : Str} {b : Byte} {r : Rec} (h : readRow f = some (b, r, rest)) :
    ∃ u, f = u ++ rest ∧ ∀ x, readRow (u ++ x) = some (b, r, x) := by
  cases f with
  | nil => simp [readRow] at h
  | cons y f1 =>
    simp only [readRow] at h
    cases hf : fill f1 with
    | ok r' rest' =>
      rw [hf] at h
      simp only [Option.some.injEq, Prod.mk.injEq] at h
      obtain ⟨rfl, rfl, rfl⟩ := h
      obtain ⟨u, e, hu⟩ := fill_local hf
      exact ⟨y :: u, by rw [e]; rfl, fun x => by simp [readRow, hu x]⟩
    | eof => rw [hf] at h; cases h
    | err => rw [hf] at h; cases h

theorem rowsIn_some {f rest : Str} {b : Byte} {r : Rec} (h : readRow f = some (b, r, rest)) :
    rowsIn f = (b, r) :: rowsIn rest := by
  rw [rowsIn]
  split
  · rename_i h'; rw [h] at h'; cases h'
  · rename_i h'
    rw [h] at h'
    simp only [Option.some.injEq, Prod.mk.injEq] at h'
    obtain ⟨rfl, rfl, rfl⟩ := h'
    rfl

theorem rowsIn_none {f : Str} (h : readRow f = none) : rowsIn f = [] := by
  rw [rowsIn]
  split
  · rfl
  · rename_i h'; rw [h] at h'; cases h'

theorem forwardCounterFrom_some {target : Cmd × Option Str} {total : Nat} {c : Cntr.Cntr} {f rest : Str}
    {b : Byte} {r : Rec} (h : readRow f = some (b, r, rest)) :
    forwardCounterFrom target total c f =
      if iobufPathcmp target (rowKey r) = 0 then (addLetter c b r.cmd, total - rest.length)
      else if iobufPathcmp target (rowKey r) = -1 then (c, total - f.length)
      else forwardCounterFrom target total (addLetter c b r.cmd) rest := by
  rw [forwardCounterFrom]
  split
  · rename_i h'; rw [h] at h'; cases h'
  · rename_i h'
    rw [h] at h'
    simp only [Option.some.injEq, Prod.mk.injEq] at h'
    obtain ⟨rfl, rfl, rfl⟩ := h'
    rfl

theorem forwardCounterFrom_none {target : Cmd × Option Str} {total : Nat} {c : Cntr.Cntr} {f : Str}
    (h : readRow f = none) : forwardCounterFrom target total c f = (c, total - f.length) := by
  rw [forwardCounterFrom]
  split
  · rfl
  · rename_i h'; rw [h] at h'; cases h'

/-- `u` is a beginning of a file that holds exactly the rows `rs`. -/
def RowBlock (u : Str) (rs : List (Byte × Rec)) : Prop := ∀ x, rowsIn (u ++ x) = rs ++ rowsIn x

/-- `forwardCounter` on rows as they are read. -/
def countRows (target : Cmd × Option Str) (c : Cntr.Cntr) : List (Byte × Rec) → Cntr.Cntr × List (Byte × Rec)
  | [] => (c, [])
  | x :: xs =>
    if iobufPathcmp target (rowKey x.2) = 0 then (addLetter c x.1 x.2.cmd, [x])
    else if iobufPathcmp target (rowKey x.2) = -1 then (c, [])
    else ((countRows target (addLetter c x.1 x.2.cmd) xs).1,
      x :: (countRows target (addLetter c x.1 x.2.cmd) xs).2)

theorem forwardCounterFrom_spec (target : Cmd × Option Str) (f : Str) : ∀ (rest : Str) (u : Str)
    (pre : List (Byte × Rec)) (c : Cntr.Cntr), f = u ++ rest → RowBlock u pre →
    ∃ v w, f = v ++ w ∧ v.length = (forwardCounterFrom target f.length c rest).2 ∧
      RowBlock v (pre ++ (countRows target c (rowsIn rest)).2) ∧
      (forwardCounterFrom target f.length c rest).1 = (countRows target c (rowsIn rest)).1 := by
  intro rest
  induction rest using WellFounded.induction (measure (fun (f : Str) => f.length)).wf with
  | _ rest ih =>
    intro u pre c hf hb
    have hhere : f.length - rest.length = u.length := by rw [hf]; simp
    cases h : readRow rest with
    | none =>
      rw [forwardCounterFrom_none h, rowsIn_none h]
      exact ⟨u, rest, hf, hhere.symm, by simpa [countRows] using hb, rfl⟩
    | some y =>
      obtain ⟨b, r, rest'⟩ := y
      rw [forwardCounterFrom_some h, rowsIn_some h]
      obtain ⟨v, e, hv⟩ := readRow_local h
      have hb' : RowBlock (u ++ v) (pre ++ [(b, r)]) := by
        intro x
        rw [List.append_assoc, hb, rowsIn_some (hv x)]
        simp
      have hf' : f = (u ++ v) ++ rest' := by rw [hf, e]; simp
      have hpos : f.length - rest'.length = (u ++ v).length := by
        rw [hf']; simp only [List.length_append]; omega
      by_cases c0 : iobufPathcmp target (rowKey r) = 0
      · simp only [countRows, if_pos c0]
        exact ⟨u ++ v, rest', hf', hpos.symm, hb', trivial⟩
      · by_cases c1 : iobufPathcmp target (rowKey r) = -1
        · simp only [countRows, if_neg c0, if_pos c1]
          exact ⟨u, rest, hf, hhere.symm, by simpa using hb, trivial⟩
        · simp only [countRows, if_neg c0, if_neg c1]
          obtain ⟨v', w, k1, k2, k3, k4⟩ := ih rest' (readRow_lt h) (u ++ v) (pre ++ [(b, r)])
            (addLetter c b r.cmd) hf' hb'
          exact ⟨v', w, k1, k2, by simpa using k3, k4⟩

theorem rowBlock_nil : RowBlock [] [] := fun x => by simp

theorem rowsIn_empty : rowsIn [] = [] := rowsIn_none rfl

/-- A file of counters that has been truncated: it is a beginning of what it was, and has just the rows that
have been counted. -/
theorem forwardCounter_spec (target : Cmd × Option Str) (c : Cntr.Cntr) (f : Str) :
    truncate f (forwardCounter target c f).2 <+: f ∧
    RowBlock (truncate f (forwardCounter target c f).2) (countRows target c (rowsIn f)).2 ∧
    (forwardCounter target c f).1 = (countRows target c (rowsIn f)).1 := by
  obtain ⟨v, w, h1, h2, h3, h4⟩ := forwardCounterFrom_spec target f f [] [] c rfl rowBlock_nil
  have e : truncate f (forwardCounter target c f).2 = v := by
    unfold forwardCounter
    rw [← h2, truncate_le (by rw [h1]; simp)]
    conv => lhs; rw [h1]
    exact List.take_left
  rw [e]
  exact ⟨⟨w, h1.symm⟩, h3, h4⟩

/-! ### All of it -/

theorem lastGood_bytes {st : Stat} {s s' : Side} {f : Str} {a : Option (Cmd × Option Str)} {p : Nat}
    (h : lastGood st s f = some ((a, p), s')) :
    a = (Resume.lastGood (infoOf st) (readEntries f).1).1.map keyOf ∧
    truncate f p <+: f ∧
    Block (truncate f p) ((readEntries f).1.take (Resume.lastGood (infoOf st) (readEntries f).1).2) ∧
    s'.cntr = ResumeCntr.lastGoodCount lengthIn s.cntr (readEntries f).1 ∧
    Dpth.setAll s.dpth (pathsIn f) = some s'.dpth := by
  have := lastGoodFrom_spec st f f [] [] false (none, 0) (none, 0) s rfl block_nil (behind_start f) rfl
  unfold lastGood at h
  rw [h] at this
  obtain ⟨h1, h2, h3, h4⟩ := this
  have hb := behind_take h2
  refine ⟨h1, ?_, ?_, h3, h4⟩
  · rw [truncate_le hb.2.2.2.1]; exact List.take_prefix _ _
  · rw [truncate_le hb.2.2.2.1]; exact hb.1

theorem forwardPast_bytes {target : Cmd × Option Str} {f : Str} {p : Nat} (h : forwardPast target f = some p) :
    (readEntries (f.drop p)).1 = Resume.forwardPast target keyOf (readEntries f).1 ∧
    (readEntries (f.drop p)).2 = (readEntries f).2 := by
  have := forwardPastFrom_spec target f f [] [] rfl block_nil
  unfold forwardPast at h
  rw [h] at this
  obtain ⟨n, h1, h2⟩ := this
  have hb := behind_take h1
  exact ⟨by rw [hb.2.1, h2], hb.2.2.1⟩

theorem forwardPast_works {target : Cmd × Option Str} {f : Str} (h : (readEntries f).2 = true) :
    ∃ p, forwardPast target f = some p := by
  have := forwardPastFrom_spec target f f [] [] rfl block_nil
  cases hr : forwardPast target f with
  | some p => exact ⟨p, rfl⟩
  | none =>
    unfold forwardPast at hr
    rw [hr] at this
    rw [h] at this
    cases this

theorem forwardBefore_bytes {st : Stat} {target : Cmd × Option Str} {s s' : Side} {f : Str} {p : Nat}
    (h : forwardBefore st target s f = some (p, s')) :
    truncate f p <+: f ∧
    Block (truncate f p) (Resume.forwardBefore target (infoOf st) (readEntries f).1) ∧
    s'.cntr = ResumeCntr.beforeCount target (infoOf st) lengthIn s.cntr (readEntries f).1 ∧
    Dpth.setAll s.dpth (pathsBefore target f) = some s'.dpth := by
  have := forwardBeforeFrom_spec st target f f [] [] 0 0 s rfl block_nil (behind_start f)
  unfold forwardBefore at h
  rw [h] at this
  obtain ⟨h2, h3, h4⟩ := this
  have hb := behind_take h2
  refine ⟨?_, ?_, h3, h4⟩
  · rw [truncate_le hb.2.2.2.1]; exact List.take_prefix _ _
  · rw [truncate_le hb.2.2.2.1]; exact hb.1

theorem truncate_zero (f : Str) : truncate f 0 = [] := by simp [truncate]

/-- What resuming does, in terms of the entries that can be read from the files. -/
structure Meaning (st : Stat) (s : Side) (f : Files) (r : Resumed) : Prop where
  changed : Block r.changed (Resume.resume (infoOf st) keyOf (readEntries f.changed).1
    (readEntries f.unchanged).1 (readEntries f.scan).1 (f.prev.map (fun p => (readEntries p).1))).changed
  unchanged : Block r.unchanged (Resume.resume (infoOf st) keyOf (readEntries f.changed).1
    (readEntries f.unchanged).1 (readEntries f.scan).1 (f.prev.map (fun p => (readEntries p).1))).unchanged
  pre : r.changed <+: f.changed ∧ r.unchanged <+: f.unchanged ∧ r.cd <+: f.cd ∧ r.cn <+: f.cn
  scan : readEntries (r.scanLeft f) = ((Resume.resume (infoOf st) keyOf (readEntries f.changed).1
    (readEntries f.unchanged).1 (readEntries f.scan).1 (f.prev.map (fun p => (readEntries p).1))).scan,
    (readEntries f.scan).2)
  prev : (r.prevLeft f).map (fun p => (readEntries p).1) = (Resume.resume (infoOf st) keyOf
    (readEntries f.changed).1 (readEntries f.unchanged).1 (readEntries f.scan).1
    (f.prev.map (fun p => (readEntries p).1))).prev
  prevOk : (r.prevLeft f).map (fun p => (readEntries p).2) = f.prev.map (fun p => (readEntries p).2)
  rows : match (Resume.lastGood (infoOf st) (readEntries f.changed).1).1 with
    | none => r.cd = [] ∧ r.cn = [] ∧
        r.side.cntr = ResumeCntr.lastGoodCount lengthIn s.cntr (readEntries f.changed).1
    | some x =>
      let c := ResumeCntr.beforeCount (keyOf x) (infoOf st) lengthIn
        (ResumeCntr.lastGoodCount lengthIn s.cntr (readEntries f.changed).1) (readEntries f.unchanged).1
      let d := countRows (keyOf x) c (rowsIn f.cd)
      let n := countRows (keyOf x) d.1 (rowsIn f.cn)
      RowBlock r.cd d.2 ∧ RowBlock r.cn n.2 ∧ r.side.cntr = n.1
  dpth : Dpth.setAll s.dpth (pathsIn f.changed ++
    match (Resume.lastGood (infoOf st) (readEntries f.changed).1).1 with
    | none => []
    | some x => pathsBefore (keyOf x) f.unchanged) = some r.side.dpth

theorem setAll_append (es : List (Option Str)) : ∀ (d : Dpth.Dpth) (fs : List (Option Str)),
    Dpth.setAll d (es ++ fs) = (Dpth.setAll d es).bind (fun d => Dpth.setAll d fs) := by
  induction es with
  | nil => intro d fs; simp [Dpth.setAll]
  | cons e es ih =>
    intro d fs
    cases e with
    | none => simp only [List.cons_append, Dpth.setAll]; exact ih d fs
    | some x =>
      simp only [List.cons_append, Dpth.setAll]
      cases Dpth.setFromString d x with
      | none => rfl
      | some d' => exact ih d' fs

theorem resumeWork_meaning {st : Stat} {s : Side} {f : Files} {r : Resumed} (h : resumeWork st s f = some r) :
    Meaning st s f r := by
  unfold resumeWork at h
  cases hg : lastGood st s f.changed with
  | none => rw [hg] at h; cases h
  | some g =>
    obtain ⟨⟨a, p⟩, s1⟩ := g
    rw [hg] at h
    obtain ⟨h1, h2, h3, h4, h5⟩ := lastGood_bytes hg
    cases hL : (Resume.lastGood (infoOf st) (readEntries f.changed).1).1 with
    | none =>
      rw [hL] at h1
      simp only [Option.map_none] at h1
      subst h1
      simp only [Option.some.injEq] at h
      subst h
      constructor
      · simp only [Resume.resume, hL]; exact h3
      · simp only [Resume.resume, hL, truncate_zero]; exact block_nil
      · simp only [truncate_zero]
        exact ⟨h2, List.nil_prefix, List.nil_prefix, List.nil_prefix⟩
      · simp [Resumed.scanLeft, Resume.resume, hL]
      · simp [Resumed.prevLeft, Resume.resume, hL]
      · simp [Resumed.prevLeft]
      · rw [hL]; exact ⟨truncate_zero _, truncate_zero _, h4⟩
      · rw [hL]; simpa using h5
    | some x =>
      rw [hL] at h1
      simp only [Option.map_some] at h1
      subst h1
      simp only at h
      cases hs : forwardPast (keyOf x) f.scan with
      | none => rw [hs] at h; cases h
      | some ps =>
        rw [hs] at h
        simp only at h
        obtain ⟨k1, k2⟩ := forwardPast_bytes hs
        cases hu : forwardBefore st (keyOf x) s1 f.unchanged with
        | none =>
          rw [hu] at h
          split at h <;> cases h
        | some q =>
          obtain ⟨pu, s2⟩ := q
          obtain ⟨m1, m2, m3, m4⟩ := forwardBefore_bytes hu
          rw [hu] at h
          have hd := forwardCounter_spec (keyOf x) s2.cntr f.cd
          have hn := forwardCounter_spec (keyOf x) (forwardCounter (keyOf x) s2.cntr f.cd).1 f.cn
          have common : ∀ pp : Option Nat,
              (f.prev.map (fun p => p.drop (pp.getD 0))).map (fun p => (readEntries p).1) =
                (f.prev.map (fun p => (readEntries p).1)).map (Resume.forwardPast (keyOf x) keyOf) →
              (f.prev.map (fun p => p.drop (pp.getD 0))).map (fun p => (readEntries p).2) =
                f.prev.map (fun p => (readEntries p).2) →
              Meaning st s f
                { changed := truncate f.changed p, unchanged := truncate f.unchanged pu,
                  cd := truncate f.cd (forwardCounter (keyOf x) s2.cntr f.cd).2,
                  cn := truncate f.cn (forwardCounter (keyOf x) (forwardCounter (keyOf x) s2.cntr f.cd).1 f.cn).2,
                  posScan := ps, posPrev := pp,
                  side := { s2 with cntr :=
                    (forwardCounter (keyOf x) (forwardCounter (keyOf x) s2.cntr f.cd).1 f.cn).1 } } := by
            intro pp hp1 hp2
            constructor
            · simp only [Resume.resume, hL]; exact h3
            · simp only [Resume.resume, hL]; exact m2
            · exact ⟨h2, m1, hd.1, hn.1⟩
            · simp only [Resumed.scanLeft, Resume.resume, hL]
              exact Prod.ext k1 k2
            · simp only [Resumed.prevLeft, Resume.resume, hL]; exact hp1
            · simp only [Resumed.prevLeft]; exact hp2
            · rw [hL]
              simp only
              rw [← h4, ← m3, ← hd.2.2]
              exact ⟨hd.2.1, hn.2.1, hn.2.2⟩
            · rw [hL]
              simp only
              rw [setAll_append, h5]
              exact m4
          cases hprev : f.prev with
          | none =>
            rw [hprev] at h common
            simp only [Option.some.injEq] at h
            rw [← h]
            exact common none rfl rfl
          | some pv =>
            rw [hprev] at h common
            simp only at h
            cases hpf : forwardPast (keyOf x) pv with
            | none => rw [hpf] at h; simp only [Option.map_none] at h; cases h
            | some pp =>
              rw [hpf] at h
              simp only [Option.map_some, Option.some.injEq] at h
              rw [← h]
              obtain ⟨q1, q2⟩ := forwardPast_bytes hpf
              exact common (some pp) (by simp [q1]) (by simp [q2])

/-! ### Entries and what they stand for -/

/-- Two kinds of entry that look alike to resuming. -/
def Alike {A B : Type} (j : Resume.Info A) (i : Resume.Info B) (g : A → B) (a : A) : Prop :=
  j.key a = i.key (g a) ∧ j.endfile a = i.endfile (g a) ∧ j.isDir a = i.isDir (g a)

theorem lastGoodLoop_map {A B : Type} (j : Resume.Info A) (i : Resume.Info B) (g : A → B) : ∀ (l : List A)
    (got : Bool) (n : Nat) (acc : Option A × Nat), (∀ a ∈ l, Alike j i g a) →
    Resume.lastGoodLoop i got n (acc.1.map g, acc.2) (l.map g) =
      ((Resume.lastGoodLoop j got n acc l).1.map g, (Resume.lastGoodLoop j got n acc l).2) := by
  intro l
  induction l with
  | nil => intro got n acc _; rfl
  | cons x xs ih =>
    intro got n acc h
    obtain ⟨h1, h2, h3⟩ := h x (by simp)
    have hv : Resume.vssStart i (g x) got = Resume.vssStart j x got := by
      unfold Resume.vssStart
      rw [h1, h3]
    simp only [List.map_cons, Resume.lastGoodLoop]
    rw [hv, ← h1, ← h2]
    have := ih (Resume.vssStart j x got) (n + 1)
      (if Resume.vssStart j x got then acc
        else if (!(j.key x).1.isFiledata && !(j.key x).1.isVssdata) || j.endfile x then (some x, n + 1)
        else acc) (fun a ha => h a (by simp [ha]))
    rw [← this]
    congr 1
    split
    · rfl
    · split <;> rfl

theorem forwardBeforeLoop_map {A B : Type} (j : Resume.Info A) (i : Resume.Info B) (g : A → B)
    (target : Cmd × Option Str) : ∀ (l : List A) (n pos : Nat), (∀ a ∈ l, Alike j i g a) →
    Resume.forwardBeforeLoop target i n pos (l.map g) = Resume.forwardBeforeLoop target j n pos l := by
  intro l
  induction l with
  | nil => intro n pos _; rfl
  | cons x xs ih =>
    intro n pos h
    obtain ⟨h1, h2, h3⟩ := h x (by simp)
    simp only [List.map_cons, Resume.forwardBeforeLoop]
    rw [← h1, ← h2, ih _ _ (fun a ha => h a (by simp [ha]))]

theorem forwardPast_map {A B : Type} (k : A → B) (keyA : A → Cmd × Option Str) (keyB : B → Cmd × Option Str)
    (target : Cmd × Option Str) : ∀ l : List A, (∀ a ∈ l, keyA a = keyB (k a)) →
    Resume.forwardPast target keyB (l.map k) = (Resume.forwardPast target keyA l).map k := by
  intro l
  induction l with
  | nil => intro _; rfl
  | cons x xs ih =>
    intro h
    have h1 := h x (by simp)
    simp only [List.map_cons, Resume.forwardPast]
    rw [← h1, ih (fun a ha => h a (by simp [ha]))]
    split
    · rfl
    · split <;> rfl

theorem forwardPast_suffix {A : Type} (key : A → Cmd × Option Str) (target : Cmd × Option Str) : ∀ l : List A,
    Resume.forwardPast target key l <:+ l := by
  intro l
  induction l with
  | nil => simp [Resume.forwardPast]
  | cons x xs ih =>
    simp only [Resume.forwardPast]
    split
    · exact List.suffix_cons x xs
    · split
      · exact List.suffix_refl _
      · exact ih.trans (List.suffix_cons x xs)

theorem lastGood_map {A B : Type} (j : Resume.Info A) (i : Resume.Info B) (g : A → B) (l : List A)
    (h : ∀ a ∈ l, Alike j i g a) :
    Resume.lastGood i (l.map g) = ((Resume.lastGood j l).1.map g, (Resume.lastGood j l).2) :=
  lastGoodLoop_map j i g l false 0 (none, 0) h

theorem lastGood_mem {A : Type} (j : Resume.Info A) (l : List A) (x : A)
    (h : (Resume.lastGood j l).1 = some x) : x ∈ l := by
  rcases Verif.lastGood_spec j l with e | ⟨q, r, e, hq⟩
  · rw [e] at h; cases h
  · rw [e] at h
    simp only [Option.some.injEq] at h
    subst h
    exact hq.subset (by simp)

theorem resume_map {A B A' B' : Type} (j : Resume.Info A) (i : Resume.Info B) (g : A → B) (k : A' → B')
    (keyA : A' → Cmd × Option Str) (keyB : B' → Cmd × Option Str) (ch un : List A) (sc : List A')
    (pv : Option (List A')) (hch : ∀ a ∈ ch, Alike j i g a) (hun : ∀ a ∈ un, Alike j i g a)
    (hsc : ∀ a ∈ sc, keyA a = keyB (k a)) (hpv : ∀ l, pv = some l → ∀ a ∈ l, keyA a = keyB (k a)) :
    Resume.resume i keyB (ch.map g) (un.map g) (sc.map k) (pv.map (fun l => l.map k)) =
      ⟨(Resume.resume j keyA ch un sc pv).changed.map g, (Resume.resume j keyA ch un sc pv).unchanged.map g,
        (Resume.resume j keyA ch un sc pv).scan.map k,
        (Resume.resume j keyA ch un sc pv).prev.map (fun l => l.map k)⟩ := by
  unfold Resume.resume
  simp only [lastGood_map j i g ch hch]
  cases hg : (Resume.lastGood j ch).1 with
  | none => simp [List.map_take]
  | some x =>
    have hx := hch x (lastGood_mem j ch x hg)
    simp only [Option.map_some, ← hx.1]
    rw [forwardPast_map k keyA keyB _ sc hsc]
    have hb : Resume.forwardBefore (j.key x) i (un.map g) = (Resume.forwardBefore (j.key x) j un).map g := by
      unfold Resume.forwardBefore
      rw [forwardBeforeLoop_map j i g _ un 0 0 hun, List.map_take]
    rw [hb, List.map_take]
    congr 1
    cases pv with
    | none => rfl
    | some l => simp only [Option.map_some, forwardPast_map k keyA keyB _ l (hpv l rfl)]

theorem keyOf_entry {e : Entry} (h : e.Ok) : keyOf e.toSbuf = (kindOf e, some (pathOf e)) := by
  cases e with
  | plain k a p =>
    simp [keyOf, Entry.toSbuf, pathCmd, ofByte_toByte, kindOf, pathOf, cstr_noNul h.2.2.2.1]
  | link k a p t =>
    simp [keyOf, Entry.toSbuf, pathCmd, ofByte_toByte, kindOf, pathOf, cstr_noNul h.2.2.2.2.1]
  | stored k d a p x =>
    simp [keyOf, Entry.toSbuf, pathCmd, ofByte_toByte, kindOf, pathOf, cstr_noNul h.2.2.2.2.2.1]

theorem endfile_entry (e : Entry) : e.toSbuf.endfile.isSome = hasData e := by cases e <;> rfl

theorem attr_entry (e : Entry) : e.toSbuf.attr = some (attrOf e) := by cases e <;> rfl

theorem alike_fst {E : Type} {w : Phase2.Walk E} {isDir : E → Bool} {st : Stat} {p : Phase2.Out E × Entry}
    (h : StandsFor w isDir st p.1 p.2) :
    Alike ⟨fun q : Phase2.Out E × Entry => keyOf q.2.toSbuf, fun q => q.2.toSbuf.endfile.isSome,
      fun q => st.isDir q.2.toSbuf.attr⟩ (Resume.outInfo w isDir) (·.1) p := by
  obtain ⟨h1, h2, h3, h4⟩ := h
  refine ⟨?_, ?_, ?_⟩
  · simp only [keyOf_entry h1, Resume.outInfo, h2]
  · simp only [endfile_entry, h4, Resume.outInfo, h2]
  · simp only [attr_entry, Resume.outInfo, h3]

/-! ### Files that were written in part -/

theorem whole_eq {es : List Entry} {f : Str} (hok : ∀ e ∈ es, e.Ok) (h : Whole es f) :
    f = (es.map encEntry).flatten := by
  unfold Whole at h
  rw [writeEntries_ok hok] at h
  simp only [List.nil_append, Prod.mk.injEq, and_true] at h
  exact h.symm

theorem whole_block {es : List Entry} {f : Str} (hok : ∀ e ∈ es, e.Ok) (h : Whole es f) :
    Block f (es.map Entry.toSbuf) := by
  rw [whole_eq hok h]; exact block_entries hok

theorem entry_bytes {e : Entry} {h : Str} (hok : e.Ok) (hw : toManifest [] e.toSbuf = (h, true)) :
    h = encEntry e := by
  unfold Sbuf.toManifest at hw
  rw [writeAll_ok (fun r hr => ((entry_records_ok hok) r hr).2)] at hw
  simp only [List.nil_append, Prod.mk.injEq, and_true] at hw
  rw [← hw]; rfl

theorem cut_tail {e : Entry} {t : Str} (ht : t <+: encEntry e) (hne : t ≠ encEntry e) :
    ∃ j, j < (encEntry e).length ∧ t = (encEntry e).take j := by
  refine ⟨t.length, ?_, List.prefix_iff_eq_take.1 ht⟩
  rcases Nat.lt_or_ge t.length (encEntry e).length with h | h
  · exact h
  · exact absurd (ht.eq_of_length (Nat.le_antisymm ht.length_le h)) hne

theorem torn_read {es : List Entry} {f : Str} (hok : ∀ e ∈ es, e.Ok) (h : Torn es f) :
    (readEntries f).1 = es.map Entry.toSbuf := by
  obtain ⟨e, t, g, h', hg, he, hh, ht, hne, rfl⟩ := h
  have hg' := whole_block hok hg
  rw [entry_bytes he hh] at ht hne
  obtain ⟨j, hj, rfl⟩ := cut_tail ht hne
  obtain ⟨b, hb, _⟩ := readEntries_cutEntry he hj
  rw [hg', hb]
  simp

theorem doResume_work {st : Stat} {maxSub : Int} {d : Dpth.Dpth} {f : Files} {r : Resumed}
    (h : doResume st maxSub d f = some r) :
    (readEntries f.scan).2 = true ∧ ∃ r0, resumeWork st
      ⟨ResumeCntr.readPhase1 keyOf (fun sb => st.size sb.attr) (readEntries f.scan).1, d⟩ f = some r0 ∧
      (Dpth.dpthIncr maxSub r0.side.dpth).2 = true ∧
      r = { r0 with side := { r0.side with dpth := (Dpth.dpthIncr maxSub r0.side.dpth).1 } } := by
  unfold doResume at h
  by_cases hs : (readEntries f.scan).2 = false
  · simp only [if_pos hs] at h; cases h
  · simp only [if_neg hs] at h
    refine ⟨by simpa using hs, ?_⟩
    split at h
    · cases h
    · rename_i r0 hr0
      by_cases hi : (Dpth.dpthIncr maxSub r0.side.dpth).2 = true
      · rw [if_pos hi] at h
        simp only [Option.some.injEq] at h
        exact ⟨r0, hr0, hi, h.symm⟩
      · rw [if_neg hi] at h; cases h

/-! ### One step of a history -/

theorem resume_sub {A A' : Type} (j : Resume.Info A) (key : A' → Cmd × Option Str) (ch un : List A)
    (sc : List A') (pv : Option (List A')) :
    (∀ a ∈ (Resume.resume j key ch un sc pv).changed, a ∈ ch) ∧
    (∀ a ∈ (Resume.resume j key ch un sc pv).unchanged, a ∈ un) ∧
    (Resume.resume j key ch un sc pv).scan <:+ sc ∧
    (∀ l', (Resume.resume j key ch un sc pv).prev = some l' → ∃ l, pv = some l ∧ l' <:+ l) := by
  simp only [Resume.resume]
  cases (Resume.lastGood j ch).1 with
  | some x =>
    refine ⟨fun a ha => List.mem_of_mem_take ha, fun a ha => List.mem_of_mem_take ha,
      forwardPast_suffix _ _ _, ?_⟩
    intro l' hl'
    cases pv with
    | none => cases hl'
    | some l =>
      simp only [Option.map_some, Option.some.injEq] at hl'
      exact ⟨l, rfl, by rw [← hl']; exact forwardPast_suffix _ _ _⟩
  | none =>
    refine ⟨fun a ha => List.mem_of_mem_take ha, fun a ha => by simp at ha, List.suffix_refl _, ?_⟩
    intro l' hl'
    exact ⟨l', hl', List.suffix_refl _⟩

section
variable {E : Type}

/-- The lists that can be read from the files, and what they stand for. -/
structure Holds (w : Phase2.Walk E) (isDir : E → Bool) (st : Stat) (ch un : List (Phase2.Out E))
    (fc fu : Str) : Prop where
  left : ∃ es, AllStandFor w isDir st ch es ∧ (readEntries fc).1 = es.map Entry.toSbuf
  right : ∃ es, AllStandFor w isDir st un es ∧ (readEntries fu).1 = es.map Entry.toSbuf

theorem allStandFor_ok {w : Phase2.Walk E} {isDir : E → Bool} {st : Stat} {os : List (Phase2.Out E)}
    {es : List Entry} (h : AllStandFor w isDir st os es) : ∀ e ∈ es, e.Ok := by
  obtain ⟨ps, _, rfl, h3⟩ := h
  intro e he
  obtain ⟨p, hp, rfl⟩ := List.mem_map.1 he
  exact (h3 p hp).1

theorem allStandFor_append {w : Phase2.Walk E} {isDir : E → Bool} {st : Stat} {os os' : List (Phase2.Out E)}
    {es es' : List Entry} (h : AllStandFor w isDir st os es) (h' : AllStandFor w isDir st os' es') :
    AllStandFor w isDir st (os ++ os') (es ++ es') := by
  obtain ⟨ps, rfl, rfl, h3⟩ := h
  obtain ⟨qs, rfl, rfl, k3⟩ := h'
  refine ⟨ps ++ qs, by simp, by simp, ?_⟩
  intro p hp
  rcases List.mem_append.1 hp with hp | hp
  · exact h3 p hp
  · exact k3 p hp

theorem lists_read {w : Phase2.Walk E} {l : List E} {f : Str} (h : Lists w l f) :
    ∃ ps : List (E × Entry), l = ps.map (·.1) ∧ readEntries f = (ps.map (fun p => p.2.toSbuf), true) ∧
      ∀ p ∈ ps, p.2.Ok ∧ w.key p.1 = keyOf p.2.toSbuf := by
  obtain ⟨ps, h1, h2, h3⟩ := h
  exact ⟨ps, h1, h2, fun p hp => ⟨(h3 p hp).1, by rw [keyOf_entry (h3 p hp).1]; exact (h3 p hp).2⟩⟩

theorem lists_make {w : Phase2.Walk E} {f : Str} (ps : List (E × Entry))
    (h : readEntries f = (ps.map (fun p => p.2.toSbuf), true))
    (hk : ∀ p ∈ ps, p.2.Ok ∧ w.key p.1 = keyOf p.2.toSbuf) : Lists w (ps.map (·.1)) f :=
  ⟨ps, rfl, h, fun p hp => ⟨(hk p hp).1, by rw [← keyOf_entry (hk p hp).1]; exact (hk p hp).2⟩⟩

/-- What resuming leaves in the files, and where it goes on. -/
theorem resumed_holds {w : Phase2.Walk E} {isDir : E → Bool} {st : Stat} {ch un : List (Phase2.Out E)}
    {scan : List E} {prev : Option (List E)} {f : Files} (hs : Lists w scan f.scan)
    (hp : ListsPrev w prev f.prev) (hf : Holds w isDir st ch un f.changed f.unchanged) {s : Side} {r : Resumed}
    (hm : Meaning st s f r) :
    (∃ es, AllStandFor w isDir st (Resume.resume (Resume.outInfo w isDir) w.key ch un scan prev).changed es ∧
      Block r.changed (es.map Entry.toSbuf)) ∧
    (∃ es, AllStandFor w isDir st (Resume.resume (Resume.outInfo w isDir) w.key ch un scan prev).unchanged es ∧
      Block r.unchanged (es.map Entry.toSbuf)) ∧
    Lists w (Resume.resume (Resume.outInfo w isDir) w.key ch un scan prev).scan (r.scanLeft f) ∧
    ListsPrev w (Resume.resume (Resume.outInfo w isDir) w.key ch un scan prev).prev (r.prevLeft f) := by
  obtain ⟨⟨es, ⟨ps, rfl, rfl, hps⟩, he⟩, ⟨us, ⟨qs, rfl, rfl, hqs⟩, hu⟩⟩ := hf
  obtain ⟨sc, rfl, hsc, hsk⟩ := lists_read hs
  obtain ⟨pv, hpv1, hpv2, hpk⟩ : ∃ pv : Option (List (E × Entry)), prev = pv.map (fun l => l.map (·.1)) ∧
      f.prev.map (fun p => readEntries p) = pv.map (fun l => (l.map (fun p => p.2.toSbuf), true)) ∧
      ∀ l, pv = some l → ∀ p ∈ l, p.2.Ok ∧ w.key p.1 = keyOf p.2.toSbuf := by
    cases prev with
    | none =>
      cases hfp : f.prev with
      | none => exact ⟨none, rfl, rfl, by simp⟩
      | some x => rw [hfp] at hp; exact hp.elim
    | some l =>
      cases hfp : f.prev with
      | none => rw [hfp] at hp; exact hp.elim
      | some x =>
        rw [hfp] at hp
        obtain ⟨pv, e1, e2, e3⟩ := lists_read hp
        exact ⟨some pv, by rw [e1]; rfl, by simp [e2], by intro l' hl'; cases hl'; exact e3⟩
  have h1 := resume_map
    (⟨fun q : Phase2.Out E × Entry => keyOf q.2.toSbuf, fun q => q.2.toSbuf.endfile.isSome,
      fun q => st.isDir q.2.toSbuf.attr⟩) (infoOf st) (fun q => q.2.toSbuf) (fun q : E × Entry => q.2.toSbuf)
    (fun q : E × Entry => keyOf q.2.toSbuf) keyOf ps qs sc pv (fun a _ => ⟨rfl, rfl, rfl⟩)
    (fun a _ => ⟨rfl, rfl, rfl⟩) (fun a _ => rfl) (fun l _ a _ => rfl)
  have h2 := resume_map
    (⟨fun q : Phase2.Out E × Entry => keyOf q.2.toSbuf, fun q => q.2.toSbuf.endfile.isSome,
      fun q => st.isDir q.2.toSbuf.attr⟩) (Resume.outInfo w isDir) (·.1) (·.1)
    (fun q : E × Entry => keyOf q.2.toSbuf) w.key ps qs sc pv (fun a ha => alike_fst (hps a ha))
    (fun a ha => alike_fst (hqs a ha)) (fun a ha => (hsk a ha).2.symm)
    (fun l hl a ha => (hpk l hl a ha).2.symm)
  have h0 := resume_sub
    (⟨fun q : Phase2.Out E × Entry => keyOf q.2.toSbuf, fun q => q.2.toSbuf.endfile.isSome,
      fun q => st.isDir q.2.toSbuf.attr⟩) (fun q : E × Entry => keyOf q.2.toSbuf) ps qs sc pv
  generalize Resume.resume
    (⟨fun q : Phase2.Out E × Entry => keyOf q.2.toSbuf, fun q => q.2.toSbuf.endfile.isSome,
      fun q => st.isDir q.2.toSbuf.attr⟩) (fun q : E × Entry => keyOf q.2.toSbuf) ps qs sc pv = P at h0 h1 h2
  rw [List.map_map] at he hu
  have e1 : (ps.map (fun q => q.2.toSbuf)) = (readEntries f.changed).1 := he.symm
  have e2 : (qs.map (fun q => q.2.toSbuf)) = (readEntries f.unchanged).1 := hu.symm
  have e4 : f.prev.map (fun p => (readEntries p).1) = pv.map (fun l => l.map (fun p => p.2.toSbuf)) := by
    have := congrArg (Option.map Prod.fst) hpv2
    simpa [Option.map_map, Function.comp_def] using this
  have e5 : f.prev.map (fun p => (readEntries p).2) = pv.map (fun _ => true) := by
    have := congrArg (Option.map Prod.snd) hpv2
    simpa [Option.map_map, Function.comp_def] using this
  rw [e1, e2, ← e4] at h1
  have e3 : (sc.map (fun q => q.2.toSbuf)) = (readEntries f.scan).1 := by rw [hsc]
  rw [e3] at h1
  rw [hpv1, h2]
  obtain ⟨m1, m2, _, m4, m5, m6, _, _⟩ := hm
  rw [h1] at m1 m2 m4 m5
  refine ⟨⟨P.changed.map (·.2), ⟨P.changed, rfl, rfl, fun p hp => hps p (h0.1 p hp)⟩, ?_⟩,
    ⟨P.unchanged.map (·.2), ⟨P.unchanged, rfl, rfl, fun p hp => hqs p (h0.2.1 p hp)⟩, ?_⟩, ?_, ?_⟩
  · rw [List.map_map]; exact m1
  · rw [List.map_map]; exact m2
  · apply lists_make
    · rw [m4, hsc]
    · exact fun p hp => hsk p (h0.2.2.1.subset hp)
  · cases hq : r.prevLeft f with
    | none =>
      rw [hq] at m5
      cases hz : P.prev with
      | none => trivial
      | some l => rw [hz] at m5; cases m5
    | some x =>
      rw [hq] at m5 m6
      cases hz : P.prev with
      | none => rw [hz] at m5; cases m5
      | some l =>
        rw [hz] at m5
        simp only [Option.map_some, Option.some.injEq] at m5
        obtain ⟨l0, q1, q2⟩ := h0.2.2.2 l hz
        rw [e5, q1] at m6
        simp only [Option.map_some, Option.some.injEq] at m6
        exact lists_make l (Prod.ext m5 m6) (fun p hp => hpk l0 q1 p (q2.subset hp))

theorem lists_same {w : Phase2.Walk E} {a b l : List E} {f : Str} (h : Lists w a f) (h' : Lists w b f)
    (ha : a <:+ l) (hb : b <:+ l) : a = b := by
  obtain ⟨ps, rfl, h2, _⟩ := h
  obtain ⟨qs, rfl, k2, _⟩ := h'
  rw [h2] at k2
  have := congrArg (fun x => x.1.length) k2
  simp only [List.length_map] at this
  rw [List.suffix_iff_eq_drop.1 ha, List.suffix_iff_eq_drop.1 hb]
  simp [this]

theorem meaning_of_doResume {st : Stat} {maxSub : Int} {d : Dpth.Dpth} {f : Files} {r : Resumed}
    (h : doResume st maxSub d f = some r) : ∃ s r0, Meaning st s f r0 ∧
      s.cntr = ResumeCntr.readPhase1 keyOf (fun sb => st.size sb.attr) (readEntries f.scan).1 ∧ s.dpth = d ∧
      (Dpth.dpthIncr maxSub r0.side.dpth).2 = true ∧
      r = { r0 with side := { r0.side with dpth := (Dpth.dpthIncr maxSub r0.side.dpth).1 } } := by
  obtain ⟨_, r0, h1, h2, h3⟩ := doResume_work h
  exact ⟨_, r0, resumeWork_meaning h1, rfl, rfl, h2, h3⟩

/-- Every history of files is one of lists. -/
theorem stopped_holds {w : Phase2.Walk E} {isDir sent : E → Bool} {st : Stat} {maxSub : Int} {scan : List E}
    {prev : Option (List E)} {scanF : Str} {prevF : Option Str} (hs : Lists w scan scanF)
    (hp : ListsPrev w prev prevF) {fc fu : Str}
    (h : Stopped w isDir sent st maxSub scan prev scanF prevF fc fu) :
    ∃ ch un, Interrupted w isDir sent scan prev ch un ∧ Holds w isDir st ch un fc fu := by
  induction h with
  | first h hc hu tc tu =>
    exact ⟨_, _, Interrupted.first h, ⟨⟨_, hc, torn_read (allStandFor_ok hc) tc⟩,
      ⟨_, hu, torn_read (allStandFor_ok hu) tu⟩⟩⟩
  | @again n ch un es us fc fu xc xu scan' prev' cd cn d r before hr hss hsf hpp hpf h hc hu tc tu ih =>
    obtain ⟨ch0, un0, hi, hh⟩ := ih
    obtain ⟨s, r0, hm, _, _, _, e⟩ := meaning_of_doResume hr
    have hc' : r.changed = r0.changed := by rw [e]
    have hu' : r.unchanged = r0.unchanged := by rw [e]
    have hsl : r.scanLeft ⟨fc, fu, cd, cn, scanF, prevF⟩ = r0.scanLeft ⟨fc, fu, cd, cn, scanF, prevF⟩ := by rw [e]; rfl
    have hpl : r.prevLeft ⟨fc, fu, cd, cn, scanF, prevF⟩ = r0.prevLeft ⟨fc, fu, cd, cn, scanF, prevF⟩ := by rw [e]; rfl
    obtain ⟨⟨ks, k1, k2⟩, ⟨ls, l1, l2⟩, m1, m2⟩ := resumed_holds (f := ⟨fc, fu, cd, cn, scanF, prevF⟩) hs hp hh hm
    have hsub := resume_sub (Resume.outInfo w isDir) w.key ch0 un0 scan prev
    rw [hsl] at hsf
    rw [hpl] at hpf
    have es1 : scan' = (Resume.resume (Resume.outInfo w isDir) w.key ch0 un0 scan prev).scan :=
      lists_same hsf m1 hss hsub.2.2.1
    have es2 : prev' = (Resume.resume (Resume.outInfo w isDir) w.key ch0 un0 scan prev).prev := by
      cases hz : (Resume.resume (Resume.outInfo w isDir) w.key ch0 un0 scan prev).prev with
      | none =>
        rw [hz] at m2
        cases prev' with
        | none => rfl
        | some l =>
          cases hq : r0.prevLeft ⟨fc, fu, cd, cn, scanF, prevF⟩ with
          | none => rw [hq] at hpf; exact hpf.elim
          | some x => rw [hq] at m2; exact m2.elim
      | some l'' =>
        rw [hz] at m2
        cases hq : r0.prevLeft ⟨fc, fu, cd, cn, scanF, prevF⟩ with
        | none => rw [hq] at m2; exact m2.elim
        | some x =>
          rw [hq] at m2 hpf
          cases prev' with
          | none => exact hpf.elim
          | some l' =>
            obtain ⟨l, a1, a2⟩ := hpp l' rfl
            obtain ⟨l2, b1, b2⟩ := hsub.2.2.2 l'' hz
            rw [a1] at b1
            simp only [Option.some.injEq] at b1
            subst b1
            congr 1
            exact lists_same hpf m2 a2 b2
    rw [es1, es2] at h
    refine ⟨_, _, Interrupted.again hi h, ⟨⟨ks ++ es, allStandFor_append k1 hc, ?_⟩,
      ⟨ls ++ us, allStandFor_append l1 hu, ?_⟩⟩⟩
    · rw [hc', k2, torn_read (allStandFor_ok hc) tc]; simp
    · rw [hu', l2, torn_read (allStandFor_ok hu) tu]; simp

end

/-! ### Rows that were written -/

/-- The bytes of a row. -/
def rowEnc (x : Byte × Rec) : Str := x.1 :: enc x.2

theorem writeRow_ok (f : Str) (x : Byte × Rec) (h : x.2.Ok) : writeRow f x.1 x.2 = (f ++ rowEnc x, true) := by
  unfold writeRow
  rw [sendMsgFzp_ok _ h.2]
  simp [rowEnc]

theorem writeRows_ok {rs : List (Byte × Rec)} (h : ∀ x ∈ rs, x.2.Ok) : ∀ f,
    writeRows f rs = (f ++ (rs.map rowEnc).flatten, true) := by
  induction rs with
  | nil => intro f; simp [writeRows]
  | cons x xs ih =>
    intro f
    simp only [writeRows, writeRow_ok f x (h x (by simp)), if_true]
    rw [ih (fun y hy => h y (by simp [hy]))]
    simp

theorem readRow_enc (x : Byte × Rec) (h : x.2.Ok) (rest : Str) :
    readRow (rowEnc x ++ rest) = some (x.1, x.2, rest) := by
  simp [readRow, rowEnc, fill_enc h]

theorem rowBlock_rows {rs : List (Byte × Rec)} (h : ∀ x ∈ rs, x.2.Ok) : RowBlock (rs.map rowEnc).flatten rs := by
  induction rs with
  | nil => exact rowBlock_nil
  | cons x xs ih =>
    intro y
    simp only [List.map_cons, List.flatten_cons, List.append_assoc]
    rw [rowsIn_some (readRow_enc x (h x (by simp)) _), ih (fun z hz => h z (by simp [hz]))]
    rfl

theorem rawRow_ok {r : ResumeCntr.Row} (h : RowOk r) : (rawRow r).2.Ok := by
  obtain ⟨p, h1, _, h3⟩ := h
  refine ⟨toByte_ne_zero _, ?_⟩
  simp only [rawRow, h1, Option.getD_some]
  exact h3

theorem rowKey_raw {r : ResumeCntr.Row} (h : RowOk r) : rowKey (rawRow r).2 = r.key := by
  obtain ⟨p, h1, h2, _⟩ := h
  simp only [rowKey, rawRow, ofByte_toByte, h1, Option.getD_some, cstr_noNul h2]
  rw [← h1]

theorem addLetter_raw (c : Cntr.Cntr) (r : ResumeCntr.Row) :
    addLetter c (rawRow r).1 (rawRow r).2.cmd = ResumeCntr.addTo c r := by
  obtain ⟨x, k⟩ := r
  cases x <;> rfl

theorem cut_row {x : Byte × Rec} {t : Str} (h : x.2.Ok) (ht : t <+: rowEnc x) (hne : t ≠ rowEnc x) :
    rowsIn t = [] := by
  apply rowsIn_none
  cases t with
  | nil => rfl
  | cons b t =>
    unfold rowEnc at ht hne
    rw [List.cons_prefix_cons] at ht
    obtain ⟨rfl, ht⟩ := ht
    have hlt : t.length < (enc x.2).length := by
      rcases Nat.lt_or_ge t.length (enc x.2).length with h | h
      · exact h
      · exact absurd (by rw [ht.eq_of_length (Nat.le_antisymm ht.length_le h)]) hne
    have := fill_cut h hlt
    rw [← List.prefix_iff_eq_take.1 ht] at this
    simp only [readRow]
    rw [this]
    split
    · rename_i h'; split at h' <;> cases h'
    · rfl
    · rfl

theorem tornRows_read {rs : List ResumeCntr.Row} {f : Str} (hok : ∀ r ∈ rs, RowOk r) (h : TornRows rs f) :
    rowsIn f = rs.map rawRow := by
  obtain ⟨g, t, h', r, hg, hr, hh, ht, hne, rfl⟩ := h
  have hall : ∀ x ∈ rs.map rawRow, x.2.Ok := by
    intro x hx
    obtain ⟨y, hy, rfl⟩ := List.mem_map.1 hx
    exact rawRow_ok (hok y hy)
  rw [writeRows_ok hall] at hg
  simp only [List.nil_append, Prod.mk.injEq, and_true] at hg
  have := writeRow_ok [] (rawRow r) (rawRow_ok hr)
  rw [this] at hh
  simp only [List.nil_append, Prod.mk.injEq, and_true] at hh
  rw [← hh] at ht hne
  rw [← hg, rowBlock_rows hall, cut_row (rawRow_ok hr) ht hne]
  simp

theorem countRows_raw (target : Cmd × Option Str) : ∀ (rs : List ResumeCntr.Row) (c : Cntr.Cntr),
    (∀ r ∈ rs, RowOk r) → countRows target c (rs.map rawRow) =
      ((ResumeCntr.forwardCounter target c rs).1, (ResumeCntr.forwardCounter target c rs).2.map rawRow) := by
  intro rs
  induction rs with
  | nil => intro c _; rfl
  | cons x xs ih =>
    intro c h
    simp only [List.map_cons, countRows, ResumeCntr.forwardCounter]
    rw [rowKey_raw (h x (by simp)), addLetter_raw, ih _ (fun r hr => h r (by simp [hr]))]
    split
    · rfl
    · split <;> rfl

theorem rowBlock_read {u : Str} {rs : List (Byte × Rec)} (h : RowBlock u rs) : rowsIn u = rs := by
  have := h []
  rw [rowsIn_empty] at this
  simpa using this

/-! ### Storage paths -/

theorem leftIn_enc {r : Rec} (h : r.Ok) (sb : Sbuf) (rest : Str) :
    leftIn sb (enc r ++ rest) =
      match parse sb r with
      | (sb', .needMore) => leftIn sb' rest
      | (sb', _) => sb' := by
  rw [leftIn]
  have := fill_enc h rest
  split
  · rename_i h'; rw [this] at h'; cases h'
  · rename_i h'; rw [this] at h'; cases h'
  · rename_i r' rest' h'
    rw [this] at h'
    simp only [Fill.ok.injEq] at h'
    obtain ⟨rfl, rfl⟩ := h'
    rfl

theorem leftIn_cut {r : Rec} (h : r.Ok) {k : Nat} (hk : k < (enc r).length) (sb : Sbuf) :
    leftIn sb ((enc r).take k) = sb := by
  have := fill_cut h hk
  rw [leftIn]
  split
  · rfl
  · rfl
  · rename_i h'; rw [this] at h'; split at h' <;> cases h'

theorem leftIn_pre (pre : List Rec) (hpre : ∀ r ∈ pre, r.Ok) (sb : Sbuf) (rest : Str)
    (hm : ∀ pre' r post, pre = pre' ++ r :: post →
      (parse (pre'.foldl (fun s x => (parse s x).1) sb) r).2 = .needMore) :
    leftIn sb ((pre.map enc).flatten ++ rest) =
      leftIn (pre.foldl (fun s x => (parse s x).1) sb) rest := by
  induction pre generalizing sb with
  | nil => simp
  | cons r pre ih =>
    simp only [List.map_cons, List.flatten_cons, List.append_assoc]
    rw [leftIn_enc (hpre r (by simp))]
    have h1 := hm [] r pre rfl
    simp only [List.foldl_nil] at h1
    rcases hp : parse sb r with ⟨sb', ret⟩
    rw [hp] at h1
    simp only at h1
    subst h1
    simp only [List.foldl_cons, hp]
    apply ih (fun x hx => hpre x (by simp [hx]))
    intro pre' r' post e
    have := hm (r :: pre') r' post (by rw [e]; rfl)
    simpa [hp] using this

/-- The storage path of an entry. -/
theorem leftIn_torn {e : Entry} {t : Str} (h : e.Ok) (ht : t <+: encEntry e) (hne : t ≠ encEntry e) :
    ((leftIn empty t).datapth = none ∨ (leftIn empty t).datapth = e.toSbuf.datapth) ∧
    ∀ d, e.toSbuf.datapth = some d → (enc ⟨Cmd.datapth.toByte, d⟩).length ≤ t.length →
      (leftIn empty t).datapth = some d := by
  obtain ⟨j, hj, rfl⟩ := cut_tail ht hne
  rcases cut_split enc (rs := toRecords e.toSbuf) j with h1 | ⟨pre, r, post, i, h1, h2, h3, h4⟩
  · exact absurd h1 (by unfold encEntry at hj; omega)
  · have hok := entry_records_ok h
    have hr : r.Ok := hok r (by rw [h1]; simp)
    have hpre : ∀ x ∈ pre, x.Ok := fun x hx => hok x (by rw [h1]; simp [hx])
    have key : leftIn empty ((encEntry e).take j) = pre.foldl (fun s x => (parse s x).1) empty := by
      unfold encEntry
      rw [h3, leftIn_pre pre hpre, leftIn_cut hr h2]
      intro pre' r' post' e'
      rw [e'] at h1
      cases post' with
      | nil => exact entry_needMore h pre' r' r post (by rw [h1]; simp)
      | cons r2 post' => exact entry_needMore h pre' r' r2 (post' ++ r :: post) (by rw [h1]; simp)
    have hlen : ((encEntry e).take j).length = ((pre.map enc).flatten).length + i := by
      rw [List.length_take]; omega
    rw [key, hlen]
    cases e with
    | plain k a p =>
      obtain ⟨hk, ha, hp, hn, hd⟩ := h
      refine ⟨Or.inl ?_, by intro d hd; cases hd⟩
      simp [toRecords, Entry.toSbuf] at h1
      match pre, h1 with
      | [], _ => rfl
      | [_], h1 =>
        simp at h1
        rw [← h1.1]
        simp only [List.foldl_cons, List.foldl_nil]
        rw [parse_attribs_plain empty a rfl]
        rfl
      | _ :: _ :: _, h1 => simp at h1
    | link k a p t =>
      obtain ⟨hk, ha, hp, ht, hn, hd⟩ := h
      have hl : k.isLink = true := by rcases hk with rfl | rfl <;> rfl
      refine ⟨Or.inl ?_, by intro d hd; cases hd⟩
      simp [toRecords, Entry.toSbuf] at h1
      match pre, h1 with
      | [], _ => rfl
      | [_], h1 =>
        simp at h1
        rw [← h1.1]
        simp only [List.foldl_cons, List.foldl_nil]
        rw [parse_attribs_plain empty a rfl]
        rfl
      | [_, _], h1 =>
        simp at h1
        rw [← h1.1, ← h1.2.1]
        simp only [List.foldl_cons, List.foldl_nil]
        rw [parse_attribs_plain empty a rfl, parse_path _ (Or.inr hk)]
        simp [parsePath, no_attack hn hd, hl, empty]
      | _ :: _ :: _ :: _, h1 => simp at h1
    | stored k d a p x =>
      obtain ⟨hk, hd, ha, hp, hx, hpn, hpd, hdn, hdd⟩ := h
      simp [toRecords, Entry.toSbuf] at h1
      match pre, h1 with
      | [], h1 =>
        refine ⟨Or.inl rfl, ?_⟩
        intro d' hd' hlen'
        simp only [Entry.toSbuf, Option.some.injEq] at hd'
        subst hd'
        simp at h1
        rw [← h1.1] at h2
        simp only [List.map_nil, List.flatten_nil, List.length_nil] at hlen'
        exact absurd hlen' (by omega)
      | [_], h1 =>
        simp at h1
        rw [← h1.1]
        simp [parse_datapth empty hdn hdd, Entry.toSbuf]
      | [_, _], h1 =>
        simp at h1
        rw [← h1.1, ← h1.2.1]
        simp [parse_datapth empty hdn hdd, parse_attribs_data _ a d, Entry.toSbuf]
      | [_, _, _], h1 =>
        simp at h1
        rw [← h1.1, ← h1.2.1, ← h1.2.2.1]
        simp only [List.foldl_cons, List.foldl_nil]
        rw [parse_datapth empty hdn hdd, parse_attribs_data _ a d rfl,
          parse_path _ (Or.inl (dataKinds_pathKinds hk))]
        simp [parsePath, no_attack hpn hpd, isLink_pathKinds (dataKinds_pathKinds hk), empty, Entry.toSbuf]
      | _ :: _ :: _ :: _ :: _, h1 => simp at h1

theorem tailOf_entries {es : List Entry} (h : ∀ e ∈ es, e.Ok) (t : Str) :
    tailOf ((es.map encEntry).flatten ++ t) = tailOf t := by
  induction es with
  | nil => simp
  | cons e es ih =>
    simp only [List.map_cons, List.flatten_cons, List.append_assoc]
    rw [tailOf_entry (fillFile_entry (h e (by simp)) _)]
    exact ih (fun x hx => h x (by simp [hx]))

theorem tailOf_torn {e : Entry} {t : Str} (h : e.Ok) (ht : t <+: encEntry e) (hne : t ≠ encEntry e) :
    tailOf t = t := by
  obtain ⟨j, hj, rfl⟩ := cut_tail ht hne
  obtain ⟨b, hb, _⟩ := readEntries_cutEntry h hj
  rcases fill_cases ((encEntry e).take j) with ⟨sb, rest, h'⟩ | ⟨h', _⟩
  · rw [readEntries_cons h'] at hb
    simp at hb
  · exact tailOf_end h'

theorem pathsIn_torn {es : List Entry} {e : Entry} {t f : Str} (hok : ∀ e ∈ es, e.Ok) (h : TornAt es e t f) :
    pathsIn f = es.map (fun e => e.toSbuf.datapth) ++ [(leftIn empty t).datapth] ∧ e.Ok ∧ t <+: encEntry e ∧
      t ≠ encEntry e := by
  have h0 := torn_read hok ⟨e, t, h⟩
  obtain ⟨g, h', hg, he, hh, ht, hne, rfl⟩ := h
  rw [entry_bytes he hh] at ht hne
  refine ⟨?_, he, ht, hne⟩
  unfold pathsIn
  rw [h0, whole_eq hok hg, tailOf_entries hok, tailOf_torn he ht hne, List.map_map]
  rfl

theorem pathsBefore_sub (target : Cmd × Option Str) : ∀ f : Str, ∀ s, some s ∈ pathsBefore target f →
    some s ∈ pathsIn f := by
  intro f
  induction f using WellFounded.induction (measure (fun (f : Str) => f.length)).wf with
  | _ f ih =>
    intro s hs
    rcases fill_cases f with ⟨sb, rest, h⟩ | ⟨h, h1, _⟩
    · rw [pathsBefore_entry h] at hs
      rw [pathsIn_entry h]
      by_cases hc : iobufPathcmp target (keyOf sb) ≤ 0
      · rw [if_pos hc] at hs
        simp only [List.mem_singleton] at hs
        rw [hs]; simp
      · rw [if_neg hc] at hs
        rcases List.mem_cons.1 hs with hs | hs
        · rw [hs]; simp
        · exact List.mem_cons_of_mem _ (ih rest (fillFile_lt h) s hs)
    · rw [pathsBefore_end h] at hs
      unfold pathsIn
      rw [tailOf_end h]
      exact List.mem_append_right _ hs

/-- Resuming fails only for reasons that are seen in the files. -/
theorem resumeWork_works {st : Stat} {s : Side} {f : Files} (hs : (readEntries f.scan).2 = true)
    (hp : ∀ p, f.prev = some p → (readEntries p).2 = true) (hd : s.dpth.Ok)
    (h1 : ∀ x, some x ∈ pathsIn f.changed → Dpth.Recorded x)
    (h2 : ∀ x, some x ∈ pathsIn f.unchanged → Dpth.Recorded x) : ∃ r, resumeWork st s f = some r := by
  obtain ⟨d1, a1, a2, _⟩ := Dpth.setAll_spec hd _ h1
  have hg := lastGoodFrom_spec st f.changed f.changed [] [] false (none, 0) (none, 0) s rfl block_nil
    (behind_start _) rfl
  unfold resumeWork
  cases hl : lastGood st s f.changed with
  | none =>
    unfold lastGood at hl
    rw [hl] at hg
    rw [a1] at hg
    cases hg
  | some g =>
    obtain ⟨⟨a, p⟩, s1⟩ := g
    have hs1 := (lastGood_bytes hl).2.2.2.2
    rw [a1] at hs1
    simp only [Option.some.injEq] at hs1
    cases a with
    | none => exact ⟨_, rfl⟩
    | some target =>
      simp only
      obtain ⟨ps, e1⟩ := forwardPast_works (target := target) hs
      rw [e1]
      simp only
      have hb := forwardBeforeFrom_spec st target f.unchanged f.unchanged [] [] 0 0 s1 rfl block_nil
        (behind_start _)
      obtain ⟨d2, b1, b2, _⟩ := Dpth.setAll_spec (d := s1.dpth) (by rw [← hs1]; exact a2)
        (pathsBefore target f.unchanged) (fun x hx => h2 x (pathsBefore_sub target _ x hx))
      cases hu : forwardBefore st target s1 f.unchanged with
      | none =>
        unfold forwardBefore at hu
        rw [hu] at hb
        rw [b1] at hb
        cases hb
      | some q =>
        cases hpv : f.prev with
        | none => exact ⟨_, rfl⟩
        | some pv =>
          obtain ⟨pp, e2⟩ := forwardPast_works (target := target) (hp pv hpv)
          simp only [e2, Option.map_some]
          exact ⟨_, rfl⟩

end Verif.ResumeFiles
