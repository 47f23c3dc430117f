import Verif.Spec.BackupList
import Verif.Lemmas.BackupNumber

/-!
# Lemmas about reading the list of backups
-/

namespace Verif.BackupList
open Verif.BackupNumber Verif.Retention

/-- What one entry adds to the list. -/
def entry (cut : Str → Bool) (ww : Bool) (c : Client) (e : Ent) : Option Bak :=
  if startsDigit e.name = false then none
  else if e.name = getLink bufSize c.current then maybeAdd cut c.path e true false false
  else if e.name = getLink bufSize c.working then
    if ww then maybeAdd cut c.path e false true false else none
  else if e.name = getLink bufSize c.finishing then
    if ww then maybeAdd cut c.path e false false true else none
  else maybeAdd cut c.path e false false false

theorem step_entry (cut : Str → Bool) (ww : Bool) (c : Client) (e : Ent) (acc : List Bak) :
    step cut ww c e acc = (entry cut ww c e).toList ++ acc := by
  have key : ∀ b : Option Bak, (match b with | none => acc | some b => b :: acc) = b.toList ++ acc := by
    intro b; cases b <;> rfl
  unfold step entry
  simp only
  split
  · rfl
  · split
    · exact key _
    · split
      · split
        · exact key _
        · rfl
      · split
        · split
          · exact key _
          · rfl
        · exact key _

theorem foldr_entry (cut : Str → Bool) (ww : Bool) (c : Client) (l : List Ent) :
    l.foldr (step cut ww c) [] = l.filterMap (entry cut ww c) := by
  induction l with
  | nil => rfl
  | cons e l ih =>
    rw [List.foldr_cons, ih, step_entry, List.filterMap_cons]
    cases entry cut ww c e <;> rfl

theorem getList_eq (cut : Str → Bool) (ww : Bool) (c : Client) :
    getList cut ww c = (c.ents.mergeSort (fun a b => strLe a.name b.name)).filterMap (entry cut ww c) :=
  foldr_entry _ _ _ _

theorem maybeAdd_some {cut : Str → Bool} {path : Str} {e : Ent} {x y z : Bool} {b : Bak} :
    maybeAdd cut path e x y z = some b ↔
      e.isDir = true ∧ ∃ content ts, e.timestamp = some content ∧ timestampRead content = some ts ∧
        ts.take 8 = e.name.take 8 ∧
        b = ⟨e.name, ts, strtoul ts, decide (bytes "hardlinked" ∈ e.files), x, y, z,
          haveFileW cut (path ++ [slash] ++ e.name) e.files (bytes "manifest")⟩ := by
  unfold maybeAdd
  cases hd : e.isDir with
  | false => simp
  | true =>
    simp only [Bool.not_true, Bool.false_eq_true, if_false, true_and]
    cases ht : e.timestamp with
    | none => simp
    | some content =>
      simp only [Option.bind_some]
      cases hr : timestampRead content with
      | none => simp [hr]
      | some ts =>
        simp only
        by_cases h8 : ts.take 8 = e.name.take 8
        · rw [if_neg (by simpa using h8)]
          constructor
          · intro h
            exact ⟨content, ts, rfl, hr, h8, (Option.some.inj h).symm⟩
          · rintro ⟨c', ts', h1, h2, _, h4⟩
            cases h1
            rw [hr] at h2
            cases h2
            rw [h4]
        · rw [if_pos h8]
          constructor
          · intro h; cases h
          · rintro ⟨c', ts', h1, h2, h3, _⟩
            cases h1
            rw [hr] at h2
            cases h2
            exact absurd h3 h8

theorem takeWhile_line {line rest : Str} (hl : newline ∉ line) (hr : rest = [] ∨ rest.head? = some newline) :
    (line ++ rest).takeWhile (· ≠ newline) = line := by
  induction line with
  | nil =>
    cases rest with
    | nil => rfl
    | cons c cs =>
      simp only [List.head?_cons, Option.some.injEq, reduceCtorEq, false_or] at hr
      rw [hr]
      rfl
  | cons c cs ih =>
    simp only [List.mem_cons, not_or] at hl
    rw [List.cons_append, List.takeWhile_cons_of_pos (by simpa using fun e => hl.1 e.symm), ih hl.2]

theorem takeWhile_take (n : Nat) (s : Str) :
    (s.take n).takeWhile (· ≠ newline) = (s.takeWhile (· ≠ newline)).take n := by
  induction s generalizing n with
  | nil => simp
  | cons c cs ih =>
    cases n with
    | zero => simp
    | succ n =>
      rw [List.take_succ_cons]
      by_cases hc : c = newline
      · rw [List.takeWhile_cons_of_neg (by simpa using hc), List.takeWhile_cons_of_neg (by simpa using hc)]
        simp
      · rw [List.takeWhile_cons_of_pos (by simpa using hc), List.takeWhile_cons_of_pos (by simpa using hc), ih]
        simp

theorem firstLine_iff {content line : Str} :
    FirstLine content line ↔ content ≠ [] ∧ line = content.takeWhile (· ≠ newline) := by
  constructor
  · rintro ⟨h1, h2, rest, rfl, h4⟩
    exact ⟨h1, (takeWhile_line h2 h4).symm⟩
  · rintro ⟨h1, rfl⟩
    refine ⟨h1, ?_, content.dropWhile (· ≠ newline), (List.takeWhile_append_dropWhile).symm, ?_⟩
    · clear h1
      induction content with
      | nil => simp
      | cons c cs ih =>
        by_cases hc : c = newline
        · rw [List.takeWhile_cons_of_neg (by simpa using hc)]; simp
        · rw [List.takeWhile_cons_of_pos (by simpa using hc)]
          simp only [List.mem_cons, not_or]
          exact ⟨fun e => hc e.symm, ih⟩
    · clear h1
      induction content with
      | nil => simp
      | cons c cs ih =>
        by_cases hc : c = newline
        · rw [List.dropWhile_cons_of_neg (by simpa using hc)]; simp [hc]
        · rw [List.dropWhile_cons_of_pos (by simpa using hc)]; exact ih

theorem timestampRead_some {content ts : Str} :
    timestampRead content = some ts ↔ ∃ line, FirstLine content line ∧ ts = line.take 37 := by
  unfold timestampRead
  by_cases hc : content = []
  · rw [if_pos hc]
    simp only [reduceCtorEq, false_iff, not_exists, not_and]
    intro l h
    exact absurd hc h.1
  · rw [if_neg hc, takeWhile_take]
    simp only [Option.some.injEq, firstLine_iff]
    constructor
    · intro h
      exact ⟨_, ⟨hc, rfl⟩, h.symm⟩
    · rintro ⟨line, ⟨_, rfl⟩, rfl⟩
      rfl

theorem getLink_short {t : Option Str} (h : ∀ s, t = some s → s.length ≤ 37) {name : Str} (hn : name ≠ []) :
    name = getLink bufSize t ↔ t = some name := by
  cases t with
  | none => simp [getLink, hn]
  | some s =>
    have hl := h s rfl
    show name = s.take (bufSize - 1) ↔ _
    rw [List.take_of_length_le (by show s.length ≤ 37; exact hl)]
    simp only [Option.some.injEq]
    exact eq_comm

theorem starts_ne {n : Str} (h : startsDigit n = true) : n ≠ [] := by
  intro e; rw [e] at h; cases h

theorem haveFileW_iff {cut : Str → Bool} {path : Str} {files : List Str}
    (h : (path ++ [slash] ++ bytes "manifest.gz").length < 256) :
    haveFileW cut path files (bytes "manifest") = true ↔
      bytes "manifest" ∈ files ∨ bytes "manifest.gz" ∈ files := by
  have e1 : bytes "manifest" ++ bytes ".gz" = bytes "manifest.gz" := by decide
  have l1 : (bytes "manifest").length = 8 := by decide
  have l2 : (bytes "manifest.gz").length = 11 := by decide
  unfold haveFileW haveFile
  simp only
  rw [e1, if_pos h, if_pos (by simp only [List.length_append, l1, l2] at h ⊢; omega)]
  simp

/-- What is added for an entry when links are not cut off. -/
theorem entry_some {cut : Str → Bool} {ww : Bool} {c : Client} {e : Ent} {b : Bak} (hs : ShortLinks c) :
    (entry cut ww c e = some b → IsBak e ∧ (IsCurrent c e ∨ ww = true ∨ ¬ InProgress c e) ∧ Describes c e b) ∧
    (IsBak e ∧ (IsCurrent c e ∨ ww = true ∨ ¬ InProgress c e) → ∃ b, entry cut ww c e = some b) := by
  have hw : ∀ s, c.working = some s → s.length ≤ 37 := hs c.working (by simp)
  have hf : ∀ s, c.finishing = some s → s.length ≤ 37 := hs c.finishing (by simp)
  have hc : ∀ s, c.current = some s → s.length ≤ 37 := hs c.current (by simp)
  have desc : ∀ x y z, maybeAdd cut c.path e x y z = some b → startsDigit e.name = true →
      (x = true ↔ IsCurrent c e) → (y = true ↔ c.working = some e.name ∧ ¬ IsCurrent c e) →
      (z = true ↔ c.finishing = some e.name ∧ c.working ≠ some e.name ∧ ¬ IsCurrent c e) →
      IsBak e ∧ Describes c e b := by
    intro x y z hm hd hx hy hz
    obtain ⟨h1, content, ts, h2, h3, h4, rfl⟩ := maybeAdd_some.1 hm
    obtain ⟨line, hl, rfl⟩ := timestampRead_some.1 h3
    rw [List.take_take] at h4
    refine ⟨⟨hd, h1, content, line, h2, hl, by simpa using h4⟩, rfl, ?_, rfl, by simp, hx, hy, hz, ?_⟩
    · intro content' line' h5 h6
      rw [h2] at h5
      cases h5
      rw [(firstLine_iff.1 hl).2, (firstLine_iff.1 h6).2]
    · intro hlen
      exact haveFileW_iff hlen
  have made : IsBak e → ∀ x y z, ∃ b, maybeAdd cut c.path e x y z = some b := by
    rintro ⟨_, h1, content, line, h2, h3, h4⟩ x y z
    refine ⟨_, maybeAdd_some.2 ⟨h1, content, line.take 37, h2, timestampRead_some.2 ⟨line, h3, rfl⟩, ?_, rfl⟩⟩
    rw [List.take_take]
    simpa using h4
  constructor
  · intro h
    unfold entry at h
    split at h
    · cases h
    · next hd =>
      have hd' : startsDigit e.name = true := by simpa using hd
      have hn := starts_ne hd'
      simp only [getLink_short hc hn, getLink_short hw hn, getLink_short hf hn] at h
      split at h
      · next h1 =>
        have := desc _ _ _ h hd' (by simp [IsCurrent, h1]) (by simp [IsCurrent, h1]) (by simp [IsCurrent, h1])
        exact ⟨this.1, Or.inl h1, this.2⟩
      · next h1 =>
        split at h
        · next h2 =>
          split at h
          · next hww =>
            have := desc _ _ _ h hd' (by simp [IsCurrent, h1]) (by simp [IsCurrent, h1, h2]) (by simp [h2])
            exact ⟨this.1, Or.inr (Or.inl hww), this.2⟩
          · cases h
        · next h2 =>
          split at h
          · next h3 =>
            split at h
            · next hww =>
              have := desc _ _ _ h hd' (by simp [IsCurrent, h1]) (by simp [h2]) (by simp [IsCurrent, h1, h2, h3])
              exact ⟨this.1, Or.inr (Or.inl hww), this.2⟩
            · cases h
          · next h3 =>
            have := desc _ _ _ h hd' (by simp [IsCurrent, h1]) (by simp [h2]) (by simp [h3])
            exact ⟨this.1, Or.inr (Or.inr (by simp [InProgress, h2, h3])), this.2⟩
  · rintro ⟨hb, hsh⟩
    have hn := starts_ne hb.1
    unfold entry
    simp only [hb.1, getLink_short hc hn, getLink_short hw hn, getLink_short hf hn, Bool.true_eq_false, if_false]
    split
    · exact made hb _ _ _
    · next h1 =>
      have hsh' : ww = true ∨ ¬ InProgress c e := hsh.resolve_left h1
      split
      · next h2 =>
        rw [if_pos (hsh'.resolve_right (fun h => h (Or.inl h2)))]
        exact made hb _ _ _
      · next h2 =>
        split
        · next h3 =>
          rw [if_pos (hsh'.resolve_right (fun h => h (Or.inr h3)))]
          exact made hb _ _ _
        · exact made hb _ _ _

/-! ## Order -/

theorem strLe_antisymm (a b : Str) (h1 : strLe a b = true) (h2 : strLe b a = true) : a = b := by
  induction a generalizing b with
  | nil =>
    cases b with
    | nil => rfl
    | cons y ys => simp [strLe] at h2
  | cons x xs ih =>
    cases b with
    | nil => simp [strLe] at h1
    | cons y ys =>
      simp only [strLe] at h1 h2
      by_cases h : x = y
      · subst h
        rw [if_pos rfl] at h1 h2
        rw [ih ys h1 h2]
      · rw [if_neg h] at h1
        rw [if_neg (fun e => h e.symm)] at h2
        simp only [decide_eq_true_eq] at h1 h2
        omega

theorem entry_name {cut : Str → Bool} {ww : Bool} {c : Client} {e : Ent} {b : Bak}
    (h : entry cut ww c e = some b) : b.basename = e.name := by
  have key : ∀ x y z, maybeAdd cut c.path e x y z = some b → b.basename = e.name := by
    intro x y z h
    obtain ⟨_, _, _, _, _, _, rfl⟩ := maybeAdd_some.1 h
    rfl
  unfold entry at h
  split at h
  · cases h
  · split at h
    · exact key _ _ _ h
    · split at h
      · split at h
        · exact key _ _ _ h
        · cases h
      · split at h
        · split at h
          · exact key _ _ _ h
          · cases h
        · exact key _ _ _ h

theorem sorted_ents (l : List Ent) :
    (l.mergeSort (fun a b => strLe a.name b.name)).Pairwise (fun a b => strLe a.name b.name = true) :=
  List.pairwise_mergeSort (le := fun a b : Ent => strLe a.name b.name)
    (fun _ _ _ h1 h2 => strLe_trans _ _ _ h1 h2) (fun _ _ => strLe_total _ _) l

theorem dirEnt_name {e : Ent} {d : DirEnt} (h : dirEnt e = some d) : d.name = e.name := by
  unfold dirEnt at h
  split at h
  · cases ht : e.timestamp.bind timestampRead with
    | none => rw [ht] at h; cases h
    | some ts => rw [ht] at h; cases h; rfl
  · cases h

/-- The list for the numbering of backups, one entry at a time. -/
theorem entry_dirEnt {cut : Str → Bool} {c : Client} {e : Ent}
    (hc : e.name = getLink bufSize c.current → e.name ≠ getLink bufSize c.working ∧
      e.name ≠ getLink bufSize c.finishing) :
    (entry cut false c e).map (fun b => ((⟨b.basename, b.timestamp, b.hardlinked⟩ : DirEnt),
        (⟨b.bno, b.hardlinked⟩ : Bu))) =
      (dirEnt e).bind (fun d => if listed ⟨getLink bufSize c.working, getLink bufSize c.finishing⟩ d
        then some (d, ⟨strtoul d.ts, d.hard⟩) else none) := by
  have key : ∀ x y z, (maybeAdd cut c.path e x y z).map
        (fun b => ((⟨b.basename, b.timestamp, b.hardlinked⟩ : DirEnt), (⟨b.bno, b.hardlinked⟩ : Bu))) =
      (dirEnt e).bind (fun d => if d.ts.take 8 == d.name.take 8
        then some (d, ⟨strtoul d.ts, d.hard⟩) else none) := by
    intro x y z
    unfold maybeAdd dirEnt
    cases e.isDir with
    | false => rfl
    | true =>
      simp only [Bool.not_true, Bool.false_eq_true, if_false, if_true]
      cases e.timestamp.bind timestampRead with
      | none => rfl
      | some ts =>
        simp only [Option.map_some, Option.bind_some]
        by_cases h8 : ts.take 8 = e.name.take 8
        · simp [h8]
        · simp [h8]
  have names : ∀ (p : DirEnt → Bool) (q : DirEnt → Bool), (∀ d, d.name = e.name → p d = q d) →
      (dirEnt e).bind (fun d => if p d then some (d, (⟨strtoul d.ts, d.hard⟩ : Bu)) else none) =
      (dirEnt e).bind (fun d => if q d then some (d, (⟨strtoul d.ts, d.hard⟩ : Bu)) else none) := by
    intro p q h
    cases hd : dirEnt e with
    | none => rfl
    | some d => simp only [Option.bind_some, h d (dirEnt_name hd)]
  have no : ∀ (p : DirEnt → Bool), (∀ d, d.name = e.name → p d = false) →
      (dirEnt e).bind (fun d => if p d then some (d, (⟨strtoul d.ts, d.hard⟩ : Bu)) else none) = none := by
    intro p h
    cases hd : dirEnt e with
    | none => rfl
    | some d => simp [h d (dirEnt_name hd)]
  unfold entry
  by_cases h0 : startsDigit e.name = false
  · rw [if_pos h0]
    exact (no _ (fun d hd => by unfold listed; rw [hd, h0]; simp)).symm
  · rw [if_neg h0]
    have h0' : startsDigit e.name = true := by simpa using h0
    by_cases h1 : e.name = getLink bufSize c.current
    · rw [if_pos h1, key]
      obtain ⟨n1, n2⟩ := hc h1
      exact names _ _ (fun d hd => by
        unfold listed; rw [hd, h0', beq_eq_false_iff_ne.2 n1, beq_eq_false_iff_ne.2 n2]; simp)
    · rw [if_neg h1]
      by_cases h2 : e.name = getLink bufSize c.working
      · rw [if_pos h2]
        exact (no _ (fun d hd => by unfold listed; rw [hd, ← h2]; simp)).symm
      · rw [if_neg h2]
        by_cases h3 : e.name = getLink bufSize c.finishing
        · rw [if_pos h3]
          exact (no _ (fun d hd => by unfold listed; rw [hd, ← h3]; simp)).symm
        · rw [if_neg h3, key]
          exact names _ _ (fun d hd => by
            unfold listed; rw [hd, h0', beq_eq_false_iff_ne.2 h2, beq_eq_false_iff_ne.2 h3]; simp)

/-- The list for entries that are put into order by hand. -/
theorem getList_perm (cut : Str → Bool) (ww : Bool) (c : Client) (l : List Ent) (hp : l.Perm c.ents)
    (hl : l.Pairwise (fun a b => strLe a.name b.name = true ∧ a.name ≠ b.name)) :
    getList cut ww c = l.filterMap (entry cut ww c) := by
  rw [getList_eq]
  congr 1
  have hq := (List.mergeSort_perm c.ents (fun a b => strLe a.name b.name)).trans hp.symm
  refine List.Perm.eq_of_pairwise (le := fun a b : Ent => strLe a.name b.name = true) ?_ (sorted_ents _)
    (hl.imp (fun h => h.1)) hq
  intro a b ha hb h1 h2
  have hname := strLe_antisymm _ _ h1 h2
  have ha := hq.subset ha
  clear hq hp h1 h2
  induction l with
  | nil => cases ha
  | cons x l ih =>
    rw [List.pairwise_cons] at hl
    rcases List.mem_cons.1 ha with ha0 | ha1
    · subst ha0
      rcases List.mem_cons.1 hb with hb0 | hb1
      · exact hb0.symm
      · exact absurd hname (hl.1 b hb1).2
    · rcases List.mem_cons.1 hb with hb0 | hb1
      · subst hb0
        exact absurd hname.symm (hl.1 a ha1).2
      · exact ih hl.2 hb1 ha1

end Verif.BackupList
