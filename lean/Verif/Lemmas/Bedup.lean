import Verif.Spec.Bedup

/-!
# Lemmas for deduplication
-/

namespace Verif.Bedup
open Verif

theorem matchLoop_iff (o n : Str) : matchLoop o n = true ↔ o = n := by
  fun_induction matchLoop o n with
  | case1 o n h =>
    simp only [Bool.false_eq_true, false_iff]
    intro e; subst e; exact h rfl
  | case2 o n h1 h2 =>
    simp only [Bool.false_eq_true, false_iff]
    intro e; subst e; exact h2 rfl
  | case3 o n h1 h2 h3 =>
    simp only [true_iff]
    simp only [ne_eq, Decidable.not_not] at h1 h2
    simp only [List.length_take] at h1 h3
    have e1 : o.take 4096 = o := List.take_of_length_le (by omega)
    have e2 : n.take 4096 = n := List.take_of_length_le (by omega)
    rw [← e1, h2, e2]
  | case4 o n h1 h2 h3 ih =>
    simp only [ne_eq, Decidable.not_not] at h1 h2
    rw [ih]
    constructor
    · intro h
      rw [← List.take_append_drop 4096 o, h2, h, List.take_append_drop]
    · intro h; rw [h]

/-- A file that is remembered and can be opened. -/
def Openable (env : Env) (f : File) : Prop := ∃ p, f.path = some p ∧ env.reads p ≠ none

/-- What is remembered is right. -/
def Known (env : Env) (s : Fs) (f : File) : Prop :=
  Openable env f → (∃ p, f.path = some p ∧ s.at_ p = some f.id) ∧ s.nlink f.id ≤ f.nlink

/-- Two files are not the same, as far as can be seen. -/
def Differ (env : Env) (s : Fs) (f g : File) : Prop :=
  Openable env f → Openable env g → f.id.1 = g.id.1 → s.content f.id ≠ s.content g.id

theorem Differ.symm {env : Env} {s : Fs} {f g : File} (h : Differ env s f g) : Differ env s g f :=
  fun a b c => (h b a c.symm).symm

theorem readFile_open {env : Env} {s : Fs} (hr : Readable env s) {p : Str} {i : Ino} (ho : env.reads p ≠ none)
    (ha : s.at_ p = some i) : readFile env s (some p) = some (s.content i) := by
  cases hn : env.reads p with
  | none => exact absurd hn ho
  | some n =>
    have := hr p n (s.content i) hn (by simp [Fs.view, ha])
    simp only [readFile, hn, ha]
    rw [List.take_of_length_le this]

theorem readFile_shut {env : Env} {s : Fs} {p : Str} (ho : env.reads p = none) : readFile env s (some p) = none := by
  simp [readFile, ho]

/-- What the loop finds. -/
inductive Outcome (env : Env) (o : Opts) (s : Fs) (new : File) (files : List File) : Found → Prop where
  | nothing (p : Option Str) : (p = new.path ∨ p = none) →
      (Openable env { new with path := p } → ∀ f ∈ files, Differ env s new f ∧ (Openable env f → f.id ≠ new.id)) →
      Outcome env o s new files (.nothing p)
  | same : Outcome env o s new files (.stays files)
  | reset (pre : List File) (f : File) (post : List File) : files = pre ++ f :: post → Openable env f →
      Openable env new → s.content f.id = s.content new.id → f.id ≠ new.id → f.id.1 = new.id.1 →
      Outcome env o s new files (.stays (pre ++ new :: post))
  | duplicate (pre : List File) (f : File) (post : List File) (old : Str) : files = pre ++ f :: post →
      f.path = some old → Openable env f → Openable env new → s.content f.id = s.content new.id →
      f.id ≠ new.id → f.id.1 = new.id.1 → f.nlink < o.maxlinks →
      Outcome env o s new files
        (.duplicate (pre ++ { f with nlink := if o.makelinks then f.nlink + 1 else f.nlink } :: post) old)

theorem Outcome.keep {env : Env} {o : Opts} {s : Fs} {new f : File} {files : List File} {r : Found}
    (h : Outcome env o s new files r)
    (hf : Openable env new → Differ env s new f ∧ (Openable env f → f.id ≠ new.id)) :
    Outcome env o s new (f :: files) (r.keep f) := by
  cases h with
  | nothing p hp h =>
    refine .nothing p hp ?_
    intro ho g hg
    rcases List.mem_cons.1 hg with rfl | hg
    · rcases hp with rfl | rfl
      · exact hf ho
      · obtain ⟨p, h, _⟩ := ho; cases h
    · exact h ho g hg
  | same => exact .same
  | reset pre g post h1 h2 h3 h4 h5 h6 =>
    exact .reset (f :: pre) g post (by rw [h1]; rfl) h2 h3 h4 h5 h6
  | duplicate pre g post old h1 h2 h3 h4 h5 h6 h7 h8 =>
    exact .duplicate (f :: pre) g post old (by rw [h1]; rfl) h2 h3 h4 h5 h6 h7 h8

/-- Once the path is blanked, nothing is found but files that stay. -/
theorem checkLoop_blank (env : Env) (o : Opts) (s : Fs) (new : File) (files : List File) :
    checkLoop env o s new none files = .nothing none ∨ checkLoop env o s new none files = .stays files := by
  induction files with
  | nil => exact Or.inl rfl
  | cons f fs ih =>
    have hk : (checkLoop env o s new none fs).keep f = .nothing none ∨
        (checkLoop env o s new none fs).keep f = .stays (f :: fs) := by
      rcases ih with h | h <;> rw [h]
      · exact Or.inl rfl
      · exact Or.inr rfl
    rw [checkLoop]
    split
    · exact hk
    · split
      · exact hk
      · split
        · exact Or.inr rfl
        · split
          · exact Or.inr rfl
          · rw [show readFile env s none = none from rfl]
            simp only []
            split
            · exact hk
            · split
              · exact hk
              · exact hk

theorem checkLoop_spec (env : Env) (o : Opts) (s : Fs) (hr : Readable env s) (path : Str) (new : File)
    (hp : new.path = some path) (hi : s.at_ path = some new.id) (files : List File)
    (hk : ∀ f ∈ files, Known env s f) :
    Outcome env o s new files (checkLoop env o s new (some path) files) := by
  have hnew : { new with path := some path } = new := by rw [← hp]
  induction files with
  | nil => exact .nothing _ (Or.inl hp.symm) (fun _ f hf => by cases hf)
  | cons f fs ih =>
    have ih' := ih (fun g hg => hk g (List.mem_cons_of_mem _ hg))
    rw [checkLoop]
    cases hfp : f.path with
    | none =>
      have hno : ¬ Openable env f := by rintro ⟨p, h, _⟩; rw [hfp] at h; cases h
      exact ih'.keep (fun _ => ⟨fun _ h => absurd h hno, fun h => absurd h hno⟩)
    | some old =>
      simp only []
      by_cases hd : new.id.1 ≠ f.id.1
      · rw [if_pos hd]
        exact ih'.keep (fun _ => ⟨fun _ _ h => absurd h hd, fun _ h => hd (by rw [h])⟩)
      · rw [if_neg hd]
        have hd' : new.id.1 = f.id.1 := Decidable.not_not.1 hd
        by_cases hino : new.id.2 = f.id.2
        · rw [if_pos hino]; exact .same
        · rw [if_neg hino]
          have hne : f.id ≠ new.id := fun h => hino (by rw [h])
          by_cases hl : new.nlink ≥ o.maxlinks
          · rw [if_pos hl]; exact .same
          · rw [if_neg hl]
            by_cases hfo : env.reads old = none
            · have hno : ¬ Openable env f := by
                rintro ⟨p, h, h'⟩; rw [hfp] at h; cases h; exact h' hfo
              have hkeep : Openable env new → Differ env s new f ∧ (Openable env f → f.id ≠ new.id) :=
                fun _ => ⟨fun _ h => absurd h hno, fun h => absurd h hno⟩
              rw [readFile_shut hfo]
              split
              · exact ih'.keep hkeep
              · split
                · exact ih'.keep hkeep
                · cases hn : readFile env s (some path) with
                  | some a => exact ih'.keep hkeep
                  | none =>
                    simp only []
                    have : Outcome env o s new fs (checkLoop env o s new none fs) := by
                      rcases checkLoop_blank env o s new fs with h | h <;> rw [h]
                      · exact .nothing none (Or.inr rfl) (by rintro ⟨p, h, _⟩; cases h)
                      · exact .same
                    exact this.keep hkeep
            · have hopen : Openable env f := ⟨old, hfp, hfo⟩
              obtain ⟨⟨p, hp1, hp2⟩, _⟩ := hk f (by simp) hopen
              rw [hfp] at hp1
              cases hp1
              rw [readFile_open hr hfo hp2]
              by_cases hno : env.reads path = none
              · have hnn : ¬ Openable env new := by
                  rintro ⟨p, h, h'⟩; rw [hp] at h; cases h; exact h' hno
                rw [readFile_shut hno]
                have hkeep : Openable env new → Differ env s new f ∧ (Openable env f → f.id ≠ new.id) :=
                  fun h => absurd h hnn
                split
                · exact ih'.keep hkeep
                · split
                  · exact ih'.keep hkeep
                  · have : Outcome env o s new fs (checkLoop env o s new none fs) := by
                      rcases checkLoop_blank env o s new fs with h | h <;> rw [h]
                      · exact .nothing none (Or.inr rfl) (by rintro ⟨p, h, _⟩; cases h)
                      · exact .same
                    exact this.keep hkeep
              · have hnopen : Openable env new := ⟨path, hp, hno⟩
                rw [readFile_open hr hno hi]
                by_cases hc : s.content new.id = s.content f.id
                · rw [hc]
                  simp only [ne_eq, not_true_eq_false, if_false]
                  have : matchLoop (s.content f.id) (s.content f.id) = true := (matchLoop_iff _ _).2 rfl
                  simp only [this, Bool.not_true, Bool.false_eq_true, if_false]
                  by_cases hfl : f.nlink ≥ o.maxlinks
                  · rw [if_pos hfl, hnew]
                    exact .reset [] f fs rfl hopen hnopen hc.symm hne hd'.symm
                  · rw [if_neg hfl]
                    have h := Outcome.duplicate (o := o) [] f fs old rfl hfp hopen hnopen hc.symm hne hd'.symm
                      (Nat.lt_of_not_le hfl)
                    simp only [hfp] at h
                    exact h
                · have hkeep : Openable env new → Differ env s new f ∧ (Openable env f → f.id ≠ new.id) :=
                    fun _ => ⟨fun _ _ _ => hc, fun _ => hne⟩
                  have hm : matchLoop (s.content new.id) (s.content f.id) = false := by
                    cases h : matchLoop (s.content new.id) (s.content f.id) with
                    | false => rfl
                    | true => exact absurd ((matchLoop_iff _ _).1 h) hc
                  simp only [hm, Bool.not_false, if_true]
                  split
                  · exact ih'.keep hkeep
                  · split <;> exact ih'.keep hkeep

/-! ### What is remembered -/

/-- Where a file is remembered. -/
def keyOf (s : Fs) (f : File) : Nat := (s.content f.id).length % 2 ^ 32

structure MemOK (env : Env) (s : Fs) (mem : Nat → List File) : Prop where
  known : ∀ k, ∀ f ∈ mem k, Known env s f
  keyed : ∀ k, ∀ f ∈ mem k, keyOf s f = k
  differ : ∀ k, (mem k).Pairwise (Differ env s)

theorem MemOK.alone {env : Env} {s : Fs} {mem : Nat → List File} (h : MemOK env s mem) {k k' : Nat}
    {pre post : List File} {f g : File} (hk : mem k = pre ++ f :: post) (hf : Openable env f)
    (hg : (k' ≠ k ∧ g ∈ mem k') ∨ g ∈ pre ∨ g ∈ post) (hgo : Openable env g)
    (hc : s.content g.id = s.content f.id) (hd : g.id.1 = f.id.1) : False := by
  have hp := h.differ k
  rw [hk] at hp
  rw [List.pairwise_append, List.pairwise_cons] at hp
  obtain ⟨_, ⟨h2, _⟩, h3⟩ := hp
  rcases hg with ⟨hne, hg⟩ | hg | hg
  · apply hne
    rw [← h.keyed k' g hg, ← h.keyed k f (by rw [hk]; simp)]
    unfold keyOf; rw [hc]
  · exact h3 g hg f (by simp) hgo hf hd hc
  · exact h2 g hg hf hgo hd.symm hc.symm

theorem pairwise_replace {R : File → File → Prop} {pre post : List File} {f f' : File}
    (h : (pre ++ f :: post).Pairwise R) (h1 : ∀ g ∈ pre, R g f → R g f') (h2 : ∀ g ∈ post, R f g → R f' g) :
    (pre ++ f' :: post).Pairwise R := by
  rw [List.pairwise_append, List.pairwise_cons] at h ⊢
  obtain ⟨k1, ⟨k2, k3⟩, k4⟩ := h
  refine ⟨k1, ⟨fun g hg => h2 g hg (k2 g hg), k3⟩, ?_⟩
  intro a ha b hb
  rcases List.mem_cons.1 hb with rfl | hb
  · exact h1 a ha (k4 a ha f (by simp))
  · exact k4 a ha b (by simp [hb])

/-- The memory for one size is replaced. -/
theorem MemOK.set {env : Env} {s : Fs} {mem : Nat → List File} (h : MemOK env s mem) (k : Nat) (fs : List File)
    (h1 : ∀ f ∈ fs, Known env s f) (h2 : ∀ f ∈ fs, keyOf s f = k) (h3 : fs.Pairwise (Differ env s)) :
    MemOK env s (fun j => if j = k then fs else mem j) := by
  constructor
  · intro j f hf
    by_cases e : j = k
    · rw [if_pos e] at hf; exact h1 f hf
    · rw [if_neg e] at hf; exact h.known j f hf
  · intro j f hf
    by_cases e : j = k
    · rw [if_pos e] at hf; rw [e]; exact h2 f hf
    · rw [if_neg e] at hf; exact h.keyed j f hf
  · intro j
    by_cases e : j = k
    · simp only [e, if_true]; exact h3
    · simp only [e, if_false]; exact h.differ j

theorem mem_replace {α : Type} {pre post : List α} {f f' g : α} (h : g ∈ pre ++ f' :: post) :
    g = f' ∨ g ∈ pre ++ f :: post := by
  rcases List.mem_append.1 h with h | h
  · exact Or.inr (by simp [h])
  · rcases List.mem_cons.1 h with h | h
    · exact Or.inl h
    · exact Or.inr (by simp [h])

theorem MemOK.after {env : Env} {o : Opts} {s : Fs} {mem : Nat → List File} (h : MemOK env s mem) (path : Str)
    (new : File) (hp : new.path = some path) (hi : s.at_ path = some new.id) (hn : s.nlink new.id ≤ new.nlink) {r : Found}
    (ho : Outcome env o s new (mem (keyOf s new)) r) :
    (∀ p, r = .nothing p → MemOK env s (fun j => if j = keyOf s new then { new with path := p } :: mem (keyOf s new) else mem j)) ∧
    (∀ fs, r = .stays fs → MemOK env s (fun j => if j = keyOf s new then fs else mem j)) := by
  constructor
  · rintro p rfl
    cases ho with
    | nothing _ hq hall =>
    refine h.set _ _ ?_ ?_ ?_
    · intro f hf
      rcases List.mem_cons.1 hf with rfl | hf
      · intro hopen
        refine ⟨?_, hn⟩
        rcases hq with rfl | rfl
        · exact ⟨path, hp, hi⟩
        · obtain ⟨_, e, _⟩ := hopen; cases e
      · exact h.known _ f hf
    · intro f hf
      rcases List.mem_cons.1 hf with rfl | hf
      · rfl
      · exact h.keyed _ f hf
    · rw [List.pairwise_cons]
      refine ⟨?_, h.differ _⟩
      intro g hg hopen hgo hd
      have := (hall hopen g hg).1
      rcases hq with rfl | rfl
      · exact this hopen hgo hd
      · obtain ⟨_, e, _⟩ := hopen; cases e
  · rintro fs rfl
    cases ho with
    | same => exact h.set _ _ (h.known _) (h.keyed _) (h.differ _)
    | reset pre f post e hf hnew hc hne hd =>
      refine h.set _ _ ?_ ?_ ?_
      · intro g hg
        rcases mem_replace (f := f) hg with rfl | hg
        · exact fun _ => ⟨⟨path, hp, hi⟩, hn⟩
        · exact h.known _ g (by rw [e]; exact hg)
      · intro g hg
        rcases mem_replace (f := f) hg with rfl | hg
        · rfl
        · exact h.keyed _ g (by rw [e]; exact hg)
      · have := h.differ (keyOf s new)
        rw [e] at this
        refine pairwise_replace this ?_ ?_
        · intro g _ hgf h1 _ h3
          rw [← hc]; exact hgf h1 hf (h3.trans hd.symm)
        · intro g _ hfg _ h2 h3
          rw [← hc]; exact hfg hf h2 (hd.trans h3)

/-- A path is made to lead elsewhere, or removed, because of a file like it. -/
theorem MemOK.change {env : Env} {s s' : Fs} {mem : Nat → List File} (h : MemOK env s mem) {k : Nat}
    {pre post : List File} {f : File} (hk : mem k = pre ++ f :: post) (hf : Openable env f) (n : Nat)
    (hcont : s'.content = s.content) {path : Str} {j : Ino} (hj : s.at_ path = some j) (hne : f.id ≠ j)
    (hc : s.content f.id = s.content j) (hd : f.id.1 = j.1) (hat : ∀ p, p ≠ path → s'.at_ p = s.at_ p)
    (hn : ∀ x, x ≠ f.id → s'.nlink x ≤ s.nlink x) (hnf : s'.nlink f.id ≤ n) :
    MemOK env s' (fun j => if j = k then pre ++ { f with nlink := n } :: post else mem j) := by
  have hDiff : ∀ a b, Differ env s a b → Differ env s' a b := by
    intro a b hab h1 h2 h3
    rw [hcont]; exact hab h1 h2 h3
  have hother : ∀ k' g, ((k' ≠ k ∧ g ∈ mem k') ∨ g ∈ pre ∨ g ∈ post) → Known env s' g := by
    intro k' g hg hgo
    have hmem : ∃ k'', g ∈ mem k'' := by
      rcases hg with hg | hg | hg
      · exact ⟨k', hg.2⟩
      · exact ⟨k, by rw [hk]; simp [hg]⟩
      · exact ⟨k, by rw [hk]; simp [hg]⟩
    obtain ⟨k'', hm⟩ := hmem
    obtain ⟨⟨p, hp1, hp2⟩, hp3⟩ := h.known k'' g hm hgo
    have hid : g.id ≠ f.id := fun e => h.alone hk hf hg hgo (by rw [e]) (by rw [e])
    have hpp : p ≠ path := by
      rintro rfl
      rw [hj] at hp2
      cases hp2
      exact h.alone hk hf hg hgo hc.symm hd.symm
    exact ⟨⟨p, hp1, by rw [hat p hpp]; exact hp2⟩, Nat.le_trans (hn _ hid) hp3⟩
  constructor
  · intro k' g hg
    by_cases e : k' = k
    · rw [if_pos e] at hg
      rcases List.mem_append.1 hg with hg | hg
      · exact hother k g (Or.inr (Or.inl hg))
      · rcases List.mem_cons.1 hg with rfl | hg
        · intro _
          obtain ⟨⟨p, hp1, hp2⟩, _⟩ := h.known k f (by rw [hk]; simp) hf
          have hpp : p ≠ path := by
            rintro rfl
            rw [hj] at hp2
            cases hp2
            exact hne rfl
          exact ⟨⟨p, hp1, by rw [hat p hpp]; exact hp2⟩, hnf⟩
        · exact hother k g (Or.inr (Or.inr hg))
    · rw [if_neg e] at hg
      exact hother k' g (Or.inl ⟨e, hg⟩)
  · intro k' g hg
    have hkey : ∀ g, keyOf s' g = keyOf s g := fun g => by unfold keyOf; rw [hcont]
    rw [hkey]
    by_cases e : k' = k
    · rw [if_pos e] at hg
      rw [e]
      rcases mem_replace (f := f) hg with rfl | hg
      · exact h.keyed k f (by rw [hk]; simp)
      · exact h.keyed k g (by rw [hk]; exact hg)
    · rw [if_neg e] at hg
      exact h.keyed k' g hg
  · intro k'
    by_cases e : k' = k
    · simp only [e, if_true]
      have := h.differ k
      rw [hk] at this
      have h2 := pairwise_replace (f' := { f with nlink := n }) this (fun g _ x => x) (fun g _ x => x)
      exact List.Pairwise.imp (hDiff _ _) h2
    · simp only [e, if_false]
      exact (h.differ k').imp (hDiff _ _)

end Verif.Bedup
