import Verif.Spec.BedupRun

/-!
# Lemmas on what bedup is told to work on
-/

namespace Verif.BedupRun

/-! ## The options -/

/-- What the variables are after the options. -/
structure After (dflt : Str) (v : Vars) (opts : List Opt) (v' : Vars) : Prop where
  non : v'.nonburp = true ↔ v.nonburp = true ∨ Opt.nonburp ∈ opts
  del : v'.deletedups = true ↔ v.deletedups = true ∨ Opt.delete ∈ opts
  lnk : v'.makelinks = true ↔ v.makelinks = true ∨ Opt.link ∈ opts
  max : v'.maxlinks = opts.foldl (fun n o => match o with
    | .max m => unsigned m
    | _ => n) v.maxlinks
  grp : v'.groups = opts.foldl (fun g o => match o with
    | .groups l => some l
    | _ => g) v.groups
  hasGrp : v'.groups.isSome = true ↔ v.groups.isSome = true ∨ GivesGroups opts
  conf : v'.config.getD dflt = opts.foldl (fun p o => match o with
    | .config q => q
    | _ => p) (v.config.getD dflt)
  hasConf : v'.config.isSome = true ↔ v.config.isSome = true ∨ GivesConfig opts

theorem parse_plain (dflt : Str) (opts : List Opt) :
    ∀ v, Plain opts → ∃ v', parse v opts = .vars v' ∧ After dflt v opts v' := by
  induction opts with
  | nil =>
    intro v _
    refine ⟨v, rfl, ?_⟩
    constructor <;> simp [GivesGroups, GivesConfig]
  | cons o os ih =>
    intro v hp
    have hp' : Plain os := ⟨fun h => hp.1 (List.mem_cons_of_mem _ h), fun h => hp.2 (List.mem_cons_of_mem _ h)⟩
    cases o with
    | version => exact absurd List.mem_cons_self hp.1
    | help => exact absurd List.mem_cons_self hp.2
    | config p =>
      obtain ⟨v', h1, h2⟩ := ih { v with config := some p } hp'
      refine ⟨v', h1, ?_⟩
      obtain ⟨a1, a2, a3, a4, a5, a6, a7, a8⟩ := h2
      constructor <;> simp_all [GivesGroups, GivesConfig]
    | groups l =>
      obtain ⟨v', h1, h2⟩ := ih { v with groups := some l } hp'
      refine ⟨v', h1, ?_⟩
      obtain ⟨a1, a2, a3, a4, a5, a6, a7, a8⟩ := h2
      constructor <;> simp_all [GivesGroups, GivesConfig]
    | delete =>
      obtain ⟨v', h1, h2⟩ := ih { v with deletedups := true } hp'
      refine ⟨v', h1, ?_⟩
      obtain ⟨a1, a2, a3, a4, a5, a6, a7, a8⟩ := h2
      constructor <;> simp_all [GivesGroups, GivesConfig]
    | link =>
      obtain ⟨v', h1, h2⟩ := ih { v with makelinks := true } hp'
      refine ⟨v', h1, ?_⟩
      obtain ⟨a1, a2, a3, a4, a5, a6, a7, a8⟩ := h2
      constructor <;> simp_all [GivesGroups, GivesConfig]
    | max n =>
      obtain ⟨v', h1, h2⟩ := ih { v with maxlinks := unsigned n } hp'
      refine ⟨v', h1, ?_⟩
      obtain ⟨a1, a2, a3, a4, a5, a6, a7, a8⟩ := h2
      constructor <;> simp_all [GivesGroups, GivesConfig]
    | nonburp =>
      obtain ⟨v', h1, h2⟩ := ih { v with nonburp := true } hp'
      refine ⟨v', h1, ?_⟩
      obtain ⟨a1, a2, a3, a4, a5, a6, a7, a8⟩ := h2
      constructor <;> simp_all [GivesGroups, GivesConfig]
    | verbose =>
      obtain ⟨v', h1, h2⟩ := ih v hp'
      refine ⟨v', h1, ?_⟩
      obtain ⟨a1, a2, a3, a4, a5, a6, a7, a8⟩ := h2
      constructor <;> simp_all [GivesGroups, GivesConfig]

theorem accepted_iff {dflt : Str} {opts : List Opt} {v : Vars} (h : After dflt initial opts v)
    (args : List Str) : accepted v args = true ↔ Sound opts args := by
  obtain ⟨a1, a2, a3, a4, a5, a6, a7, a8⟩ := h
  simp only [initial, Bool.false_eq_true, false_or, Option.isSome_none] at a1 a2 a3 a4 a5 a6 a7 a8
  have a4' : v.maxlinks = limit opts := a4
  unfold accepted Sound
  rw [← a1, ← a2, ← a3, ← a6, ← a8, ← a4']
  have h2 : 2 ≤ defMaxLinks := by decide
  cases hn : v.nonburp <;> cases hd : v.deletedups <;> cases hl : v.makelinks <;>
    cases hc : v.config.isSome <;> cases hg : v.groups.isSome <;> cases args <;> simp <;> omega

/-- A run in which neither the version nor help is asked for. -/
theorem run_plain (w : World) (dflt : Str) (opts : List Opt) (args : List Str) (hp : Plain opts) :
    ∃ v, After dflt initial opts v ∧
      run w dflt opts args =
        (if !accepted v args then ⟨1, [], false, false, none, true⟩
        else if v.nonburp then
          ⟨if (fromArgs w args).2.1 then 0 else 1, (fromArgs w args).1, v.deletedups, v.makelinks,
            some v.maxlinks, (fromArgs w args).2.2⟩
        else
          ⟨if (fromConf w (v.config.getD dflt) v.groups).2.1 then 0 else 1,
            (fromConf w (v.config.getD dflt) v.groups).1, v.deletedups, v.makelinks,
            (fromConf w (v.config.getD dflt) v.groups).2.2, true⟩) := by
  obtain ⟨v, h1, h2⟩ := parse_plain dflt opts initial hp
  refine ⟨v, h2, ?_⟩
  unfold run
  rw [h1]

/-- A run in which one of them is. -/
theorem run_other (w : World) (dflt : Str) (opts : List Opt) (args : List Str) (hp : ¬ Plain opts) :
    (run w dflt opts args).evs = [] ∧ (run w dflt opts args).deletes = false := by
  have : ∀ v, ∃ n, parse v opts = .exit n := by
    clear args
    induction opts with
    | nil => exact absurd ⟨by simp, by simp⟩ hp
    | cons o os ih =>
      have hos : o ≠ .version → o ≠ .help → ¬ Plain os := by
        intro h1 h2 h3
        refine hp ⟨?_, ?_⟩
        · intro h
          rcases List.mem_cons.mp h with h | h
          · exact h1 h.symm
          · exact h3.1 h
        · intro h
          rcases List.mem_cons.mp h with h | h
          · exact h2 h.symm
          · exact h3.2 h
      intro v
      cases o with
      | version => exact ⟨0, rfl⟩
      | help => exact ⟨1, rfl⟩
      | _ => exact ih (hos (by simp) (by simp)) _
  obtain ⟨n, hn⟩ := this initial
  unfold run
  rw [hn]
  exact ⟨rfl, rfl⟩

/-! ## The groups -/

/-- A separator of names. -/
def isSep (x : Byte) : Prop := x = 44 ∨ x = newline

theorem groupNames_sound (s : Str) : ∀ cur g, (∀ x ∈ cur, ¬ isSep x) → g ∈ groupNames cur s →
    g ≠ [] ∧ (∀ x ∈ g, ¬ isSep x) ∧ ∃ a b, cur ++ s = a ++ g ++ b ∧
      (a = [] ∨ ∃ x ∈ a.getLast?, isSep x) ∧ (b = [] ∨ ∃ x ∈ b.head?, isSep x) := by
  induction s with
  | nil =>
    intro cur g hc hg
    unfold groupNames at hg
    by_cases h : cur = []
    · rw [if_pos h] at hg; cases hg
    · rw [if_neg h] at hg
      rw [List.mem_singleton.mp hg]
      exact ⟨h, hc, [], [], by simp, Or.inl rfl, Or.inl rfl⟩
  | cons x xs ih =>
    intro cur g hc hg
    unfold groupNames at hg
    by_cases hx : x = 44 ∨ x = newline
    · rw [if_pos hx] at hg
      have later : g ∈ groupNames [] xs → g ≠ [] ∧ (∀ x ∈ g, ¬ isSep x) ∧
          ∃ a b, cur ++ x :: xs = a ++ g ++ b ∧
            (a = [] ∨ ∃ x ∈ a.getLast?, isSep x) ∧ (b = [] ∨ ∃ x ∈ b.head?, isSep x) := by
        intro hg
        obtain ⟨h1, h2, a, b, h3, h4, h5⟩ := ih [] g (by simp) hg
        rw [List.nil_append] at h3
        refine ⟨h1, h2, cur ++ x :: a, b, by rw [h3]; simp, Or.inr ?_, h5⟩
        rcases h4 with rfl | ⟨y, hy, hs⟩
        · exact ⟨x, by simp, hx⟩
        · refine ⟨y, ?_, hs⟩
          rw [List.getLast?_append]
          rw [List.getLast?_cons]
          rw [Option.mem_def] at hy
          rw [hy]
          simp
      by_cases h : cur = []
      · rw [if_pos h] at hg
        exact later hg
      · rw [if_neg h] at hg
        rcases List.mem_cons.mp hg with rfl | hg
        · exact ⟨h, hc, [], x :: xs, by simp, Or.inl rfl, Or.inr ⟨x, rfl, hx⟩⟩
        · exact later hg
    · rw [if_neg hx] at hg
      have hc' : ∀ y ∈ cur ++ [x], ¬ isSep y := by
        intro y hy
        rcases List.mem_append.mp hy with hy | hy
        · exact hc y hy
        · rw [List.mem_singleton.mp hy]; exact hx
      obtain ⟨h1, h2, a, b, h3, h4⟩ := ih (cur ++ [x]) g hc' hg
      exact ⟨h1, h2, a, b, by rw [← h3]; simp, h4⟩

theorem groupNames_word (g : Str) (hg : ∀ x ∈ g, ¬ isSep x) (b : Str) :
    ∀ cur, groupNames cur (g ++ b) = groupNames (cur ++ g) b := by
  induction g with
  | nil => intro cur; simp
  | cons x g ih =>
    intro cur
    show groupNames cur (x :: (g ++ b)) = _
    rw [groupNames, if_neg (show ¬ (x = 44 ∨ x = newline) from hg x List.mem_cons_self),
      ih (fun y hy => hg y (List.mem_cons_of_mem _ hy))]
    simp

theorem groupNames_end (g b : Str) (hne : g ≠ []) (hb : b = [] ∨ ∃ x ∈ b.head?, isSep x) :
    g ∈ groupNames g b := by
  cases b with
  | nil => simp [groupNames, hne]
  | cons x xs =>
    rcases hb with h | ⟨y, hy, hs⟩
    · cases h
    · rw [List.head?_cons, Option.mem_def] at hy
      cases hy
      rw [groupNames, if_pos (show x = 44 ∨ x = newline from hs), if_neg hne]
      exact List.mem_cons_self

theorem groupNames_after (a : Str) (t : Str) (ha : a = [] ∨ ∃ x ∈ a.getLast?, isSep x) :
    ∀ cur, (a = [] → cur = []) → ∀ g, g ∈ groupNames [] t → g ∈ groupNames cur (a ++ t) := by
  induction a with
  | nil =>
    intro cur hc g hg
    rw [hc rfl]
    exact hg
  | cons x a ih =>
    intro cur _ g hg
    show g ∈ groupNames cur (x :: (a ++ t))
    rw [groupNames]
    have hrest : a = [] ∨ ∃ x ∈ a.getLast?, isSep x := by
      cases a with
      | nil => exact Or.inl rfl
      | cons y ys =>
        rcases ha with h | ⟨z, hz, hs⟩
        · cases h
        · exact Or.inr ⟨z, by rw [List.getLast?_cons_cons] at hz; exact hz, hs⟩
    by_cases hx : x = 44 ∨ x = newline
    · rw [if_pos hx]
      have h1 := ih hrest [] (fun _ => rfl) g hg
      by_cases h : cur = []
      · rw [if_pos h]; exact h1
      · rw [if_neg h]; exact List.mem_cons_of_mem _ h1
    · rw [if_neg hx]
      refine ih hrest _ ?_ g hg
      intro he
      rcases ha with h | ⟨z, hz, hs⟩
      · cases h
      · rw [he] at hz
        have : z = x := by simpa using hz.symm
        rw [this] at hs
        exact absurd hs hx

theorem last_sep (a : Str) : (∃ x ∈ a.getLast?, isSep x) ↔
    (a.getLast? = some 44 ∨ a.getLast? = some newline) := by
  constructor
  · rintro ⟨x, hx, rfl | rfl⟩
    · exact Or.inl hx
    · exact Or.inr hx
  · rintro (h | h)
    · exact ⟨_, h, Or.inl rfl⟩
    · exact ⟨_, h, Or.inr rfl⟩

theorem head_sep (a : Str) : (∃ x ∈ a.head?, isSep x) ↔
    (a.head? = some 44 ∨ a.head? = some newline) := by
  constructor
  · rintro ⟨x, hx, rfl | rfl⟩
    · exact Or.inl hx
    · exact Or.inr hx
  · rintro (h | h)
    · exact ⟨_, h, Or.inl rfl⟩
    · exact ⟨_, h, Or.inr rfl⟩

theorem no_sep (g : Str) : (∀ x ∈ g, ¬ isSep x) ↔ (44 : Byte) ∉ g ∧ newline ∉ g := by
  constructor
  · exact fun h => ⟨fun h1 => h _ h1 (Or.inl rfl), fun h1 => h _ h1 (Or.inr rfl)⟩
  · rintro ⟨h1, h2⟩ x hx (rfl | rfl)
    · exact h1 hx
    · exact h2 hx

theorem groupNames_iff (list g : Str) : g ∈ groupNames [] list ↔ Named list g := by
  constructor
  · intro h
    obtain ⟨h1, h2, a, b, h3, h4, h5⟩ := groupNames_sound list [] g (by simp) h
    obtain ⟨h6, h7⟩ := (no_sep g).mp h2
    refine ⟨h1, h6, h7, a, b, h3, ?_, ?_⟩
    · rcases h4 with h | h
      · exact Or.inl h
      · exact Or.inr ((last_sep a).mp h)
    · rcases h5 with h | h
      · exact Or.inl h
      · exact Or.inr ((head_sep b).mp h)
  · rintro ⟨h1, h6, h7, a, b, rfl, h4, h5⟩
    rw [List.append_assoc]
    refine groupNames_after a (g ++ b) ?_ [] (fun _ => rfl) g ?_
    · rcases h4 with h | h
      · exact Or.inl h
      · exact Or.inr ((last_sep a).mpr h)
    · rw [groupNames_word g ((no_sep g).mpr ⟨h6, h7⟩), List.nil_append]
      refine groupNames_end g b h1 ?_
      rcases h5 with h | h
      · exact Or.inl h
      · exact Or.inr ((head_sep b).mpr h)

/-! ## The clients -/

/-- An entry that is a client in one of the groups, with its configuration. -/
def chosen (groups : Option (List Str)) (e : Entry) : Option ClientConf :=
  if e.noInode || decide (Auth.cnameValid e.name ≠ .valid) || !e.regular then none
  else match e.conf with
    | none => none
    | some c => if inGroup groups c then some c else none

/-- What is done for a client. -/
def forClient (b : Entry × ClientConf) : List Ev :=
  [.locked (lockPath b.1 b.2), .work true (storage b.1 b.2)]

/-- The clients that are worked on come one after the other, and nothing is given up before the end. -/
theorem clients_shape (w : World) (groups : Option (List Str)) (es : List Entry) :
    ∃ (bs : List (Entry × ClientConf)) (tail : List Ev),
      (clients w groups es).1 = bs.flatMap forClient ++ tail ∧ (tail = [] ∨ tail = [.released]) ∧
      ∀ b ∈ bs, b.1 ∈ es ∧ chosen groups b.1 = some b.2 ∧ w.free (lockPath b.1 b.2) = true := by
  induction es with
  | nil => exact ⟨[], [.released], rfl, Or.inr rfl, by simp⟩
  | cons e es ih =>
    obtain ⟨bs, tail, h1, h2, h3⟩ := ih
    have skip : ∃ (bs : List (Entry × ClientConf)) (tail : List Ev),
        (clients w groups es).1 = bs.flatMap forClient ++ tail ∧ (tail = [] ∨ tail = [.released]) ∧
        ∀ b ∈ bs, b.1 ∈ e :: es ∧ chosen groups b.1 = some b.2 ∧
          w.free (lockPath b.1 b.2) = true :=
      ⟨bs, tail, h1, h2, fun b hb => ⟨List.mem_cons_of_mem _ (h3 b hb).1, (h3 b hb).2⟩⟩
    unfold clients
    by_cases hc : (e.noInode || decide (Auth.cnameValid e.name ≠ .valid) || !e.regular) = true
    · rw [if_pos hc]; exact skip
    · rw [if_neg hc]
      cases hcf : e.conf with
      | none => exact ⟨[], [], rfl, Or.inl rfl, by simp⟩
      | some c =>
        simp only
        cases hg : inGroup groups c with
        | false => simp only [Bool.not_false, if_true]; exact skip
        | true =>
          cases hf : w.free (lockPath e c) with
          | false => simp only [Bool.not_true, Bool.not_false, if_true, Bool.false_eq_true, if_false]; exact skip
          | true =>
            simp only [Bool.not_true, Bool.false_eq_true, if_false]
            have hch : chosen groups e = some c := by
              unfold chosen
              rw [if_neg hc, hcf]
              simp [hg]
            have one : ∃ (bs : List (Entry × ClientConf)) (tail : List Ev),
                ([Ev.locked (lockPath e c), Ev.work true (storage e c)] ++ [Ev.released] : List Ev)
                  = bs.flatMap forClient ++ tail ∧ (tail = [] ∨ tail = [.released]) ∧
                ∀ b ∈ bs, b.1 ∈ e :: es ∧ chosen groups b.1 = some b.2 ∧
                  w.free (lockPath b.1 b.2) = true := by
              refine ⟨[(e, c)], [.released], rfl, Or.inr rfl, ?_⟩
              intro b hb
              rw [List.mem_singleton.mp hb]
              exact ⟨List.mem_cons_self, hch, hf⟩
            have more : ∃ (bs : List (Entry × ClientConf)) (tail : List Ev),
                ([Ev.locked (lockPath e c), Ev.work true (storage e c)] ++ (clients w groups es).1 : List Ev)
                  = bs.flatMap forClient ++ tail ∧ (tail = [] ∨ tail = [.released]) ∧
                ∀ b ∈ bs, b.1 ∈ e :: es ∧ chosen groups b.1 = some b.2 ∧
                  w.free (lockPath b.1 b.2) = true := by
              refine ⟨(e, c) :: bs, tail, by rw [h1]; rfl, h2, ?_⟩
              intro b hb
              rcases List.mem_cons.mp hb with rfl | hb
              · exact ⟨List.mem_cons_self, hch, hf⟩
              · exact ⟨List.mem_cons_of_mem _ (h3 b hb).1, (h3 b hb).2⟩
            cases hr : w.result (storage e c) with
            | error => exact one
            | done => exact more
            | skipped => exact more

/-- All are worked on, if nothing goes wrong. -/
theorem clients_all (w : World) (groups : Option (List Str)) (es : List Entry)
    (hl : ∀ e ∈ es, e.noInode = false → Auth.cnameValid e.name = .valid → e.regular = true →
      e.conf.isSome = true)
    (hr : ∀ e ∈ es, ∀ c, chosen groups e = some c → w.result (storage e c) ≠ .error) :
    (clients w groups es).2 = true ∧
      ∀ e ∈ es, ∀ c, chosen groups e = some c → w.free (lockPath e c) = true →
        Ev.work true (storage e c) ∈ (clients w groups es).1 := by
  induction es with
  | nil => exact ⟨rfl, by simp⟩
  | cons e es ih =>
    obtain ⟨h1, h2⟩ := ih (fun e' he' => hl e' (List.mem_cons_of_mem _ he'))
      (fun e' he' => hr e' (List.mem_cons_of_mem _ he'))
    unfold clients
    by_cases hc : (e.noInode || decide (Auth.cnameValid e.name ≠ .valid) || !e.regular) = true
    · rw [if_pos hc]
      refine ⟨h1, ?_⟩
      intro e' he' c hch hf
      rcases List.mem_cons.mp he' with rfl | he'
      · unfold chosen at hch
        rw [if_pos hc] at hch
        cases hch
      · exact h2 e' he' c hch hf
    · rw [if_neg hc]
      have hsome : e.conf.isSome = true := by
        simp only [Bool.or_eq_true, decide_eq_true_eq, not_or, Bool.not_eq_true, Bool.not_eq_eq_eq_not, Bool.not_false, ne_eq, Decidable.not_not] at hc
        exact hl e List.mem_cons_self hc.1.1 hc.1.2 (by simpa using hc.2)
      obtain ⟨c, hcf⟩ := Option.isSome_iff_exists.mp hsome
      rw [hcf]
      simp only
      have hch : ∀ c', chosen groups e = some c' ↔ inGroup groups c = true ∧ c' = c := by
        intro c'
        unfold chosen
        rw [if_neg hc, hcf]
        by_cases hg : inGroup groups c = true
        · simp [hg, eq_comm]
        · simp [hg]
      cases hg : inGroup groups c with
      | false =>
        simp only [Bool.not_false, if_true]
        refine ⟨h1, ?_⟩
        intro e' he' c' hch' hf
        rcases List.mem_cons.mp he' with rfl | he'
        · have := ((hch c').mp hch').1
          rw [hg] at this
          cases this
        · exact h2 e' he' c' hch' hf
      | true =>
        cases hf : w.free (lockPath e c) with
        | false =>
          simp only [Bool.not_true, Bool.not_false, if_true, Bool.false_eq_true, if_false]
          refine ⟨h1, ?_⟩
          intro e' he' c' hch' hf'
          rcases List.mem_cons.mp he' with rfl | he'
          · rw [((hch c').mp hch').2, hf] at hf'
            cases hf'
          · exact h2 e' he' c' hch' hf'
        | true =>
          simp only [Bool.not_true, Bool.false_eq_true, if_false]
          have hok := hr e List.mem_cons_self c ((hch c).mpr ⟨hg, rfl⟩)
          have fin : (clients w groups es).2 = true ∧
              ∀ e' ∈ e :: es, ∀ c', chosen groups e' = some c' → w.free (lockPath e' c') = true →
                Ev.work true (storage e' c') ∈
                  [Ev.locked (lockPath e c), Ev.work true (storage e c)] ++ (clients w groups es).1 := by
            refine ⟨h1, ?_⟩
            intro e' he' c' hch' hf'
            rcases List.mem_cons.mp he' with rfl | he'
            · rw [((hch c').mp hch').2]
              simp
            · exact List.mem_append_right _ (h2 e' he' c' hch' hf')
          cases hres : w.result (storage e c) with
          | error => exact absurd hres hok
          | done => exact fin
          | skipped => exact fin

/-- Work that fails makes for a failure. -/
theorem clients_fail (w : World) (groups : Option (List Str)) (es : List Entry) (d : Str)
    (hd : w.result d = .error) (h : Ev.work true d ∈ (clients w groups es).1) :
    (clients w groups es).2 = false := by
  induction es with
  | nil => simp [clients] at h
  | cons e es ih =>
    unfold clients at h ⊢
    by_cases hc : (e.noInode || decide (Auth.cnameValid e.name ≠ .valid) || !e.regular) = true
    · rw [if_pos hc] at h ⊢; exact ih h
    · rw [if_neg hc] at h ⊢
      cases hcf : e.conf with
      | none => rw [hcf] at h; cases h
      | some c =>
        rw [hcf] at h
        simp only at h ⊢
        cases hg : inGroup groups c with
        | false =>
          rw [hg] at h
          simp only [Bool.not_false, if_true] at h ⊢
          exact ih h
        | true =>
          rw [hg] at h
          cases hf : w.free (lockPath e c) with
          | false =>
            rw [hf] at h
            simp only [Bool.not_true, Bool.not_false, if_true, Bool.false_eq_true, if_false] at h ⊢
            exact ih h
          | true =>
            rw [hf] at h
            simp only [Bool.not_true, Bool.false_eq_true, if_false] at h ⊢
            cases hr : w.result (storage e c) with
            | error => rfl
            | done =>
              rw [hr] at h
              simp only [List.cons_append, List.nil_append, List.mem_cons, reduceCtorEq, false_or,
                Ev.work.injEq, true_and] at h
              rcases h with h | h
              · rw [h, hr] at hd; cases hd
              · exact ih h
            | skipped =>
              rw [hr] at h
              simp only [List.cons_append, List.nil_append, List.mem_cons, reduceCtorEq, false_or,
                Ev.work.injEq, true_and] at h
              rcases h with h | h
              · rw [h, hr] at hd; cases hd
              · exact ih h

theorem args_fail (w : World) (args : List Str) (d : Str) (hd : w.result d ≠ .done)
    (h : Ev.work false d ∈ (fromArgs w args).1) : (fromArgs w args).2.1 = false := by
  induction args with
  | nil => cases h
  | cons a as ih =>
    unfold fromArgs at h ⊢
    cases ht : trimmed a with
    | none => rfl
    | some x =>
      rw [ht] at h
      simp only at h ⊢
      cases hr : w.result x with
      | done =>
        rw [hr] at h
        simp only [List.mem_cons, Ev.work.injEq, true_and] at h ⊢
        rcases h with h | h
        · rw [h] at hd; exact absurd hr hd
        · exact ih h
      | error => rfl
      | skipped => rfl

theorem inGroup_some (gs : List Str) (c : ClientConf) :
    inGroup (some gs) c = true ↔ ∃ g, c.group = some g ∧ g ∈ gs := by
  obtain ⟨group, directory, lockdir⟩ := c
  cases group with
  | none => simp [inGroup]
  | some g => simp [inGroup]

/-- Being chosen is being wanted. -/
theorem chosen_iff (opts : List Opt) (e : Entry) (c : ClientConf) :
    chosen ((groupsGiven opts).map (groupNames [])) e = some c ↔ Wanted opts e c := by
  unfold chosen Wanted
  cases hi : e.noInode
  case true => simp
  cases hr : e.regular
  case false => simp
  by_cases hv : Auth.cnameValid e.name = .valid
  case neg => simp [hv]
  cases hc : e.conf with
  | none => simp
  | some c0 =>
    simp only [hv, ne_eq, not_true, decide_false, Bool.or_self, Bool.not_true, Bool.false_eq_true,
      if_false, true_and]
    cases hg : groupsGiven opts with
    | none => simp [inGroup]
    | some l =>
      have hin := inGroup_some (groupNames [] l) c0
      by_cases hg : inGroup (some (groupNames [] l)) c0 = true
      · rw [Option.map_some, if_pos hg]
        constructor
        · intro h
          cases h
          refine ⟨rfl, ?_⟩
          intro l' hl'
          cases hl'
          obtain ⟨g, h1, h2⟩ := hin.mp hg
          exact ⟨g, h1, (groupNames_iff l g).mp h2⟩
        · exact fun h => h.1
      · rw [Option.map_some, if_neg hg]
        constructor
        · intro h; cases h
        · rintro ⟨h1, h2⟩
          cases h1
          obtain ⟨g, h3, h4⟩ := h2 l rfl
          exact absurd (hin.mpr ⟨g, h3, (groupNames_iff l g).mpr h4⟩) hg

end Verif.BedupRun
