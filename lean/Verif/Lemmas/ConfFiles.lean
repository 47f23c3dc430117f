import Verif.Spec.ConfFiles
import Verif.Lemmas.Confs

/-! Lemmas for reading the files of the configuration. -/

namespace Verif.ConfFiles

open Verif.Confs Verif.ConfLine
open Verif.Timer (isSpace)

/-! ### Lines -/

/-- The lines of a file. -/
def cut (cur : Str) : Str → List Str
  | [] => if cur = [] then [] else [cur]
  | x :: xs => if x = newline then cur :: cut [] xs else cut (cur ++ [x]) xs

theorem cut_line {l : Str} (h : newline ∉ l) (cur rest : Str) :
    cut cur (l ++ newline :: rest) = (cur ++ l) :: cut [] rest := by
  induction l generalizing cur with
  | nil => simp [cut]
  | cons x xs ih =>
    have hx : x ≠ newline := fun e => h (by simp [e])
    have hxs : newline ∉ xs := fun m => h (by simp [m])
    simp only [List.cons_append, cut, if_neg hx]
    rw [ih hxs]
    simp

theorem cut_last {l : Str} (h : newline ∉ l) (cur : Str) (hne : cur ++ l ≠ []) : cut cur l = [cur ++ l] := by
  induction l generalizing cur with
  | nil =>
    rw [List.append_nil] at hne
    simp [cut, hne]
  | cons x xs ih =>
    have hx : x ≠ newline := fun e => h (by simp [e])
    have hxs : newline ∉ xs := fun m => h (by simp [m])
    simp only [cut, if_neg hx]
    rw [ih hxs _ (by simp)]
    simp

theorem cut_lines {ls : List Str} (h : ∀ l ∈ ls, newline ∉ l) (rest : Str) :
    cut [] (ls.flatMap (fun l => l ++ [newline]) ++ rest) = ls ++ cut [] rest := by
  induction ls with
  | nil => rfl
  | cons l ls ih =>
    simp only [List.flatMap_cons, List.append_assoc, List.cons_append, List.nil_append]
    rw [cut_line (h l (by simp)), ih (fun m hm => h m (by simp [hm]))]
    simp

theorem Text.cut {ls : List Str} {b : Str} (h : Text ls b) : cut [] b = ls := by
  obtain ⟨hn, rfl | ⟨i, l, rfl, hne, rfl⟩⟩ := h
  · have := cut_lines hn []
    simpa [ConfFiles.cut] using this
  · rw [cut_lines (fun m hm => hn m (by simp [hm])), cut_last (hn l (by simp)) [] (by simpa using hne)]
    simp

theorem Text.unique {ls ms : List Str} {b : Str} (h : Text ls b) (h' : Text ms b) : ls = ms :=
  h.cut.symm.trans h'.cut

theorem pieces_line {l : Str} (h : newline ∉ l) {room : Nat} (hr : l.length < room) (cur rest : Str) :
    pieces room cur (l ++ newline :: rest) = (cur ++ l ++ [newline]) :: pieces 4095 [] rest := by
  induction l generalizing cur room with
  | nil => simp [pieces]
  | cons x xs ih =>
    have hx : x ≠ newline := fun e => h (by simp [e])
    have hxs : newline ∉ xs := fun m => h (by simp [m])
    simp only [List.length_cons] at hr
    simp only [List.cons_append, pieces]
    rw [if_neg (by rintro (e | e); exact hx e; omega), ih hxs (by omega)]
    simp

theorem pieces_last {l : Str} (h : newline ∉ l) {room : Nat} (hr : l.length < room) (cur : Str)
    (hne : cur ++ l ≠ []) : pieces room cur l = [cur ++ l] := by
  induction l generalizing cur room with
  | nil =>
    rw [List.append_nil] at hne
    simp [pieces, hne]
  | cons x xs ih =>
    have hx : x ≠ newline := fun e => h (by simp [e])
    have hxs : newline ∉ xs := fun m => h (by simp [m])
    simp only [List.length_cons] at hr
    simp only [pieces]
    rw [if_neg (by rintro (e | e); exact hx e; omega), ih hxs (by omega) _ (by simp)]
    simp

theorem pieces_lines {ls : List Str} (h : ∀ l ∈ ls, newline ∉ l) (hs : ∀ l ∈ ls, l.length < 4095) (rest : Str) :
    pieces 4095 [] (ls.flatMap (fun l => l ++ [newline]) ++ rest) =
      ls.map (fun l => l ++ [newline]) ++ pieces 4095 [] rest := by
  induction ls with
  | nil => rfl
  | cons l ls ih =>
    simp only [List.flatMap_cons, List.append_assoc, List.cons_append, List.nil_append]
    rw [pieces_line (h l (by simp)) (hs l (by simp)),
      ih (fun m hm => h m (by simp [hm])) (fun m hm => hs m (by simp [hm]))]
    simp

theorem linesLoop_append (f : Str → Confs → Res) (a b : List Str) (c : Confs) :
    linesLoop f (a ++ b) c = match linesLoop f a c with
      | .undefined => .undefined
      | .done ok c' => match linesLoop f b c' with
        | .undefined => .undefined
        | .done ok' c'' => .done (ok && ok') c'' := by
  induction a generalizing c with
  | nil =>
    simp only [List.nil_append, linesLoop]
    cases linesLoop f b c <;> simp
  | cons l ls ih =>
    simp only [List.cons_append, linesLoop]
    cases f l c with
    | undefined => rfl
    | done ok c' =>
      simp only
      rw [ih]
      cases linesLoop f ls c' with
      | undefined => rfl
      | done ok1 c1 =>
        simp only
        cases linesLoop f b c1 with
        | undefined => rfl
        | done ok2 c2 => simp [Bool.and_assoc]

theorem linesLoop_congr {f g : Str → Confs → Res} {h : Str → Str} {ls : List Str}
    (e : ∀ l ∈ ls, f (h l) = g l) (c : Confs) : linesLoop f (ls.map h) c = linesLoop g ls c := by
  induction ls generalizing c with
  | nil => rfl
  | cons l ls ih =>
    simp only [List.map_cons, linesLoop]
    rw [e l (by simp)]
    cases g l c with
    | undefined => rfl
    | done ok c' => simp only; rw [ih (fun m hm => e m (by simp [hm]))]

theorem linesLoop_text {f : Str → Confs → Res} {ls : List Str} {b : Str} (ht : Text ls b)
    (hs : ∀ l ∈ ls, l.length < 4095) (e : ∀ l ∈ ls, f (l ++ [newline]) = f l) (c : Confs) :
    linesLoop f (pieces 4095 [] b) c = linesLoop f ls c := by
  obtain ⟨hn, rfl | ⟨i, l, rfl, hne, rfl⟩⟩ := ht
  · have := pieces_lines hn hs []
    simp only [List.append_nil] at this
    rw [this]
    simp only [pieces, if_true, List.append_nil]
    exact linesLoop_congr e c
  · rw [pieces_lines (fun m hm => hn m (by simp [hm])) (fun m hm => hs m (by simp [hm])),
      pieces_last (hn l (by simp)) (hs l (by simp)) [] (by simpa using hne), linesLoop_append, linesLoop_append,
      linesLoop_congr (g := f) (fun m hm => e m (by simp [hm]))]
    simp

/-! ### A newline at the end of a line does not matter -/

theorem isSpace_newline : isSpace newline = true := by decide

theorem dropWhile_space_newline (l : Str) :
    (l ++ [newline]).dropWhile isSpace = (if l.dropWhile isSpace = [] then [] else l.dropWhile isSpace ++ [newline]) := by
  induction l with
  | nil => simp [List.dropWhile, isSpace_newline]
  | cons x xs ih =>
    by_cases hx : isSpace x = true
    · simpa [List.dropWhile, hx] using ih
    · simp [List.dropWhile, hx]

theorem stripEnd_newline (l : Str) : stripEnd (l ++ [newline]) = stripEnd l := by
  simp [stripEnd, isSpace_newline]

theorem takeWhile_append_of_mem {p : Byte → Bool} {l : Str} (h : ∃ x ∈ l, p x = false) (r : Str) :
    (l ++ r).takeWhile p = l.takeWhile p ∧ (l ++ r).dropWhile p = l.dropWhile p ++ r := by
  induction l with
  | nil => obtain ⟨x, hx, -⟩ := h; cases hx
  | cons y ys ih =>
    simp only [List.cons_append, List.takeWhile, List.dropWhile]
    cases hy : p y with
    | false => simp
    | true =>
      obtain ⟨x, hx, hp⟩ := h
      rcases List.mem_cons.1 hx with rfl | hx
      · rw [hp] at hy; cases hy
      · have := ih ⟨x, hx, hp⟩
        simp [this.1, this.2]

theorem getPair_newline (l : Str) : getPair (l ++ [newline]) = getPair l := by
  unfold getPair
  rw [dropWhile_space_newline]
  cases hd : l.dropWhile isSpace with
  | nil => simp
  | cons c cs =>
    simp only [if_neg (List.cons_ne_nil c cs), List.cons_append]
    by_cases h35 : c = 35
    · simp [h35]
    · simp only [if_neg h35]
      have hc : (c :: (cs ++ [newline])).contains 61 = (c :: cs).contains 61 := by
        rw [Bool.eq_iff_iff]
        simp [newline]
      rw [hc]
      cases hk : (c :: cs).contains 61 with
      | false => simp
      | true =>
        have hm : ∃ x ∈ c :: cs, (fun b : Byte => decide (b ≠ 61)) x = false :=
          ⟨61, by simpa using hk, by decide⟩
        obtain ⟨h1, h2⟩ := takeWhile_append_of_mem hm [newline]
        rw [List.cons_append] at h1 h2
        simp only [Bool.not_true, Bool.false_eq_true, if_false]
        rw [h1, h2]
        have h3 : ((c :: cs).dropWhile (fun b : Byte => decide (b ≠ 61)) ++ [newline]).drop 1 =
            ((c :: cs).dropWhile (fun b : Byte => decide (b ≠ 61))).drop 1 ++ [newline] := by
          cases hq : (c :: cs).dropWhile (fun b : Byte => decide (b ≠ 61)) with
          | nil =>
            have h5 : ∀ q : Str, q.dropWhile (fun b : Byte => decide (b ≠ 61)) = [] → 61 ∉ q := by
              intro q
              induction q with
              | nil => simp
              | cons y ys ih =>
                intro hy
                by_cases h61 : y = 61
                · simp [List.dropWhile, h61] at hy
                · rw [List.dropWhile_cons_of_pos (by simpa using h61)] at hy
                  simp only [List.mem_cons, not_or]
                  exact ⟨fun e => h61 e.symm, ih hy⟩
            exact absurd (by simpa using hk) (h5 _ hq)
          | cons y ys => simp
        have h4 (q : Str) : stripEnd ((q ++ [newline]).dropWhile isSpace) = stripEnd (q.dropWhile isSpace) := by
          rw [dropWhile_space_newline]
          by_cases hz : q.dropWhile isSpace = []
          · rw [if_pos hz, hz]
          · rw [if_neg hz, stripEnd_newline]
        rw [h3, h4]

theorem cstr_self {s : Str} (h : 0 ∉ s) : Iobuf.cstr s = s := by
  unfold Iobuf.cstr
  induction s with
  | nil => rfl
  | cons x xs ih =>
    have hx : x ≠ 0 := fun e => h (by simp [e])
    rw [List.takeWhile_cons_of_pos (by simpa using hx), ih (fun m => h (by simp [m]))]

theorem takeWhile_no_newline {s : Str} (h : newline ∉ s) (r : Str) :
    (s ++ r).takeWhile (fun b => decide (b ≠ newline)) = s ++ r.takeWhile (fun b => decide (b ≠ newline)) := by
  induction s with
  | nil => rfl
  | cons x xs ih =>
    have hx : x ≠ newline := fun e => h (by simp [e])
    rw [List.cons_append, List.takeWhile_cons_of_pos (by simpa using hx), ih (fun m => h (by simp [m]))]
    rfl

theorem dot_prefix_newline {l : Str} (h : newline ∉ l) :
    (bytes ". ").isPrefixOf (l ++ [newline]) = (bytes ". ").isPrefixOf l := by
  have e : bytes ". " = [46, 32] := by decide
  rw [e]
  match l with
  | [] => decide
  | [x] => simp [List.isPrefixOf, newline]
  | x :: y :: zs => simp [List.isPrefixOf]

theorem line_newline (d : Disk) (env : Env) (load : Str → Confs → Res) (path : Str) {l : Str} (hz : 0 ∉ l)
    (hn : newline ∉ l) : line d env load path (l ++ [newline]) = line d env load path l := by
  have hz' : 0 ∉ l ++ [newline] := by
    simp only [List.mem_append, List.mem_singleton, not_or]
    exact ⟨hz, by decide⟩
  funext c
  unfold line
  simp only [cstr_self hz, cstr_self hz', dot_prefix_newline hn]
  by_cases hp : (bytes ". ").isPrefixOf l = true
  · have hl : l = bytes ". " ++ l.drop 2 := by
      obtain ⟨t, ht⟩ := List.isPrefixOf_iff_prefix.1 hp
      rw [← ht]
      simp [show (bytes ". ").length = 2 from by decide]
    have hd : (l ++ [newline]).drop 2 = l.drop 2 ++ [newline] := by
      rw [hl]
      have e : bytes ". " = [46, 32] := by decide
      rw [e]; simp
    have hnd : newline ∉ l.drop 2 := fun m => hn (List.mem_of_mem_drop m)
    have h2 := takeWhile_no_newline hnd []
    rw [List.append_nil] at h2
    rw [if_pos hp, if_pos hp, hd, takeWhile_no_newline hnd, h2]
    have e : ([newline] : Str).takeWhile (fun b => decide (b ≠ newline)) = [] := by decide
    rw [e, List.takeWhile_nil]
  · rw [if_neg hp, if_neg hp]
    have e : parsePair env c (l ++ [newline]) = parsePair env c l := by
      unfold parsePair
      rw [getPair_newline]
    rw [e]

theorem line_plain (d : Disk) (env : Env) (load : Str → Confs → Res) (path : Str) {l : Str} (hz : 0 ∉ l)
    (hp : ¬ bytes ". " <+: l) (c : Confs) : line d env load path l c = match parsePair env c l with
      | .undefined => .undefined
      | .error => .done false c
      | .ok c' => .done true c' := by
  unfold line
  simp only [cstr_self hz]
  rw [if_neg (by rwa [List.isPrefixOf_iff_prefix])]
  rfl

theorem line_include (d : Disk) (env : Env) (load : Str → Confs → Res) (path : Str) {name : Str} (hz : 0 ∉ name)
    (hn : newline ∉ name) (c : Confs) : line d env load path (bytes ". " ++ name) c =
      if name = [] then .done false c else dotInclude d load path name c := by
  have hz' : 0 ∉ bytes ". " ++ name := by
    simp only [List.mem_append, not_or]
    exact ⟨by decide, hz⟩
  have hd : (bytes ". " ++ name).drop 2 = name := by
    have e : bytes ". " = [46, 32] := by decide
    rw [e]; simp
  unfold line
  simp only [cstr_self hz']
  rw [if_pos (List.isPrefixOf_iff_prefix.2 (List.prefix_append _ _)), hd]
  have h2 := takeWhile_no_newline hn []
  rw [List.append_nil] at h2
  rw [h2]
  simp

/-! ### The names of files -/

theorem upToSlash_split {dir base : Str} (h : slash ∉ base) : upToSlash (dir ++ slash :: base) = dir := by
  unfold upToSlash
  rw [if_pos (by simp)]
  have : ∀ q r : Str, slash ∉ q → (q ++ slash :: r).dropWhile (fun b => decide (b ≠ slash)) = slash :: r := by
    intro q r hq
    induction q with
    | nil => simp
    | cons x xs ih =>
      have hx : x ≠ slash := fun e => hq (by simp [e])
      rw [List.cons_append, List.dropWhile_cons_of_pos (by simpa using hx)]
      exact ih (fun m => hq (by simp [m]))
  have e : (dir ++ slash :: base).reverse = base.reverse ++ slash :: dir.reverse := by simp
  rw [e, this _ _ (by simpa using h)]
  simp

theorem Named.pattern {path name p : Str} (h : Named path name p) : pattern path name = p := by
  unfold ConfFiles.pattern
  cases h with
  | absolute rest => simp
  | relative dir base name hp hb hd hn hs =>
    rw [if_neg hs, hp, upToSlash_split hb]
    cases dir with
    | nil => exact absurd rfl hd
    | cons x xs =>
      cases name with
      | nil => exact absurd rfl hn
      | cons y ys =>
        have hy : y ≠ slash := fun e => hs (by simp [e])
        simp [Prepend.prependS, Prepend.prependSlash, hy, Prepend.prependN, Prepend.prependLen]

theorem Named.ne_nil {path name p : Str} (h : Named path name p) : name ≠ [] := by
  cases h with
  | absolute rest => simp
  | relative dir base name hp hb hd hn hs => exact hn

/-! ### Reading gives the settings of the lines -/

theorem parsePairs_append (env : Env) (c : Confs) (a b : List Str) :
    parsePairs env c (a ++ b) = (parsePairs env c a).bind (fun c => parsePairs env c b) := by
  induction a generalizing c with
  | nil => rfl
  | cons l ls ih =>
    simp only [List.cons_append, parsePairs]
    cases parsePair env c l with
    | undefined => rfl
    | error => rfl
    | ok c' => exact ih c'

/-- What reading a file should come to. -/
def Reads (env : Env) (load : Str → Confs → Res) (R : Str → List Str → Prop) : Prop :=
  ∀ p c c', load p c = .done true c' ↔ ∃ ls, R p ls ∧ parsePairs env c ls = .ok c'

theorem loadAll_reads {env : Env} {load : Str → Confs → Res} {R : Str → List Str → Prop} (h : Reads env load R)
    (ps : List Str) (c c' : Confs) :
    loadAll load ps c = .done true c' ↔ ∃ ls, FilesLines R ps ls ∧ parsePairs env c ls = .ok c' := by
  induction ps generalizing c with
  | nil =>
    constructor
    · intro e
      injection e with _ e
      exact ⟨[], .nil, by rw [e]; rfl⟩
    · rintro ⟨ls, hf, hp⟩
      cases hf
      injection hp with hp
      rw [hp]; rfl
  | cons p ps ih =>
    unfold loadAll
    constructor
    · intro e
      split at e
      · rename_i c1 h1
        obtain ⟨l1, hr, hp1⟩ := (h p c c1).1 h1
        obtain ⟨l2, hf, hp2⟩ := (ih c1).1 e
        refine ⟨l1 ++ l2, .cons hr hf, ?_⟩
        rw [parsePairs_append, hp1]
        exact hp2
      · rename_i hne
        exact absurd e (hne c')
    · rintro ⟨ls, hf, hp⟩
      cases hf with
      | cons hr hf =>
        rename_i l1 l2
        rw [parsePairs_append] at hp
        cases h1 : parsePairs env c l1 with
        | undefined => rw [h1] at hp; cases hp
        | error => rw [h1] at hp; cases hp
        | ok c1 =>
          rw [h1] at hp
          rw [(h p c c1).2 ⟨l1, hr, h1⟩]
          exact (ih c1).2 ⟨l2, hf, hp⟩

theorem linesLoop_cons_ok {f : Str → Confs → Res} {l : Str} {ls : List Str} {c c' : Confs} :
    linesLoop f (l :: ls) c = .done true c' ↔ ∃ c1, f l c = .done true c1 ∧ linesLoop f ls c1 = .done true c' := by
  simp only [linesLoop]
  cases h1 : f l c with
  | undefined => simp
  | done ok c1 =>
    simp only
    cases h2 : linesLoop f ls c1 with
    | undefined =>
      simp only [reduceCtorEq, false_iff, not_exists, not_and, Res.done.injEq]
      rintro c2 ⟨-, rfl⟩
      rw [h2]; simp
    | done ok2 c2 =>
      simp only [Res.done.injEq, Bool.and_eq_true]
      constructor
      · rintro ⟨⟨rfl, rfl⟩, rfl⟩
        exact ⟨c1, ⟨rfl, rfl⟩, h2⟩
      · rintro ⟨c3, ⟨rfl, rfl⟩, h3⟩
        rw [h2] at h3
        injection h3 with h4 h5
        exact ⟨⟨rfl, h4⟩, h5⟩

theorem linesLoop_reads {d : Disk} {env : Env} {load : Str → Confs → Res} {R : Str → List Str → Prop}
    (h : Reads env load R) (path : Str) {ls : List Str}
    (hl : ∀ l ∈ ls, 0 ∉ l ∧ newline ∉ l ∧ ∀ name, l = bytes ". " ++ name → name ≠ [] → name.head? ≠ some slash →
      ∃ dir base, path = dir ++ slash :: base ∧ slash ∉ base ∧ dir ≠ []) (c c' : Confs) :
    linesLoop (line d env load path) ls c = .done true c' ↔
      ∃ out, LinesLines d R path ls out ∧ parsePairs env c out = .ok c' := by
  induction ls generalizing c with
  | nil =>
    constructor
    · intro e
      injection e with _ e
      exact ⟨[], .nil, by rw [e]; rfl⟩
    · rintro ⟨ls, hf, hp⟩
      cases hf
      injection hp with hp
      rw [hp]; rfl
  | cons l ls ih =>
    have ih := ih (fun m hm => hl m (by simp [hm]))
    obtain ⟨hz, hn, hrel⟩ := hl l (by simp)
    rw [linesLoop_cons_ok]
    constructor
    · rintro ⟨c1, h1, h2⟩
      obtain ⟨out, ho, hp⟩ := (ih c1).1 h2
      by_cases hpre : bytes ". " <+: l
      · obtain ⟨name, rfl⟩ := hpre
        have hz' : 0 ∉ name := fun m => hz (by simp [m])
        have hn' : newline ∉ name := fun m => hn (by simp [m])
        rw [line_include d env load path hz' hn'] at h1
        by_cases hne : name = []
        · rw [if_pos hne] at h1; cases h1
        · rw [if_neg hne] at h1
          have hnamed : Named path name (pattern path name) := by
            by_cases hs : name.head? = some slash
            · cases name with
              | nil => exact absurd rfl hne
              | cons y ys =>
                simp only [List.head?_cons, Option.some.injEq] at hs
                subst hs
                have := Named.absolute (path := path) ys
                rw [this.pattern]
                exact this
            · obtain ⟨dir, base, hp, hb, hd⟩ := hrel name rfl hne hs
              have := Named.relative (path := path) dir base name hp hb hd hne hs
              rw [this.pattern]
              exact this
          unfold dotInclude at h1
          split at h1
          · cases h1
          · rename_i p ps hg
            obtain ⟨outs, hf, hq⟩ := (loadAll_reads h _ _ _).1 h1
            refine ⟨outs ++ out, .includes hnamed (by rw [hg]; simp) (by rw [hg]; exact hf) ho, ?_⟩
            rw [parsePairs_append, hq]
            exact hp
      · rw [line_plain d env load path hz hpre] at h1
        refine ⟨l :: out, .plain hpre ho, ?_⟩
        simp only [parsePairs]
        split at h1
        · cases h1
        · cases h1
        · rename_i c2 h3
          injection h1 with _ h1
          rw [h3, h1]
          exact hp
    · rintro ⟨out, ho, hp⟩
      cases ho with
      | plain hpre ho =>
        rename_i out
        simp only [parsePairs] at hp
        cases h3 : parsePair env c l with
        | undefined => rw [h3] at hp; cases hp
        | error => rw [h3] at hp; cases hp
        | ok c1 =>
          rw [h3] at hp
          refine ⟨c1, ?_, (ih c1).2 ⟨out, ho, hp⟩⟩
          rw [line_plain d env load path hz hpre, h3]
      | includes hnamed hg hf ho =>
        rename_i name p out outs
        have hz' : 0 ∉ name := fun m => hz (by simp [m])
        have hn' : newline ∉ name := fun m => hn (by simp [m])
        rw [parsePairs_append] at hp
        cases h3 : parsePairs env c outs with
        | undefined => rw [h3] at hp; cases hp
        | error => rw [h3] at hp; cases hp
        | ok c1 =>
          rw [h3] at hp
          refine ⟨c1, ?_, (ih c1).2 ⟨out, ho, hp⟩⟩
          rw [line_include d env load path hz' hn', if_neg hnamed.ne_nil]
          unfold dotInclude
          rw [hnamed.pattern]
          cases hd : d.glob p with
          | nil => exact absurd hd hg
          | cons q qs =>
            simp only
            rw [← hd]
            exact (loadAll_reads h _ _ _).2 ⟨outs, hf, h3⟩

theorem mem_text {ls : List Str} {b l : Str} (h : Text ls b) (hl : l ∈ ls) {x : Byte} (hx : x ∈ l) : x ∈ b := by
  obtain ⟨-, rfl | ⟨i, m, rfl, -, rfl⟩⟩ := h
  · simp only [List.mem_flatMap]
    exact ⟨l, hl, by simp [hx]⟩
  · rcases List.mem_append.1 hl with hl | hl
    · simp only [List.mem_append, List.mem_flatMap]
      exact .inl ⟨l, hl, by simp [hx]⟩
    · simp only [List.mem_singleton] at hl
      subst hl
      simp [hx]

theorem loadFile_reads {d : Disk} (ht : Tidy d) (env : Env) (n : Nat) :
    Reads env (loadFile d env n) (FileLines d n) := by
  induction n with
  | zero => intro p c c'; simp [loadFile, FileLines]
  | succ n ih =>
    intro p c c'
    unfold loadFile FileLines
    cases hb : d.file p with
    | none => simp
    | some b =>
      simp only [Option.some.injEq]
      obtain ⟨hz, ls, htx, hls⟩ := ht p b hb
      have hn := htx.1
      have hz' : ∀ l ∈ ls, 0 ∉ l := fun l hl m => hz (mem_text htx hl m)
      rw [linesLoop_text htx (fun l hl => (hls l hl).1)
        (fun l hl => line_newline d env _ p (hz' l hl) (hn l hl)),
        linesLoop_reads ih p (fun l hl => ⟨hz' l hl, hn l hl, (hls l hl).2⟩)]
      constructor
      · rintro ⟨out, h1, h2⟩
        exact ⟨out, ⟨b, ls, rfl, htx, h1⟩, h2⟩
      · rintro ⟨out, ⟨b', ls', rfl, htx', h1⟩, h2⟩
        rw [htx'.unique htx] at h1
        exact ⟨out, h1, h2⟩

end Verif.ConfFiles
