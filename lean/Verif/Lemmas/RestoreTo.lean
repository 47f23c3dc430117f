import Verif.Spec.RestoreTo
import Verif.Lemmas.ConfineSteps

/-!
# Lemmas for the directory that is restored to
-/

namespace Verif.RestoreTo
open Verif Verif.Confine Verif.PathCmp

/-! ### Texts and parts -/

theorem parts_name {x r : Str} (hx : slash ∉ x) : parts (x ++ slash :: r) = x :: parts r := by
  induction x with
  | nil => rfl
  | cons c cs ih =>
    have hc : c ≠ slash := fun h => hx (by rw [h]; simp)
    have := ih (fun h => hx (List.mem_cons_of_mem _ h))
    rw [List.cons_append, parts, if_neg hc, this]

theorem parts_ne : ∀ r : Str, r ≠ [] → parts r ≠ [[]] := by
  intro r hr hp
  cases r with
  | nil => exact hr rfl
  | cons c cs =>
    rw [parts] at hp
    split at hp
    · injection hp with _ hp
      cases cs with
      | nil => cases hp
      | cons d ds =>
        rw [parts] at hp
        split at hp
        · cases hp
        · split at hp <;> cases hp
    · split at hp <;> cases hp

theorem sub_ne (path : Str) : sub path ≠ [[]] := by
  have key : ∀ r : Str, (if r = [] then [] else parts r) ≠ [[]] := by
    intro r
    split
    · simp
    · rename_i h; exact parts_ne r h
  unfold sub
  exact key _

theorem parts_flat (r : Str) : ∀ (l : List Name), (∀ c ∈ l, slash ∉ c) →
    parts (l.flatMap (fun x => slash :: x) ++ slash :: r) = [] :: (l ++ parts r)
  | [], _ => rfl
  | c :: cs, h => by
    have ih := parts_flat r cs (fun x hx => h x (List.mem_cons_of_mem _ hx))
    have hs : cs.flatMap (fun x => slash :: x) ++ slash :: r
      = slash :: (cs.flatMap (fun x => slash :: x) ++ slash :: r).tail := by
      cases cs <;> rfl
    have ht : parts (cs.flatMap (fun x => slash :: x) ++ slash :: r).tail = cs ++ parts r := by
      rw [hs] at ih
      have := List.cons.inj ih
      exact this.2
    rw [List.flatMap_cons, List.append_assoc, hs, List.cons_append]
    show [] :: parts (c ++ slash :: _) = _
    rw [parts_name (h c (by simp)), ht]
    rfl

theorem walk_stay {fs : FS} {fuel cur cs} (h : fs cur = some .dir) :
    walkR fs fuel cur ([] :: cs) = walkR fs fuel cur cs := by
  rw [walkR, if_pos h, if_pos (by decide)]

/-- The path that is looked up is the one of the text. -/
theorem wanted_names {fs : FS} (hg : GoodFS fs) {cwd : List Name} (hc : RealDir fs cwd) (pre : Str) :
    ∃ p, wanted (some cwd) pre = some p ∧ realpath fs p = realpath fs (parts (fullText cwd pre)) := by
  unfold wanted fullText
  by_cases h : pre.head? = some slash
  · rw [if_pos h, if_pos h]
    exact ⟨_, rfl, rfl⟩
  · rw [if_neg h, if_neg h]
    refine ⟨_, rfl, ?_⟩
    have hd := hc.dirs cwd (List.prefix_refl _)
    have hsub : realpath fs (cwd ++ sub pre) = walkR fs 40 cwd (parts pre) := by
      rw [realpath_along hc.canon]
      cases pre with
      | nil =>
        show walkR fs 40 cwd [] = walkR fs 40 cwd [[]]
        rw [walk_stay hd]
      | cons c cs =>
        have hcs : c ≠ slash := fun e => h (by rw [e]; rfl)
        have : sub (c :: cs) = parts (c :: cs) := by
          unfold sub
          simp only
          rw [if_neg hcs, if_neg (by simp)]
        rw [this]
    rw [hsub]
    have hroot : ∀ q, realpath fs ([] :: q) = realpath fs q := by
      intro q
      rw [realpath_walkR, realpath_walkR, walk_stay hg.root]
    have hns : ∀ c ∈ cwd, slash ∉ c := fun c hm => (hg.names cwd (by rw [hd]; simp) c hm).2.1
    cases hcw : cwd with
    | nil =>
      show walkR fs 40 [] (parts pre) = realpath fs (parts (slash :: slash :: pre))
      have : parts (slash :: slash :: pre) = [] :: [] :: parts pre := rfl
      rw [this, hroot, hroot, realpath_walkR]
    | cons a as =>
      rw [← hcw]
      have ht : toPath cwd = cwd.flatMap (fun x => slash :: x) := by rw [hcw]; rfl
      rw [ht, parts_flat pre cwd hns, hroot, realpath_along hc.canon]

/-! ### Making the directory -/

/-- What is found is found still when something is added. -/
theorem walk_mono {fs fs' : FS} (h : ∀ q, fs q ≠ none → fs' q = fs q) {fuel cur a p}
    (hw : walkR fs fuel cur a = .ok p) : walkR fs' fuel cur a = .ok p := by
  fun_induction walkR fs fuel cur a with
  | case1 => rw [walkR]; exact hw
  | case2 fuel cur c cs hd hs ih =>
    rw [walkR, if_pos (by rw [h _ (by rw [hd]; simp), hd]), if_pos hs]
    exact ih hw
  | case3 fuel cur c cs hd hs hu ih =>
    rw [walkR, if_pos (by rw [h _ (by rw [hd]; simp), hd]), if_neg hs, if_pos hu]
    exact ih hw
  | case4 => cases hw
  | case5 => cases hw
  | case6 cur c cs hd hs hu t hn fuel ih =>
    rw [walkR, if_pos (by rw [h _ (by rw [hd]; simp), hd]), if_neg hs, if_neg hu, h _ (by rw [hn]; simp), hn]
    exact ih hw
  | case7 fuel cur c cs hd hs hu hn ih =>
    rw [walkR, if_pos (by rw [h _ (by rw [hd]; simp), hd]), if_neg hs, if_neg hu, h _ (by rw [hn]; simp), hn]
    exact ih hw
  | case8 fuel cur c cs hd hs hu i hn ih =>
    rw [walkR, if_pos (by rw [h _ (by rw [hd]; simp), hd]), if_neg hs, if_neg hu, h _ (by rw [hn]; simp), hn]
    exact ih hw
  | case9 => cases hw

theorem walk_stays {fs : FS} {fuel cur} (h : fs cur = some .dir) : ∀ k : Nat,
    walkR fs fuel cur (List.replicate k []) = .ok cur
  | 0 => by rw [List.replicate_zero, walkR]
  | k + 1 => by rw [List.replicate_succ, walk_stay h]; exact walk_stays h k

theorem trim_eq (p : List Name) : ∃ k, p = trim p ++ List.replicate k [] := by
  unfold trim
  generalize hr : p.reverse = r
  have hp : p = r.reverse := by rw [← hr, List.reverse_reverse]
  subst hp
  clear hr
  induction r with
  | nil => exact ⟨0, rfl⟩
  | cons c cs ih =>
    by_cases hc : c = []
    · obtain ⟨k, hk⟩ := ih
      refine ⟨k + 1, ?_⟩
      rw [List.dropWhile_cons_of_pos (by simpa using hc), List.reverse_cons, hc]
      rw [List.replicate_succ', ← List.append_assoc, ← hk]
    · refine ⟨0, ?_⟩
      rw [List.dropWhile_cons_of_neg (by simpa using hc)]
      simp

/-- `mkdir` of a path with nothing there: nothing is done, or there is a directory then, and the path leads to it. -/
theorem mkdir_cases {fs : FS} (hg : GoodFS fs) (p : List Name) :
    ((mkdir ⟨fs, 0, []⟩ (trim p)).2.fs = fs)
    ∨ ∃ d, fs d = none ∧ Canon (put fs d (some .dir)) d ∧ (mkdir ⟨fs, 0, []⟩ (trim p)).2.fs = put fs d (some .dir)
      ∧ realpath (put fs d (some .dir)) p = .ok d
      ∧ ∃ e x, d = e ++ [x] ∧ fs e = some .dir ∧ x ∈ p ∧ isStay x = false := by
  unfold mkdir make
  rcases hl : locate fs (trim p) with ⟨d, c⟩ | q | _ | _
  · simp only
    by_cases hn : fs (d ++ [c]) = none
    · right
      rw [if_pos hn]
      refine ⟨d ++ [c], hn, ?_, rfl, ?_, ?_⟩ <;>
      · rcases List.eq_nil_or_concat (trim p) with h | ⟨a, x, h⟩
        · rw [h] at hl; cases hl
        · rw [List.concat_eq_append] at h
          rw [h, locate_snoc] at hl
          rcases ha : realpath fs a with e | _ | _
          · rw [ha] at hl
            simp only at hl
            by_cases hd : fs e = some .dir
            · rw [if_pos hd] at hl
              by_cases hs : isStay x
              · rw [if_pos hs] at hl; cases hl
              · rw [if_neg hs] at hl
                by_cases hu : isUp x
                · rw [if_pos hu] at hl; cases hl
                · rw [if_neg hu] at hl
                  have he : e = d ∧ x = c := by injection hl with h1 h2; exact ⟨h1, h2⟩
                  obtain ⟨he1, he2⟩ := he
                  subst he1; subst he2
                  have hmono : ∀ q, fs q ≠ none → put fs (e ++ [x]) (some .dir) q = fs q := by
                    intro q hq
                    show (if q = e ++ [x] then _ else fs q) = fs q
                    rw [if_neg (fun h => hq (by rw [h]; exact hn))]
                  have hnew : put fs (e ++ [x]) (some .dir) (e ++ [x]) = some .dir := by
                    show (if e ++ [x] = e ++ [x] then _ else _) = _
                    rw [if_pos rfl]
                  have hd' : put fs (e ++ [x]) (some .dir) e = some .dir := by
                    rw [hmono e (by rw [hd]; simp), hd]
                  rw [realpath_walkR] at ha
                  have ha' := walk_mono hmono ha
                  have hroot : put fs (e ++ [x]) (some .dir) [] = some .dir := by
                    rw [hmono [] (by rw [hg.root]; simp), hg.root]
                  have hce := walk_canon hroot (Canon.root hroot) ha'
                  first
                    | exact ⟨e, x, rfl, hd, by
                        obtain ⟨k, hk⟩ := trim_eq p
                        rw [hk, h]; simp, by simpa using hs⟩
                    | exact hce.snoc hd' ⟨by simpa using hs, by simpa using hu⟩ (by rw [hnew]; simp)
                    | (obtain ⟨k, hk⟩ := trim_eq p
                       obtain ⟨m, _, hm⟩ := walk_append (b := x :: List.replicate k []) ha'
                       rw [hk, h, List.append_assoc, realpath_walkR]
                       show walkR _ _ _ (a ++ (x :: List.replicate k [])) = _
                       rw [hm, walkR, if_pos hd', if_neg hs, if_neg hu, hnew]
                       exact walk_stays hnew k)
            · rw [if_neg hd] at hl; cases hl
          · rw [ha] at hl; cases hl
          · rw [ha] at hl; cases hl
    · left
      rw [if_neg hn]
  · exact .inl rfl
  · exact .inl rfl
  · exact .inl rfl

theorem parts_ne_nil (v : Str) : parts v ≠ [] := by
  cases v with
  | nil => decide
  | cons a b =>
    rw [parts]
    split
    · simp
    · split <;> simp

theorem parts_snoc {c : Str} (hc : slash ∉ c) : ∀ a : Str, parts (a ++ slash :: c) = parts a ++ [c]
  | [] => by
    have : ∀ c : Str, slash ∉ c → parts c = [c] := by
      intro c
      induction c with
      | nil => intro _; rfl
      | cons x xs ih =>
        intro h
        rw [parts, if_neg (fun e => h (by rw [e]; simp)), ih (fun e => h (List.mem_cons_of_mem _ e))]
    show [] :: parts c = _
    rw [this c hc]
    rfl
  | x :: xs => by
    have ih := parts_snoc hc xs
    rw [List.cons_append, parts, parts, ih]
    by_cases hx : x = slash
    · rw [if_pos hx, if_pos hx]; rfl
    · rw [if_neg hx, if_neg hx]
      have hne := parts_ne_nil xs
      generalize parts xs = l at hne
      cases l with
      | nil => exact absurd rfl hne
      | cons h t => rfl

/-- A new directory in a directory leaves a file system. -/
theorem put_good {fs : FS} (hg : GoodFS fs) {d : List Name} (hn : fs d = none)
    (hc : Canon (put fs d (some .dir)) d) (hnames : ∀ c ∈ d, GoodName c) : GoodFS (put fs d (some .dir)) := by
  have hval : ∀ q, q ≠ d → put fs d (some .dir) q = fs q := by
    intro q hq
    show (if q = d then _ else fs q) = fs q
    rw [if_neg hq]
  have hne : ([] : List Name) ≠ d := fun h => by rw [← h, hg.root] at hn; cases hn
  refine ⟨by rw [hval [] hne]; exact hg.root, ?_, ?_⟩
  · intro p c h
    by_cases hpc : p ++ [c] = d
    · exact hc.dirs p ⟨[c], hpc⟩ (fun e => by
        have := congrArg List.length hpc
        rw [e, List.length_append, List.length_singleton] at this
        omega)
    · rw [hval _ hpc] at h
      have := hg.tree p c h
      rw [hval p (fun e => by rw [e, hn] at this; cases this)]
      exact this
  · intro p h c hm
    by_cases hp : p = d
    · exact hnames c (hp ▸ hm)
    · rw [hval _ hp] at h
      exact hg.names p h c hm

theorem wanted_part {fs : FS} (hg : GoodFS fs) {cwd : List Name} (hc : RealDir fs cwd) {pre : Str} (hn : NoNul pre)
    {p : List Name} (h : wanted (some cwd) pre = some p) : ∀ x ∈ p, PartName x := by
  unfold wanted at h
  split at h
  · injection h with h; subst h
    exact parts_mem hn
  · injection h with h; subst h
    intro x hx
    rcases List.mem_append.mp hx with hx | hx
    · have := hg.names cwd (by rw [hc.dirs cwd (List.prefix_refl _)]; simp) x hx
      exact ⟨this.2.1, this.2.2⟩
    · exact sub_mem hn x hx

/-- How it can end. -/
theorem desired_cases {fs : FS} (hg : GoodFS fs) {cwd : List Name} (hc : RealDir fs cwd) {pre : Str} (hn : NoNul pre) :
    (∃ d, desiredDir (some cwd) pre fs = (some d, fs) ∧ Names fs cwd pre d ∧ Canon fs d)
    ∨ (desiredDir (some cwd) pre fs = (none, fs) ∧ ∀ d, ¬ Names fs cwd pre d)
    ∨ ∃ d, desiredDir (some cwd) pre fs = (some d, put fs d (some .dir)) ∧ fs d = none
      ∧ GoodFS (put fs d (some .dir)) ∧ Names (put fs d (some .dir)) cwd pre d
      ∧ Canon (put fs d (some .dir)) d ∧ RealDir (put fs d (some .dir)) cwd
      ∧ realpath fs (parts (fullText cwd pre)) = .noent := by
  obtain ⟨p, hp, hr⟩ := wanted_names hg hc pre
  unfold desiredDir Names
  rw [hp]
  simp only
  rcases hq : realpath fs p with d | _ | _
  · left
    refine ⟨d, rfl, by rw [← hr, hq], ?_⟩
    rw [realpath_walkR] at hq
    exact walk_canon hg.root (Canon.root hg.root) hq
  · simp only
    rw [hq] at hr
    rcases mkdir_cases hg p with h | ⟨d, hd, hcan, hfs, hre, e, x, hde, he, hx, hxs⟩
    · right; left
      rw [h, hq]
      exact ⟨rfl, fun d hd => by rw [← hr] at hd; cases hd⟩
    · right; right
      refine ⟨d, by rw [hfs, hre], hd, ?_, ?_, hcan, ?_, hr.symm⟩
      · refine put_good hg hd hcan ?_
        intro c hm
        rw [hde] at hm
        rcases List.mem_append.mp hm with hm | hm
        · exact hg.names e (by rw [he]; simp) c hm
        · rw [List.mem_singleton.mp hm]
          exact (wanted_part hg hc hn hp x hx).good hxs
      all_goals
        have hval : ∀ q, fs q ≠ none → put fs d (some .dir) q = fs q := by
          intro q hq
          show (if q = d then _ else fs q) = fs q
          rw [if_neg (fun h => hq (by rw [h]; exact hd))]
        have hcw : RealDir (put fs d (some .dir)) cwd :=
          ⟨fun q hq => by rw [hval q (by rw [hc.dirs q hq]; simp)]; exact hc.dirs q hq, hc.plain⟩
        first
          | exact hcw
          | (have hgood : GoodFS (put fs d (some .dir)) := by
               refine put_good hg hd hcan ?_
               intro c hm
               rw [hde] at hm
               rcases List.mem_append.mp hm with hm | hm
               · exact hg.names e (by rw [he]; simp) c hm
               · rw [List.mem_singleton.mp hm]
                 exact (wanted_part hg hc hn hp x hx).good hxs
             obtain ⟨p', hp', hr'⟩ := wanted_names hgood hcw pre
             rw [hp] at hp'
             injection hp' with hp'
             rw [← hr', ← hp', hre])
  · right; left
    rw [hq] at hr
    exact ⟨rfl, fun d hd => by rw [← hr] at hd; cases hd⟩

/-! ### What is named is a file -/

/-- Nothing has been done. -/
def Same (s s' : State) : Prop := s'.fs = s.fs ∧ s'.effs = s.effs

theorem make_err {s : State} {p n} (h : locate s.fs p = .err) : make s p n = (false, s) := by
  unfold make; rw [h]

theorem act_err {s : State} {dir p e} (hm : mkpath s p = (true, s)) (hl : locate s.fs p = .err)
    (hr : realpath s.fs p = .err) (hs : e.cmd = .special → e.mode ≠ .sock) : Same s (act s dir p e) := by
  have ht : target s.fs p = none := by unfold target; rw [hl]
  have hls : lstat s.fs p = none := by unfold lstat; rw [ht]; rfl
  have hown : lchown s p = (false, s) := by unfold lchown; rw [ht]
  have hch : chmod s p = (false, s) := by unfold chmod; rw [hr]
  have hun : unlink s p = (some false, s) := by unfold unlink; rw [hl]
  have hwr : writeExisting s p = (false, s) := by unfold writeExisting; rw [hl]
  have hdir : ∀ m, restoreDir s p m = s := by
    intro m
    unfold restoreDir
    rw [hm]
    simp only
    rw [if_neg (by rw [hls]; simp)]
    unfold mkdir
    rw [make_err hl]
  have hmk : makeFile s p = (false, { s with next := s.next + 1 }) := by
    unfold makeFile
    exact make_err hl
  have hfile : ∀ m, restoreFile s p m = s := by
    intro m
    unfold restoreFile
    rw [hm]
    simp only
    by_cases hmd : m = .dir
    · rw [if_pos hmd]
      unfold mkdir
      rw [make_err hl]
      simp only
      rw [hwr]
    · rw [if_neg hmd, hun]
  have hmeta : ∀ m a, restoreMeta s p m a = s := by
    intro m a
    unfold restoreMeta
    simp only
    have : (if m = .dir then restoreDir s p m else s) = s := by
      split
      · exact hdir m
      · rfl
    rw [this, hm]
    simp only
    have : (if a then (chmod s p).2 else s) = s := by
      split
      · rw [hch]
      · rfl
    rw [this, hown]
  have hlink : ∀ e, restoreLink s dir p e = s := by
    intro e
    unfold restoreLink
    rw [hm]
    simp only
    rw [hun]
    simp only
    have hh : (if e.hard then hardLink s (dir ++ sub e.link) p else make s p (.lnk e.link)) = (false, s) := by
      split
      · unfold hardLink
        split
        · rfl
        · rfl
        · exact make_err hl
      · exact make_err hl
    rw [hh]
  have hsp : ∀ m, m ≠ .sock → Same s (restoreSpecial s p m) := by
    intro m hms
    unfold restoreSpecial
    rw [hm]
    simp only
    rw [if_neg hms]
    by_cases hmm : m = .dir ∨ m = .lnk
    · rw [if_pos hmm]
      simp only
      rw [hls]
      exact ⟨rfl, rfl⟩
    · rw [if_neg hmm, hmk]
      simp only
      rw [hls]
      exact ⟨rfl, rfl⟩
  unfold act
  cases hcmd : e.cmd <;> simp only [] <;> first
    | exact ⟨rfl, rfl⟩
    | (rw [hdir]; exact ⟨rfl, rfl⟩)
    | (rw [hlink]; exact ⟨rfl, rfl⟩)
    | (rw [hfile]; exact ⟨rfl, rfl⟩)
    | (rw [hmeta]; exact ⟨rfl, rfl⟩)
    | exact hsp _ (hs hcmd)

theorem walk_file {fs : FS} {fuel cur c cs} (h : fs cur ≠ some .dir) : walkR fs fuel cur (c :: cs) = .err := by
  rw [walkR, if_neg h]

/-- Below a file there is nothing to go to. -/
theorem canonicalise_file {fs : FS} (hg : GoodFS fs) {D : List Name} (hc : Canon fs D) (hf : fs D ≠ some .dir)
    {path : Str} {p : List Name} (h : canonicalise fs D (D ++ sub path) = some p) : ∃ c, p = D ++ [c] := by
  unfold canonicalise at h
  rcases List.eq_nil_or_concat (sub path) with hs | ⟨a, x, hs⟩
  · rw [hs, List.append_nil] at h
    rcases List.eq_nil_or_concat D with hD | ⟨b, y, hD⟩
    · rw [hD] at hf; exact absurd hg.root hf
    · rw [List.concat_eq_append] at hD
      have hcb : Canon fs b := hc.pre ⟨[y], hD.symm⟩
      have hloop : canonLoop fs D.reverse [] = some (b, [y]) := by
        rw [hD, List.reverse_append]
        show canonLoop fs (y :: b.reverse) [] = _
        unfold canonLoop
        rw [List.reverse_reverse, realpath_canon hcb]
      rw [hloop] at h
      simp only at h
      split at h
      · cases h
      · rename_i hsub
        rw [toPath_eq, toPath_eq] at hsub
        have := (isSubdir_render (hg.names D hc.node.1) (hg.names b hcb.node.1)).mp hsub
        have := this.length_le
        rw [hD, List.length_append, List.length_singleton] at this
        omega
  · rw [List.concat_eq_append] at hs
    cases a with
    | nil =>
      rw [hs] at h
      have hloop : canonLoop fs (D ++ ([] ++ [x])).reverse [] = some (D, [x]) := by
        rw [List.nil_append, List.reverse_append]
        show canonLoop fs (x :: D.reverse) [] = _
        unfold canonLoop
        rw [List.reverse_reverse, realpath_canon hc]
      rw [hloop] at h
      simp only at h
      split at h
      · cases h
      · split at h
        · rename_i hx
          -- a single empty part does not come from a path
          exfalso
          have hx : x = [] := by injection hx
          subst hx
          exact sub_ne path hs
        · injection h with h
          exact ⟨x, h.symm⟩
    | cons b bs =>
      rw [hs] at h
      have hloop : canonLoop fs (D ++ (b :: bs ++ [x])).reverse [] = none := by
        rw [← List.append_assoc, List.reverse_append]
        show canonLoop fs (x :: (D ++ b :: bs).reverse) [] = _
        unfold canonLoop
        rw [List.reverse_reverse, realpath_along hc, walk_file hf]
      rw [hloop] at h
      cases h

theorem step_file {o : Options} {D : List Name} {s : State} {e : Entry} (hg : GoodFS s.fs) (hc : Canon s.fs D)
    (hf : s.fs D ≠ some .dir) (hs : ∀ e', stripped o e = some e' → e'.cmd = .special → e'.mode ≠ .sock) :
    Same s (entryStep o D s e) := by
  unfold entryStep
  split
  · exact ⟨rfl, rfl⟩
  · rename_i e' he
    split
    · exact ⟨rfl, rfl⟩
    · rename_i p hp
      split
      · obtain ⟨c, rfl⟩ := canonicalise_file hg hc hf hp
        refine act_err ?_ ?_ ?_ (hs e' he)
        · unfold mkpath
          rw [List.reverse_append]
          exact mkpathR_canon (by simpa using hc)
        · rw [locate_snoc, realpath_canon hc]
          simp only
          rw [if_neg hf]
        · rw [realpath_along hc, walk_file hf]
      · exact ⟨rfl, rfl⟩

theorem restore_file {o : Options} {D : List Name} {fs : FS} (hg : GoodFS fs) (hc : Canon fs D)
    (hf : fs D ≠ some .dir) : ∀ (es : List Entry) (s : State), s.fs = fs →
    (∀ e ∈ es, ∀ e', stripped o e = some e' → e'.cmd = .special → e'.mode ≠ .sock) →
    Same s (es.foldl (entryStep o D) s)
  | [], s, _, _ => ⟨rfl, rfl⟩
  | e :: es, s, hs, h => by
    rw [List.foldl_cons]
    have h1 : Same s (entryStep o D s e) :=
      step_file (hs ▸ hg) (hs ▸ hc) (hs ▸ hf) (h e (by simp))
    have h2 := restore_file hg hc hf es (entryStep o D s e) (h1.1.trans hs)
      (fun x hx => h x (List.mem_cons_of_mem _ hx))
    exact ⟨h2.1.trans h1.1, h2.2.trans h1.2⟩

end Verif.RestoreTo
