import Verif.Spec.CaClient
import Verif.Props.ConfLine

/-!
# C84: a client gets its certificate
-/

namespace Verif
open Verif ConfLine CaClient

namespace CaClient

/-! ### The configuration file -/

/-- The pieces a file is read in, but for the last. -/
def Piece (l : Str) : Prop :=
  (∃ b, l = b ++ [newline] ∧ newline ∉ b ∧ b.length < 4095) ∨ (l.length = 4095 ∧ newline ∉ l)

/-- The last piece may be shorter. -/
def Pieces : List Str → Prop
  | [] => True
  | [l] => Piece l ∨ (l ≠ [] ∧ newline ∉ l ∧ l.length < 4095)
  | l :: ls => Piece l ∧ Pieces ls

theorem Pieces.cons {l : Str} {ls : List Str} (h : Piece l) (hs : Pieces ls) : Pieces (l :: ls) := by
  cases ls with
  | nil => exact Or.inl h
  | cons a as => exact ⟨h, hs⟩

theorem gets_pieces (s : Str) : ∀ cur, newline ∉ cur → cur.length < 4095 → Pieces (gets cur s) ∧
    (gets cur s).flatten = cur ++ s := by
  induction s with
  | nil =>
    intro cur h1 h2
    unfold gets
    split
    · rename_i h; subst h; exact ⟨trivial, rfl⟩
    · rename_i h; exact ⟨Or.inr ⟨h, h1, h2⟩, by simp⟩
  | cons x xs ih =>
    intro cur h1 h2
    unfold gets
    split
    · rename_i h
      have := ih [] (by simp) (by decide)
      refine ⟨Pieces.cons ?_ this.1, by rw [List.flatten_cons, this.2]; simp⟩
      by_cases hx : x = newline
      · exact Or.inl ⟨cur, by rw [hx], h1, h2⟩
      · refine Or.inr ⟨?_, ?_⟩
        · rcases h with h | h
          · exact absurd h hx
          · exact h
        · simp [h1, Ne.symm hx]
    · rename_i h
      rw [not_or] at h
      have hlen : (cur ++ [x]).length < 4095 := by
        have := h.2
        simp only [List.length_append, List.length_cons, List.length_nil] at this ⊢
        omega
      have := ih (cur ++ [x]) (by simp [h1, Ne.symm h.1]) hlen
      exact ⟨this.1, by rw [this.2]; simp⟩

theorem gets_append (b : Str) : ∀ (cur rest : Str), newline ∉ b → (cur ++ b).length < 4095 →
    gets cur (b ++ rest) = gets (cur ++ b) rest := by
  induction b with
  | nil => intro cur rest _ _; simp
  | cons x xs ih =>
    intro cur rest h1 h2
    simp only [List.mem_cons, not_or] at h1
    rw [List.cons_append, gets, if_neg, ih (cur ++ [x]) rest h1.2 (by simpa using h2)]
    · simp
    · rw [not_or]
      refine ⟨Ne.symm h1.1, ?_⟩
      simp only [List.length_append, List.length_cons, List.length_nil] at h2 ⊢
      omega

theorem gets_piece {l : Str} (h : Piece l) (rest : Str) : gets [] (l ++ rest) = l :: gets [] rest := by
  rcases h with ⟨b, rfl, h1, h2⟩ | ⟨h1, h2⟩
  · rw [List.append_assoc, gets_append b [] _ h1 (by simpa using h2)]
    simp [gets]
  · have hne : l ≠ [] := by intro h; rw [h] at h1; cases h1
    have e := List.dropLast_concat_getLast hne
    have hl : l.dropLast.length < 4095 := by rw [List.length_dropLast]; omega
    have hn : newline ∉ l.dropLast := fun h => h2 (List.dropLast_subset l h)
    conv => lhs; rw [← e]
    rw [List.append_assoc, gets_append _ [] _ hn (by simpa using hl), List.singleton_append, List.nil_append, gets,
      if_pos (Or.inr (by rw [e]; exact h1)), e]

/-- What was read in pieces and written in pieces is read in the same pieces. -/
theorem gets_flatten : ∀ (ls : List Str), Pieces ls → gets [] ls.flatten = ls
  | [], _ => rfl
  | [l], h => by
    rcases h with h | ⟨h1, h2, h3⟩
    · have := gets_piece h []
      simpa [gets] using this
    · have := gets_append l [] [] h2 (by simpa using h3)
      simpa [gets, h1] using this
  | l :: m :: ls, h => by
    rw [List.flatten_cons, gets_piece h.1, gets_flatten (m :: ls) h.2]

theorem name_line {name : Str} (h : CleanName name) :
    Piece (bytes "ssl_peer_cn = " ++ name ++ [newline]) ∧
      getPair (bytes "ssl_peer_cn = " ++ name ++ [newline]) = .pair (bytes "ssl_peer_cn") name false := by
  obtain ⟨h1, h2, h3⟩ := h
  refine ⟨Or.inl ⟨_, rfl, ?_, ?_⟩, ?_⟩
  · rw [List.mem_append, not_or]; exact ⟨by decide +kernel, h2⟩
  · rw [List.length_append]
    have : (bytes "ssl_peer_cn = ").length = 14 := by decide +kernel
    omega
  · have e : bytes "ssl_peer_cn = " ++ name ++ [newline] =
        [] ++ bytes "ssl_peer_cn" ++ [space] ++ [61] ++ ([space] ++ name ++ [newline]) := by
      have : bytes "ssl_peer_cn = " = bytes "ssl_peer_cn" ++ [space] ++ [61] ++ [space] := by decide +kernel
      rw [this]; simp
    rw [e]
    exact C52_unquoted [] (bytes "ssl_peer_cn") [space] [space] name [newline]
      (by unfold Blank; decide +kernel) (by unfold GoodField; decide +kernel) (by unfold Blank; decide +kernel)
      (by unfold Blank; decide +kernel) (by unfold Blank; decide +kernel) h3

theorem rewriteLine_spec {name l a : Str} (hn : CleanName name) (h : rewriteLine name l = some a) :
    (a = l ∨ Piece a) ∧ getPair a = withName name (getPair l) := by
  unfold rewriteLine at h
  cases hp : getPair l with
  | undefined => rw [hp] at h; cases h
  | error => rw [hp] at h; injection h with h; subst h; exact ⟨Or.inl rfl, hp⟩
  | blank => rw [hp] at h; injection h with h; subst h; exact ⟨Or.inl rfl, hp⟩
  | pair f v r =>
    rw [hp] at h
    simp only [] at h
    by_cases hf : f = bytes "ssl_peer_cn"
    · rw [if_pos hf] at h
      injection h with h; subst h
      refine ⟨Or.inr (name_line hn).1, ?_⟩
      rw [(name_line hn).2, withName, if_pos hf, hf]
    · rw [if_neg hf] at h
      injection h with h; subst h
      refine ⟨Or.inl rfl, ?_⟩
      rw [hp, withName, if_neg hf]

theorem rewriteLines_spec {name : Str} (hn : CleanName name) : ∀ (ls as : List Str), Pieces ls →
    rewriteLines name ls = some as → Pieces as ∧ as.map getPair = (ls.map getPair).map (withName name) ∧
      (as = [] ↔ ls = [])
  | [], as, _, h => by
    injection h with h; subst h; exact ⟨trivial, rfl, Iff.rfl⟩
  | l :: ls, as, hp, h => by
    unfold rewriteLines at h
    cases ha : rewriteLine name l with
    | none => rw [ha] at h; cases h
    | some a =>
      cases hs : rewriteLines name ls with
      | none => rw [ha, hs] at h; cases h
      | some bs =>
        rw [ha, hs] at h
        injection h with h; subst h
        have hl := rewriteLine_spec hn ha
        have hps : Pieces ls := by
          cases ls with
          | nil => trivial
          | cons => exact hp.2
        have ih := rewriteLines_spec hn ls bs hps hs
        refine ⟨?_, by simp [hl.2, ih.2.1], by simp⟩
        cases bs with
        | nil =>
          have : ls = [] := ih.2.2.1 rfl
          subst this
          rcases hl.1 with e | e
          · rw [e]; exact hp
          · exact Or.inl e
        | cons b bs =>
          cases ls with
          | nil => exact absurd (ih.2.2.2 rfl) (by simp)
          | cons m ms =>
            refine ⟨?_, ih.1⟩
            rcases hl.1 with e | e
            · rw [e]; exact hp.1
            · exact e

/-! ### The file system -/

theorem runAll_append (fs : FS) (a b : List Op) : runAll fs (a ++ b) = runAll (runAll fs a) b := by
  unfold runAll; exact List.foldl_append

theorem run_untouched (o : Op) (fs : FS) (p : Str) (h : p ∉ o.touches) : o.run fs p = fs p := by
  cases o with
  | put q s => simp [Op.touches] at h; simp [Op.run, h]
  | del q => simp [Op.touches] at h; simp [Op.run, h]
  | mv a b =>
    simp [Op.touches] at h
    cases ha : fs a with
    | none => simp [Op.run, ha]
    | some s => simp [Op.run, ha, h]

theorem runAll_untouched (ops : List Op) (p : Str) (h : ∀ o ∈ ops, p ∉ o.touches) :
    ∀ fs : FS, runAll fs ops p = fs p := by
  induction ops with
  | nil => intro fs; rfl
  | cons o ops ih =>
    intro fs
    show runAll (o.run fs) ops p = fs p
    rw [ih (fun x hx => h x (by simp [hx])), run_untouched o fs p (h o (by simp))]

end CaClient

/-- C84: when the configuration file is written anew with the name of the server, the settings in it are those that
were there, in the same order, with the name of the server put in. -/
theorem C84_settings (name content new : Str) (hn : CleanName name) (h : rewritten name content = some new) :
    settings new = (settings content).map (withName name) := by
  unfold rewritten at h
  cases hr : rewriteLines name (gets [] content) with
  | none => rw [hr] at h; cases h
  | some as =>
    rw [hr] at h
    injection h with h
    have hp := (gets_pieces content [] (by simp) (by decide)).1
    have := rewriteLines_spec hn _ as hp hr
    unfold settings
    rw [← h, gets_flatten as this.1, this.2.1]

namespace CaClient

/-- What the setup may write to. -/
theorem cleanup_touches (n : Paths) (t : Bool) (o : Op) (ho : o ∈ cleanup n t) :
    ∀ p ∈ o.touches, p ∈ [n.key, n.csr, n.cert, n.ca, n.tmp n.cert, n.tmp n.ca] := by
  unfold cleanup at ho
  cases t
  · simp at ho
    rcases ho with rfl | rfl | rfl | rfl <;> simp [Op.touches]
  · simp at ho
    rcases ho with rfl | rfl | rfl | rfl | rfl | rfl <;> simp [Op.touches]

/-- What is written up to the renaming of the certificates. -/
def mainOps (n : Paths) (w : World) : List Op :=
  w.generated ++ [.put (n.tmp n.cert) w.cert, .put (n.tmp n.ca) w.ca, .mv (n.tmp n.cert) n.cert, .mv (n.tmp n.ca) n.ca]

theorem rewriteConf_fail {n : Paths} {w : World} {name : Str} {fs : FS} {p : List Op} {r : Int}
    (h : rewriteConf n w name fs = .done p r) (hr : r ≠ 0) : ∀ o ∈ p, ∀ q ∈ o.touches, q = n.tmp n.conf := by
  unfold rewriteConf at h
  simp only [] at h
  split at h
  · injection h with h1 h2; subst h1
    intro o ho q hq
    simp at ho; subst ho; simpa [Op.touches] using hq
  · split at h
    · cases h
    · split at h
      · injection h with h1 h2; subst h1
        intro o ho q hq
        simp at ho
        rcases ho with rfl | rfl <;> simpa [Op.touches] using hq
      · split at h
        · injection h with h1 h2; exact absurd h2.symm hr
        · split at h
          · injection h with h1 h2; subst h1
            intro o ho q hq
            simp at ho
            rcases ho with rfl | rfl <;> simpa [Op.touches] using hq
          · injection h with h1 h2; exact absurd h2.symm hr

/-- The runs that do something: how far it gets. -/
theorem setup_cases (n : Paths) (set : Bool) (peer : Str) (w : World) (fs : FS) (ops : List Op) (r : Int)
    (h : setup n set peer w fs = .done ops r) :
    (ops = [] ∧ (r = 0 ∨ r = -1) ∧ (r = 0 → set = false ∨ (fs n.key).isSome = true)) ∨
    (set = true ∧ fs n.key = none ∧ ∃ name, w.answer = some (bytes "csr ok:" ++ name) ∧
      ((r = -1 ∧ ∃ mid t, ops = w.generated ++ mid ++ cleanup n t ∧ (t = false → mid = []) ∧
          (∀ o ∈ mid, ∀ p ∈ o.touches, p ∈ [n.cert, n.ca, n.tmp n.cert, n.tmp n.ca, n.tmp n.conf])) ∨
        (r = 1 ∧ w.generatedOk = true ∧ w.certOk = true ∧ w.caOk = true ∧
          ∃ p, ops = mainOps n w ++ p ∧
          ((name <+: peer ∧ p = []) ∨ (¬ name <+: peer ∧
            rewriteConf n w name (runAll fs (mainOps n w)) = .done p 0))))) := by
  unfold setup at h
  by_cases h1 : (!set || (fs n.key).isSome) = true
  · rw [if_pos h1] at h
    injection h with h2 h3
    refine Or.inl ⟨h2.symm, ?_, ?_⟩
    · rw [← h3]; split
      · exact Or.inl rfl
      · exact Or.inr rfl
    · intro _
      cases set
      · exact Or.inl rfl
      · right; simpa using h1
  · rw [if_neg h1] at h
    have hset : set = true ∧ fs n.key = none := by
      cases set
      · simp at h1
      · refine ⟨rfl, ?_⟩
        cases hk : fs n.key with
        | none => rfl
        | some v => rw [hk] at h1; simp at h1
    cases ha : w.answer with
    | none =>
      rw [ha] at h; injection h with h2 h3
      exact Or.inl ⟨h2.symm, Or.inr h3.symm, fun h => by rw [← h3] at h; cases h⟩
    | some a =>
      rw [ha] at h
      simp only [] at h
      by_cases hp : (!(bytes "csr ok:").isPrefixOf a) = true
      · rw [if_pos hp] at h; injection h with h2 h3
        exact Or.inl ⟨h2.symm, Or.inr h3.symm, fun h => by rw [← h3] at h; cases h⟩
      · rw [if_neg hp] at h
        have hpre : bytes "csr ok:" <+: a := by
          rw [← List.isPrefixOf_iff_prefix]; simpa using hp
        obtain ⟨name, hname⟩ := hpre
        have hdrop : a.drop 7 = name := by
          rw [← hname]
          have : (bytes "csr ok:").length = 7 := by decide +kernel
          rw [← this, List.drop_left]
        rw [hdrop] at h
        refine Or.inr ⟨hset.1, hset.2, name, by rw [hname], ?_⟩
        by_cases hg : (!w.generatedOk) = true
        · rw [if_pos hg] at h; injection h with h2 h3
          exact Or.inl ⟨h3.symm, [], false, by simp [← h2], fun _ => rfl, by simp⟩
        rw [if_neg hg] at h
        by_cases hs : (!w.sent) = true
        · rw [if_pos hs] at h; injection h with h2 h3
          exact Or.inl ⟨h3.symm, [], false, by simp [← h2], fun _ => rfl, by simp⟩
        rw [if_neg hs] at h
        by_cases hc : (!w.certOk) = true
        · rw [if_pos hc] at h; injection h with h2 h3
          exact Or.inl ⟨h3.symm, [.put (n.tmp n.cert) w.cert], true, by simp [← h2], by simp, by simp [Op.touches]⟩
        rw [if_neg hc] at h
        by_cases hca : (!w.caOk) = true
        · rw [if_pos hca] at h; injection h with h2 h3
          exact Or.inl ⟨h3.symm, [.put (n.tmp n.cert) w.cert, .put (n.tmp n.ca) w.ca], true, by simp [← h2], by simp,
            by simp [Op.touches]⟩
        rw [if_neg hca] at h
        by_cases hm : (!w.mvCert) = true
        · rw [if_pos hm] at h; injection h with h2 h3
          exact Or.inl ⟨h3.symm, [.put (n.tmp n.cert) w.cert, .put (n.tmp n.ca) w.ca], true, by simp [← h2], by simp,
            by simp [Op.touches]⟩
        rw [if_neg hm] at h
        by_cases hma : (!w.mvCa) = true
        · rw [if_pos hma] at h; injection h with h2 h3
          exact Or.inl ⟨h3.symm, [.put (n.tmp n.cert) w.cert, .put (n.tmp n.ca) w.ca, .mv (n.tmp n.cert) n.cert], true,
            by simp [← h2], by simp, by simp [Op.touches]⟩
        rw [if_neg hma] at h
        have hmain : w.generated ++ [Op.put (n.tmp n.cert) w.cert] ++ [Op.put (n.tmp n.ca) w.ca] ++
            [Op.mv (n.tmp n.cert) n.cert] ++ [Op.mv (n.tmp n.ca) n.ca] = mainOps n w := by simp [mainOps]
        rw [hmain] at h
        by_cases hn : name.isPrefixOf peer = true
        · rw [if_pos hn] at h; injection h with h2 h3
          exact Or.inr ⟨h3.symm, by simpa using hg, by simpa using hc, by simpa using hca, [], by simp [← h2],
            Or.inl ⟨List.isPrefixOf_iff_prefix.1 hn, rfl⟩⟩
        · rw [if_neg hn] at h
          cases hr : rewriteConf n w name (runAll fs (mainOps n w)) with
          | undefined => rw [hr] at h; cases h
          | done p q =>
            rw [hr] at h
            simp only [] at h
            by_cases hq : q ≠ 0
            · rw [if_pos hq] at h; injection h with h2 h3
              refine Or.inl ⟨h3.symm, [.put (n.tmp n.cert) w.cert, .put (n.tmp n.ca) w.ca, .mv (n.tmp n.cert) n.cert,
                .mv (n.tmp n.ca) n.ca] ++ p, true, by simp [← h2, mainOps], by simp, ?_⟩
              intro o ho x hx
              rcases List.mem_append.1 ho with ho | ho
              · simp at ho
                rcases ho with rfl | rfl | rfl | rfl <;> simp [Op.touches] at hx ⊢
                · simp [hx]
                · simp [hx]
                · rcases hx with hx | hx <;> simp [hx]
                · rcases hx with hx | hx <;> simp [hx]
              · have := rewriteConf_fail hr hq o ho x hx
                simp [this]
            · rw [if_neg hq] at h; injection h with h2 h3
              exact Or.inr ⟨h3.symm, by simpa using hg, by simpa using hc, by simpa using hca, p, h2.symm,
                Or.inr ⟨fun k => hn (List.isPrefixOf_iff_prefix.2 k), by
                  rw [Decidable.of_not_not hq]⟩⟩

theorem rewriteConf_ok {n : Paths} {w : World} {name : Str} {fs : FS} {p : List Op}
    (h : rewriteConf n w name fs = .done p 0) : ∃ old new, fs n.conf = some old ∧ rewritten name old = some new ∧
      ((old = new ∧ p = [.put (n.tmp n.conf) new, .del (n.tmp n.conf)]) ∨
        p = [.put (n.tmp n.conf) new, .mv (n.tmp n.conf) n.conf]) := by
  unfold rewriteConf at h
  simp only [] at h
  split at h
  · injection h with h1 h2; cases h2
  · rename_i old hold
    split at h
    · cases h
    · rename_i new hnew
      refine ⟨old, new, hold, hnew, ?_⟩
      split at h
      · injection h with h1 h2; cases h2
      · split at h
        · rename_i heq
          injection h with h1 h2
          exact Or.inl ⟨heq, h1.symm⟩
        · split at h
          · injection h with h1 h2; cases h2
          · injection h with h1 h2
            exact Or.inr h1.symm

theorem generated_keeps {n : Paths} {w : World} (hf : Fair n w) {p : Str} (h1 : p ≠ n.key) (h2 : p ≠ n.csr)
    (fs : FS) : runAll fs w.generated p = fs p :=
  runAll_untouched _ _ (fun o ho hp => (hf.1 o ho p hp).elim h1 h2) fs

/-- After the certificates have been put in place. -/
theorem mainOps_run {n : Paths} {w : World} (hf : Fair n w) (hd : Distinct n) (fs : FS) :
    runAll fs (mainOps n w) n.cert = some w.cert ∧ runAll fs (mainOps n w) n.ca = some w.ca ∧
    runAll fs (mainOps n w) (n.tmp n.cert) = none ∧ runAll fs (mainOps n w) (n.tmp n.ca) = none ∧
    runAll fs (mainOps n w) n.key = runAll fs w.generated n.key ∧
    ∀ p, p ∉ [n.key, n.csr, n.cert, n.ca, n.tmp n.cert, n.tmp n.ca] → runAll fs (mainOps n w) p = fs p := by
  unfold Distinct at hd
  simp only [List.nodup_cons, List.mem_cons, List.not_mem_nil, or_false, not_or, List.nodup_nil, and_true] at hd
  obtain ⟨⟨k1, k2, k3, k4, k5, k6, k7⟩, ⟨c1, c2, c3, c4, c5, c6⟩, ⟨d1, d2, d3, d4, d5⟩, ⟨e1, e2, e3, e4⟩,
    ⟨f1, f2, f3⟩, ⟨g1, g2⟩, i1, _⟩ := hd
  have hg : ∀ p, p ≠ n.key → p ≠ n.csr → runAll fs w.generated p = fs p :=
    fun p h1 h2 => generated_keeps hf h1 h2 fs
  unfold mainOps
  rw [runAll_append]
  generalize runAll fs w.generated = g at hg ⊢
  simp only [runAll, List.foldl, Op.run, g1, Ne.symm g1, if_true, if_false]
  refine ⟨?_, ?_, ?_, ?_, ?_, ?_⟩
  all_goals simp_all [eq_comm]

end CaClient

/-- C84: a client that has a key, or for which something is not set, is left alone. -/
theorem C84_left_alone (n : Paths) (set : Bool) (peer : Str) (w : World) (fs : FS)
    (h : set = false ∨ (fs n.key).isSome = true) :
    setup n set peer w fs = .done [] (if w.nocsrOk then 0 else -1) := by
  unfold setup
  rw [if_pos]
  rcases h with h | h <;> simp [h]

/-- C84: a server that does not agree changes nothing. -/
theorem C84_refused (n : Paths) (set : Bool) (peer : Str) (w : World) (fs : FS)
    (h : ∀ a, w.answer = some a → ¬ bytes "csr ok:" <+: a) : ∃ r, setup n set peer w fs = .done [] r ∧ r ≤ 0 := by
  unfold setup
  split
  · exact ⟨_, rfl, by split <;> decide⟩
  · split
    · exact ⟨_, rfl, by decide⟩
    · rename_i a ha
      have := h a ha
      have hb : List.isPrefixOf (bytes "csr ok:") a = false := by
        cases hc : List.isPrefixOf (bytes "csr ok:") a with
        | false => rfl
        | true => exact absurd (List.isPrefixOf_iff_prefix.1 hc) this
      rw [if_pos (by rw [hb]; rfl)]
      exact ⟨_, rfl, by decide⟩

/-- C84: when it has succeeded, the client has a key, and the two certificates that it was sent, whole, and nothing
else has changed but the configuration file, and the request. -/
theorem C84_got (n : Paths) (set : Bool) (peer : Str) (w : World) (fs : FS) (ops : List Op)
    (hf : Fair n w) (hd : Distinct n) (h : setup n set peer w fs = .done ops 1) :
    (runAll fs ops n.key).isSome = true ∧ w.certOk = true ∧ runAll fs ops n.cert = some w.cert ∧
    w.caOk = true ∧ runAll fs ops n.ca = some w.ca ∧
    runAll fs ops (n.tmp n.cert) = none ∧ runAll fs ops (n.tmp n.ca) = none ∧
    ∀ p, p ∉ [n.key, n.csr, n.cert, n.ca, n.tmp n.cert, n.tmp n.ca, n.conf, n.tmp n.conf] →
      runAll fs ops p = fs p := by
  have hx := hd
  unfold Distinct at hx
  simp only [List.nodup_cons, List.mem_cons, List.not_mem_nil, or_false, not_or, List.nodup_nil, and_true] at hx
  obtain ⟨⟨k1, k2, k3, k4, k5, k6, k7⟩, ⟨c1, c2, c3, c4, c5, c6⟩, ⟨d1, d2, d3, d4, d5⟩, ⟨e1, e2, e3, e4⟩,
    ⟨f1, f2, f3⟩, ⟨g1, g2⟩, i1, _⟩ := hx
  rcases setup_cases n set peer w fs ops 1 h with ⟨_, h1, _⟩ | ⟨_, _, name, _, h1⟩
  · rcases h1 with h1 | h1 <;> cases h1
  · rcases h1 with ⟨h1, _⟩ | ⟨_, hg, hc, hca, p, hops, hp⟩
    · cases h1
    · obtain ⟨m1, m2, m3, m4, m5, m6⟩ := mainOps_run hf hd fs
      have hpt : ∀ q, q ≠ n.conf → q ≠ n.tmp n.conf → runAll fs ops q = runAll fs (mainOps n w) q := by
        intro q hq1 hq2
        rw [hops, runAll_append]
        refine runAll_untouched p q ?_ _
        intro o ho hto
        rcases hp with ⟨_, hp⟩ | ⟨_, hp⟩
        · rw [hp] at ho; cases ho
        · obtain ⟨old, new, _, _, hp⟩ := rewriteConf_ok hp
          rcases hp with ⟨_, hp⟩ | hp
          · rw [hp] at ho; simp at ho
            rcases ho with rfl | rfl <;> simp [Op.touches] at hto <;> exact hq2 hto
          · rw [hp] at ho; simp at ho
            rcases ho with rfl | rfl
            · simp [Op.touches] at hto; exact hq2 hto
            · simp [Op.touches] at hto; exact hto.elim hq2 hq1
      refine ⟨?_, hc, ?_, hca, ?_, ?_, ?_, ?_⟩
      · rw [hpt _ k4 k7, m5]; exact hf.2 hg fs
      · rw [hpt _ d2 d5, m1]
      · rw [hpt _ e1 e4, m2]
      · rw [hpt _ (Ne.symm f1) g2, m3]
      · rw [hpt _ (Ne.symm f2) i1, m4]
      · intro q hq
        simp only [List.mem_cons, List.not_mem_nil, or_false, not_or] at hq
        obtain ⟨q1, q2, q3, q4, q5, q6, q7, q8⟩ := hq
        rw [hpt q q7 q8, m6 q (by simp [q1, q2, q3, q4, q5, q6])]

/-- C84 in part: when it has succeeded, and the name that the server gave is not the beginning of the one that
was set, the configuration file has the same settings with the name put in. -/
theorem C84_named_partial (n : Paths) (set : Bool) (peer name content : Str) (w : World) (fs : FS) (ops : List Op)
    (hf : Fair n w) (hd : Distinct n) (ha : w.answer = some (bytes "csr ok:" ++ name)) (hn : CleanName name)
    (hne : ¬ name <+: peer) (hc : fs n.conf = some content) (h : setup n set peer w fs = .done ops 1) :
    ∃ new, runAll fs ops n.conf = some new ∧ settings new = (settings content).map (withName name) := by
  have hx := hd
  unfold Distinct at hx
  simp only [List.nodup_cons, List.mem_cons, List.not_mem_nil, or_false, not_or, List.nodup_nil, and_true] at hx
  obtain ⟨⟨k1, k2, k3, k4, k5, k6, k7⟩, ⟨c1, c2, c3, c4, c5, c6⟩, ⟨d1, d2, d3, d4, d5⟩, ⟨e1, e2, e3, e4⟩,
    ⟨f1, f2, f3⟩, ⟨g1, g2⟩, i1, _⟩ := hx
  rcases setup_cases n set peer w fs ops 1 h with ⟨_, h1, _⟩ | ⟨_, _, name', ha', h1⟩
  · rcases h1 with h1 | h1 <;> cases h1
  · have hnn : name' = name := by
      rw [ha] at ha'
      injection ha' with e
      exact (List.append_cancel_left e).symm
    subst hnn
    rcases h1 with ⟨h1, _⟩ | ⟨_, _, _, _, p, hops, hp⟩
    · cases h1
    · obtain ⟨m1, m2, m3, m4, m5, m6⟩ := mainOps_run hf hd fs
      rcases hp with ⟨hp, _⟩ | ⟨_, hp⟩
      · exact absurd hp hne
      · have hconf : runAll fs (mainOps n w) n.conf = some content := by
          rw [m6 n.conf (by simp [Ne.symm k4, Ne.symm c3, Ne.symm d2, Ne.symm e1, f1, f2]), hc]
        obtain ⟨old, new, hold, hnew, hp⟩ := rewriteConf_ok hp
        rw [hconf] at hold
        injection hold with hold
        subst hold
        refine ⟨new, ?_, C84_settings name' content new hn hnew⟩
        rw [hops, runAll_append]
        generalize runAll fs (mainOps n w) = g at hconf
        rcases hp with ⟨heq, hp⟩ | hp
        · rw [hp]
          simp [runAll, Op.run, f3, hconf, heq]
        · rw [hp]
          simp [runAll, Op.run]

/-- C84: after an error there is no key, so that the client will ask again, and the configuration file is as it
was. -/
theorem C84_again (n : Paths) (set : Bool) (peer : Str) (w : World) (fs : FS) (ops : List Op) (r : Int)
    (hf : Fair n w) (hd : Distinct n) (h : setup n set peer w fs = .done ops r) (hr : r < 0) :
    (fs n.key = none → runAll fs ops n.key = none) ∧ runAll fs ops n.conf = fs n.conf ∧
    ∀ p, p ∉ [n.key, n.csr, n.cert, n.ca, n.tmp n.cert, n.tmp n.ca, n.tmp n.conf] → runAll fs ops p = fs p := by
  have hx := hd
  unfold Distinct at hx
  simp only [List.nodup_cons, List.mem_cons, List.not_mem_nil, or_false, not_or, List.nodup_nil, and_true] at hx
  obtain ⟨⟨k1, k2, k3, k4, k5, k6, k7⟩, ⟨c1, c2, c3, c4, c5, c6⟩, ⟨d1, d2, d3, d4, d5⟩, ⟨e1, e2, e3, e4⟩,
    ⟨f1, f2, f3⟩, ⟨g1, g2⟩, i1, _⟩ := hx
  rcases setup_cases n set peer w fs ops r h with ⟨h1, _, _⟩ | ⟨_, _, name, _, h1⟩
  · subst h1; exact ⟨fun h => h, rfl, fun _ _ => rfl⟩
  · rcases h1 with ⟨_, mid, t, hops, _, hmid⟩ | ⟨h1, _⟩
    · have key : ∀ p, p ∉ [n.key, n.csr, n.cert, n.ca, n.tmp n.cert, n.tmp n.ca, n.tmp n.conf] →
          runAll fs ops p = fs p := by
        intro p hp
        refine runAll_untouched ops p ?_ fs
        intro o ho hto
        rw [hops] at ho
        rcases List.mem_append.1 ho with ho | ho
        · rcases List.mem_append.1 ho with ho | ho
          · rcases hf.1 o ho p hto with e | e <;> exact hp (by simp [e])
          · have := hmid o ho p hto
            simp only [List.mem_cons, List.not_mem_nil, or_false] at this
            apply hp
            simp only [List.mem_cons, List.not_mem_nil, or_false]
            rcases this with h | h | h | h | h <;> simp [h]
        · have := cleanup_touches n t o ho p hto
          simp only [List.mem_cons, List.not_mem_nil, or_false] at this
          apply hp
          simp only [List.mem_cons, List.not_mem_nil, or_false]
          rcases this with h | h | h | h | h | h <;> simp [h]
      refine ⟨fun _ => ?_, key n.conf ?_, key⟩
      · rw [hops, runAll_append]
        generalize runAll fs (w.generated ++ mid) = g
        cases t <;> simp [cleanup, runAll, Op.run, k2, k3, k5, k6]
      · simp [Ne.symm k4, Ne.symm c3, Ne.symm d2, Ne.symm e1, f1, f2, f3]
    · rw [h1] at hr; exact absurd hr (by decide)

/-- C84: wherever it is interrupted, the configuration file is the old one or the whole new one. -/
theorem C84_conf_whole (n : Paths) (set : Bool) (peer : Str) (w : World) (fs : FS) (ops pre : List Op) (r : Int)
    (hf : Fair n w) (hd : Distinct n) (h : setup n set peer w fs = .done ops r) (hp : pre <+: ops) :
    runAll fs pre n.conf = fs n.conf ∨ ∃ old name new, fs n.conf = some old ∧
      w.answer = some (bytes "csr ok:" ++ name) ∧ rewritten name old = some new ∧
      runAll fs pre n.conf = some new := by
  by_cases ht : ∃ o ∈ pre, n.conf ∈ o.touches
  · right
    have hx := hd
    unfold Distinct at hx
    simp only [List.nodup_cons, List.mem_cons, List.not_mem_nil, or_false, not_or, List.nodup_nil, and_true] at hx
    obtain ⟨⟨k1, k2, k3, k4, k5, k6, k7⟩, ⟨c1, c2, c3, c4, c5, c6⟩, ⟨d1, d2, d3, d4, d5⟩, ⟨e1, e2, e3, e4⟩,
      ⟨f1, f2, f3⟩, ⟨g1, g2⟩, i1, _⟩ := hx
    obtain ⟨o, ho, hto⟩ := ht
    have hoo : o ∈ ops := hp.subset ho
    have hgen : ∀ o ∈ w.generated, n.conf ∉ o.touches := by
      intro o ho hto
      rcases hf.1 o ho _ hto with e | e
      · exact k4 e.symm
      · exact c3 e.symm
    rcases setup_cases n set peer w fs ops r h with ⟨h1, _, _⟩ | ⟨_, _, name, ha, h1⟩
    · rw [h1] at hoo; cases hoo
    · rcases h1 with ⟨_, mid, t, hops, _, hmid⟩ | ⟨_, _, _, _, p, hops, hpp⟩
      · exfalso
        rw [hops] at hoo
        rcases List.mem_append.1 hoo with hoo | hoo
        · rcases List.mem_append.1 hoo with hoo | hoo
          · exact hgen o hoo hto
          · have := hmid o hoo _ hto
            simp [Ne.symm d2, Ne.symm e1, f1, f2, f3] at this
        · have := cleanup_touches n t o hoo _ hto
          simp [Ne.symm k4, Ne.symm c3, Ne.symm d2, Ne.symm e1, f1, f2] at this
      · have hmain : ∀ o ∈ mainOps n w, n.conf ∉ o.touches := by
          intro o ho hto
          unfold mainOps at ho
          rcases List.mem_append.1 ho with ho | ho
          · exact hgen o ho hto
          · simp at ho
            rcases ho with rfl | rfl | rfl | rfl <;>
              simp [Op.touches, Ne.symm d2, Ne.symm e1, f1, f2] at hto
        rcases hpp with ⟨_, hpp⟩ | ⟨_, hpp⟩
        · exfalso
          rw [hops, hpp, List.append_nil] at hoo
          exact hmain o hoo hto
        · have hconf : runAll fs (mainOps n w) n.conf = fs n.conf := runAll_untouched _ _ hmain fs
          obtain ⟨old, new, hold, hnew, hpe⟩ := rewriteConf_ok hpp
          rw [hconf] at hold
          refine ⟨old, name, new, hold, ha, hnew, ?_⟩
          rcases hpe with ⟨_, hpe⟩ | hpe
          · exfalso
            rw [hops, hpe] at hoo
            rcases List.mem_append.1 hoo with hoo | hoo
            · exact hmain o hoo hto
            · simp at hoo
              rcases hoo with rfl | rfl <;> simp [Op.touches, f3] at hto
          · have hall : pre = ops := by
              rw [hops, hpe] at hp hoo ⊢
              have e : mainOps n w ++ [Op.put (n.tmp n.conf) new, .mv (n.tmp n.conf) n.conf] =
                  (mainOps n w ++ [Op.put (n.tmp n.conf) new]) ++ [.mv (n.tmp n.conf) n.conf] := by simp
              rw [e] at hp ⊢
              rcases List.prefix_concat_iff.1 hp with h | h
              · exact h
              · exfalso
                have hin := h.subset ho
                rcases List.mem_append.1 hin with hin | hin
                · exact hmain o hin hto
                · simp at hin; subst hin; simp [Op.touches, f3] at hto
            rw [hall, hops, hpe, runAll_append]
            simp [runAll, Op.run]
  · left
    exact runAll_untouched pre _ (fun o ho hto => ht ⟨o, ho, hto⟩) fs

end Verif
