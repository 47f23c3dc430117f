import Verif.Spec.StoredForm

/-!
# Lemmas about the form that files are stored in
-/

namespace Verif.StoredForm
open Verif Verif.Phase2 Verif.History

/-- `blob` is the content `c`, in the form that the entry says. -/
def Form (K : Codec) (pw : Option Str) (e : Ent) (blob c : Str) : Prop :=
  ∃ n, if e.cmd.isEncrypted = true
    then ∃ p, pw = some p ∧ 0 < e.encryption ∧
      blob = K.enc p e.encryption e.salt (if compressed e = true then K.gz n c else c)
    else blob = if compressed e = true then K.gz n c else c

/-- The reverse deltas lead to the contents before. -/
def Chain {D S : Type} (L : Librsync Str D S) : Str → List (Option D × Ent) → List Str → Prop
  | _, [], _ => True
  | _, _ :: _, [] => False
  | c, (r, _) :: old, c' :: cs =>
    (match r with
      | none => c' = c
      | some d => L.patch c d = some c') ∧ Chain L c' old cs

/-- What holds of a stored file. -/
structure Good {D S : Type} (K : Codec) (L : Librsync Str D S) (pw : Option Str) (l : Line D) (cs : List Str) :
    Prop where
  form : ∃ c rest, cs = c :: rest ∧ Form K pw l.cur l.blob c ∧ Chain L c l.old rest
  dpth : l.cur.datapth.isSome = true
  same : ∀ x ∈ l.old, x.2.cmd = l.cur.cmd ∧ compressed x.2 = compressed l.cur ∧
    (l.cur.cmd.isEncrypted = true →
      x.1 = none ∧ x.2.encryption = l.cur.encryption ∧ x.2.salt = l.cur.salt)

theorem compressed_some {e : Ent} {d : Str} (h : e.datapth = some d) :
    compressed e = dpthIsCompressed e.compression d := by
  unfold compressed; rw [h]

theorem dpth_nat (n : Nat) (d : Str) : dpthIsCompressed (n : Int) d = decide (n ≠ 0) := by
  unfold dpthIsCompressed
  by_cases h : n = 0
  · subst h; rfl
  · rw [if_pos (by omega)]
    simp [h]

theorem symbol_enc (c : Conf) (k : Kind) : (symbol c k).isEncrypted = c.password.isSome := by
  unfold symbol
  cases k <;> cases c.password.isSome <;> rfl

theorem symbol_efs (c : Conf) (k : Kind) : symbol c k ≠ .efsFile := by
  unfold symbol
  cases k <;> cases c.password.isSome <;> decide

/-- A new file is stored in the form that is recorded, if the settings are those of the scan. -/
theorem newLine_good {D S : Type} (K : Codec) (L : Librsync Str D S) (pw : Option Str) (s : Scan)
    (hset : SameSettings pw s) (rest : List Str) :
    Good K L pw (newLine K s) (s.content :: rest) := by
  obtain ⟨h1, h2, -⟩ := hset
  refine ⟨⟨s.content, rest, rfl, ?_, trivial⟩, rfl, fun x hx => by cases hx⟩
  refine ⟨Find.inExcludeComp s.conf2.excom s.path s.conf2.compression, ?_⟩
  have hcmd : (newLine (D := D) K s).cur.cmd = symbol s.conf2 s.kind := by
    show symbol s.conf1 s.kind = _
    unfold symbol
    rw [h1]
  have hz : compressed (newLine (D := D) K s).cur =
      decide (Find.inExcludeComp s.conf2.excom s.path s.conf2.compression ≠ 0) := by
    rw [compressed_some (d := s.alloc) rfl]
    exact dpth_nat _ _
  rw [hcmd, symbol_enc, hz]
  show (if _ then ∃ p, pw = some p ∧ 0 < encryption s.conf2 ∧ sendWhole K s.conf2 (answer s) s.content =
      K.enc p (encryption s.conf2) (if s.conf2.password.isSome then s.salt else 0) _
    else sendWhole K s.conf2 (answer s) s.content = _)
  have hefs : (answer s).cmd ≠ .efsFile := symbol_efs _ _
  have hcomp : (answer s).compression = (Find.inExcludeComp s.conf2.excom s.path s.conf2.compression : Nat) := rfl
  have hsalt : (answer s).salt = if s.conf2.password.isSome then s.salt else 0 := rfl
  have henc : (answer s).encryption = encryption s.conf2 := rfl
  unfold sendWhole
  rw [hcomp, hsalt, henc]
  generalize Find.inExcludeComp s.conf2.excom s.path s.conf2.compression = n
  have hn : ((n : Int) ≠ 0) ↔ n ≠ 0 := by omega
  cases hp : s.conf2.password with
  | none =>
    rw [if_neg (by simp)]
    by_cases hn0 : n = 0
    · subst hn0; simp
    · rw [if_pos ⟨Or.inl (hn.2 hn0), hefs⟩]
      simp [hn0]
  | some p =>
    rw [if_pos (by simp), if_pos ⟨Or.inr rfl, hefs⟩]
    refine ⟨p, ?_, ?_, ?_⟩
    · rw [h1, hp] at h2
      rcases h2 with h2 | h2
      · cases h2
      · exact h2.symm
    · unfold encryption aes; rw [hp]; simp
    · by_cases hn0 : n = 0
      · subst hn0; simp
      · simp [hn0]

/-- When a file is taken to be unchanged, it is of the same kind and has the same time of modification. -/
theorem delta_unchanged {st : Settings} {cb p : Ent} (h : deltaStuff st (fun _ _ => none) cb p = .doneUnchanged) :
    cb.cmd = p.cmd ∧ cb.mtime = p.mtime := by
  have hnew : processNew p ≠ .doneUnchanged := by unfold processNew; split <;> decide
  unfold deltaStuff at h
  split at h
  · split at h
    · next h2 => simp at h2
    · exact absurd h hnew
  · next h1 =>
    refine ⟨Classical.byContradiction h1, ?_⟩
    split at h
    · next h2 => exact h2.1
    · split at h
      · exact absurd h hnew
      · split at h
        · next h2 => exact h2.1
        · split at h
          · cases h
          · split at h
            · exact absurd h hnew
            · have h : (if compressed cb = true ∧ p.compression = 0 ∨ compressed cb = false ∧ p.compression ≠ 0
                then processNew p else .changed) = Processed.doneUnchanged := h
              split at h
              · exact absurd h hnew
              · cases h

/-- When a file is patched, it is not encrypted, and it is compressed if and only if it was. -/
theorem delta_changed {st : Settings} {rel : Ent → Ent → Option Ent} {cb p : Ent}
    (h : deltaStuff st rel cb p = .changed) :
    cb.cmd = p.cmd ∧ p.cmd.isEncrypted = false ∧ (compressed cb = true ↔ p.compression ≠ 0) := by
  have hnew : processNew p ≠ .changed := by unfold processNew; split <;> decide
  unfold deltaStuff at h
  split at h
  · split at h
    · cases h
    · exact absurd h hnew
  · next h1 =>
    refine ⟨Classical.byContradiction h1, ?_⟩
    split at h
    · cases h
    · split at h
      · exact absurd h hnew
      · split at h
        · cases h
        · split at h
          · cases h
          · split at h
            · exact absurd h hnew
            · next h5 =>
              have hp : p.cmd.isEncrypted = false := by
                cases hq : p.cmd.isEncrypted with
                | false => rfl
                | true => exact absurd (Or.inr (Or.inr (Or.inr (Or.inr (Or.inl hq))))) h5
              refine ⟨hp, ?_⟩
              have h : (if compressed cb = true ∧ p.compression = 0 ∨ compressed cb = false ∧ p.compression ≠ 0
                then processNew p else .changed) = Processed.changed := h
              split at h
              · exact absurd h hnew
              · next h6 =>
                cases hc : compressed cb with
                | false =>
                  exact ⟨fun x => (Bool.noConfusion x), fun hp => absurd (Or.inr ⟨hc, hp⟩) h6⟩
                | true =>
                  exact ⟨fun _ hz => h6 (Or.inl ⟨hc, hz⟩), fun _ => rfl⟩

theorem readStored_form {K : Codec} (hK : K.Sound) {pw : Option Str} {e : Ent} {blob c : Str}
    (h : Form K pw e blob c) (he : e.cmd.isEncrypted = false) (e' : Ent) (hc : compressed e' = compressed e) :
    readStored K e' blob = c ∧ inflateOrLink K e' blob = c := by
  obtain ⟨n, h⟩ := h
  rw [if_neg (by rw [he]; decide)] at h
  unfold readStored inflateOrLink
  rw [hc]
  cases hz : compressed e with
  | false =>
    rw [hz] at h
    simpa using h
  | true =>
    rw [hz] at h
    simp only [if_true] at h ⊢
    rw [h, if_neg (hK.2.2.1 n c)]
    exact ⟨hK.2.1 n c, hK.2.1 n c⟩

/-- The next backup of a file keeps what holds. -/
theorem next_good {D S : Type} {K : Codec} (hK : K.Sound) {L : Librsync Str D S} (hL : L.Sound)
    {pw : Option Str} {l : Line D} {cs : List Str} (hg : Good K L pw l cs) (s : Scan)
    (hset : SameSettings pw s)
    (hm : l.cur.mtime = s.stat1.mtime → cs.head? = some s.content) :
    ∃ l', next K L l s = some l' ∧ Good K L pw l' (s.content :: cs) := by
  unfold next
  obtain ⟨⟨c, rest, hcs, hform, hchain⟩, hd, hsame⟩ := hg
  split
  · next hdec =>
    obtain ⟨hcmd, hmt⟩ := delta_unchanged hdec
    have hc : s.content = c := by
      have := hm hmt
      rw [hcs] at this
      exact (Option.some.inj this).symm
    refine ⟨_, rfl, ⟨c, c :: rest, by rw [hc, hcs], ?_, rfl, hchain⟩, hd, ?_⟩
    · obtain ⟨n, hn⟩ := hform
      refine ⟨n, ?_⟩
      have h1 : (unchangedRecord (scanned s) l.cur).cmd = l.cur.cmd := hcmd.symm
      have h2 : compressed (unchangedRecord (scanned s) l.cur) = compressed l.cur := rfl
      rw [h1, h2]
      exact hn
    · intro x hx
      have h1 : (unchangedRecord (scanned s) l.cur).cmd = l.cur.cmd := hcmd.symm
      rcases List.mem_cons.1 hx with rfl | hx
      · exact ⟨hcmd, rfl, fun _ => ⟨rfl, rfl, rfl⟩⟩
      · have := hsame x hx
        refine ⟨this.1.trans hcmd, this.2.1, fun h => this.2.2 (by rw [← h1]; exact h)⟩
  · next hdec =>
    obtain ⟨hcmd, henc, hcomp⟩ := delta_changed hdec
    have hencl : l.cur.cmd.isEncrypted = false := by rw [hcmd]; exact henc
    obtain ⟨d, hdp⟩ := Option.isSome_iff_exists.1 hd
    have hz : compressed { answer s with datapth := l.cur.datapth } = compressed l.cur := by
      rw [compressed_some (e := { answer s with datapth := l.cur.datapth }) hdp]
      show dpthIsCompressed (Find.inExcludeComp s.conf2.excom s.path s.conf2.compression : Nat) d = _
      rw [dpth_nat]
      have hp : (scanned s).compression ≠ 0 ↔
          ((Find.inExcludeComp s.conf2.excom s.path s.conf2.compression : Nat) : Int) ≠ 0 := by
        show ((Find.inExcludeComp s.conf1.excom s.path s.conf1.compression : Nat) : Int) ≠ 0 ↔ _
        have := hset.2.2
        omega
      rw [hp] at hcomp
      cases hq : compressed l.cur with
      | false =>
        have : ¬ ((Find.inExcludeComp s.conf2.excom s.path s.conf2.compression : Nat) : Int) ≠ 0 :=
          fun h => by have := hcomp.2 h; rw [hq] at this; cases this
        simp only [ne_eq, decide_not, Bool.not_eq_false', decide_eq_true_eq]
        omega
      | true =>
        have := hcomp.1 hq
        simp only [ne_eq, decide_eq_true_eq]
        omega
    have hold := readStored_form hK hform hencl
    unfold changedLine
    dsimp only
    rw [(hold l.cur rfl).1, (hold { answer s with datapth := l.cur.datapth } hz).2, hL c s.content]
    dsimp only
    have hencn : (scanned s).cmd.isEncrypted = false := henc
    have hF : Form K pw { answer s with datapth := l.cur.datapth }
        (if (answer s).compression ≠ 0 then K.gz (answer s).compression.toNat s.content else s.content)
        s.content := by
      refine ⟨(answer s).compression.toNat, ?_⟩
      rw [if_neg (by show ¬ (scanned s).cmd.isEncrypted = true; rw [hencn]; decide)]
      have : compressed { answer s with datapth := l.cur.datapth } = decide ((answer s).compression ≠ 0) := by
        rw [compressed_some (e := { answer s with datapth := l.cur.datapth }) hdp]
        show dpthIsCompressed (Find.inExcludeComp s.conf2.excom s.path s.conf2.compression : Nat) d = _
        rw [dpth_nat]
        show _ = decide (((Find.inExcludeComp s.conf2.excom s.path s.conf2.compression : Nat) : Int) ≠ 0)
        simp
      rw [this]
      by_cases h0 : (answer s).compression = 0
      · simp [h0]
      · simp [h0]
    have hnew := readStored_form hK hF hencn { answer s with datapth := l.cur.datapth } rfl
    rw [hnew.1, (hold { answer s with datapth := l.cur.datapth } hz).1]
    refine ⟨_, rfl, ⟨s.content, cs, rfl, hF, ?_⟩, hd, ?_⟩
    · rw [hcs]
      exact ⟨hL _ _, hchain⟩
    · have hno : ¬ (scanned s).cmd.isEncrypted = true := by rw [hencn]; decide
      intro x hx
      rcases List.mem_cons.1 hx with rfl | hx
      · exact ⟨hcmd, hz.symm, fun h => absurd h hno⟩
      · have := hsame x hx
        exact ⟨this.1.trans hcmd, this.2.1.trans hz.symm, fun h => absurd h hno⟩
  · exact ⟨_, rfl, newLine_good K L pw s hset cs⟩

/-- When a file that was a hard link is taken to be unchanged. -/
theorem delta_relinked {st : Settings} {rel : Ent → Ent → Option Ent} {cb p : Ent} (hne : cb.cmd ≠ p.cmd)
    (h : deltaStuff st rel cb p = .doneUnchanged) :
    p.dev = cb.dev ∧ p.ino = cb.ino ∧ p.mtime = cb.mtime ∧ (rel cb p).isSome = true := by
  have hnew : processNew p ≠ .doneUnchanged := by unfold processNew; split <;> decide
  unfold deltaStuff at h
  rw [if_pos hne] at h
  split at h
  · next h2 => exact ⟨h2.2.2.1, h2.2.2.2.1, h2.2.2.2.2.1, h2.2.2.2.2.2⟩
  · exact absurd h hnew

theorem relink_some {h cb p : Ent} (hr : (relink [h] (fun _ => true) cb p).isSome = true) :
    p.cmd = h.cmd ∧ h.path = cb.link := by
  unfold relink at hr
  split at hr
  · cases hr
  · next x hx =>
    unfold hardlinkMaster at hx
    have hmem := List.mem_of_find?_eq_some hx
    have hx2 := List.find?_some hx
    simp only [List.mem_cons, List.not_mem_nil, or_false] at hmem
    subst hmem
    simp only [Bool.and_eq_true, beq_iff_eq] at hx2
    split at hr
    · cases hr
    · next hc => exact ⟨Classical.byContradiction hc, hx2.1.2⟩

theorem symbol_link (c : Conf) (k : Kind) : Cmd.hardLink ≠ symbol c k := by
  unfold symbol
  cases k <;> cases c.password.isSome <;> decide

/-- A hard link that is a file now. -/
theorem relink_good {D S : Type} {K : Codec} {L : Librsync Str D S}
    {pw : Option Str} {l : Line D} {cs : List Str} (hg : Good K L pw l cs) (c : Conf) (target : Str) (st : Stat)
    (s : Scan) (hset : SameSettings pw s)
    (hm : l.cur.path = some target → st.dev = s.stat1.dev → st.ino = s.stat1.ino → st.mtime = s.stat1.mtime →
      cs.head? = some s.content)
    (hp : l.cur.cmd.isEncrypted = false ∧ (compressed l.cur = true ↔ c.compression ≠ 0)) :
    Good K L pw (relinkLine K l (scannedLink c s.path target st) s) [s.content] := by
  unfold relinkLine
  split
  · next hdec =>
    obtain ⟨hdev, hino, hmt, hrel⟩ := delta_relinked (symbol_link _ _) hdec
    obtain ⟨hcmd, hpath⟩ := relink_some hrel
    obtain ⟨⟨x, rest, hcs, hform, -⟩, -, -⟩ := hg
    have hx : x = s.content := by
      have := hm hpath hdev.symm hino.symm hmt.symm
      rw [hcs] at this
      exact Option.some.inj this
    subst hx
    refine ⟨⟨s.content, [], rfl, ?_, trivial⟩, rfl, fun x hx => by cases hx⟩
    obtain ⟨n, hn⟩ := hform
    rw [if_neg (by rw [hp.1]; decide)] at hn
    refine ⟨n, ?_⟩
    rw [if_neg (by show ¬ (scanned s).cmd.isEncrypted = true; rw [hcmd, hp.1]; decide), hn]
    have : compressed (unchangedRecord (scanned s) (relinked (scannedLink c s.path target st) l.cur s.alloc)) =
        compressed l.cur := by
      rw [compressed_some (d := s.alloc) rfl]
      show dpthIsCompressed (c.compression : Nat) s.alloc = _
      rw [dpth_nat]
      cases hq : compressed l.cur with
      | false =>
        have : ¬ c.compression ≠ 0 := fun h => by have := hp.2.2 h; rw [hq] at this; cases this
        simpa using this
      | true => simpa using hp.2.1 hq
    rw [this]
  · exact newLine_good K L pw s hset []

/-- Every file is stored in the form that its manifests say. -/
theorem line_good {D S : Type} {K : Codec} (hK : K.Sound) {L : Librsync Str D S} (hL : L.Sound)
    (pw : Option Str) (h : Hist) (hs : Steady pw h) (hh : Honest K L h) (hp : PlainLinks K L h) :
    ∃ l, line K L h = some l ∧ Good K L pw l h.contents := by
  induction h with
  | first s =>
    have := hs s (by simp [Hist.scans])
    exact ⟨_, rfl, newLine_good K L pw s this []⟩
  | next h s ih =>
    obtain ⟨l, hl, hg⟩ := ih (fun x hx => hs x (by simp [Hist.scans, hx])) hh.1 hp
    have := hs s (by simp [Hist.scans])
    obtain ⟨l', hl', hg'⟩ := next_good hK hL hg s this (hh.2 l hl)
    refine ⟨l', ?_, hg'⟩
    show (line K L h).bind _ = _
    rw [hl]
    exact hl'
  | wasLink h c target st s ih =>
    obtain ⟨l, hl, hg⟩ := ih (fun x hx => hs x (by simp [Hist.scans, hx])) hh.1 hp.1
    have := hs s (by simp [Hist.scans])
    refine ⟨_, ?_, relink_good hg c target st s this (hh.2 l hl) (hp.2 l hl)⟩
    show (line K L h).map _ = _
    rw [hl]
    rfl

theorem chain_patch {D S : Type} {L : Librsync Str D S} : ∀ (old : List (Option D × Ent)) (c : Str)
    (rest : List Str) (k : Nat), Chain L c old rest → k ≤ old.length →
    patchAll L ((old.take k).filterMap Prod.fst) c = (c :: rest)[k]? ∧ ((c :: rest)[k]?).isSome = true := by
  intro old
  induction old with
  | nil =>
    intro c rest k _ hk
    have : k = 0 := by simpa using hk
    subst this
    exact ⟨rfl, rfl⟩
  | cons x old ih =>
    intro c rest k hc hk
    obtain ⟨r, e⟩ := x
    cases rest with
    | nil => exact absurd hc id
    | cons c' rest =>
      cases k with
      | zero => exact ⟨rfl, rfl⟩
      | succ k =>
        obtain ⟨h1, h2⟩ := hc
        have := ih c' rest k h2 (by simpa using hk)
        cases r with
        | none =>
          have h1 : c' = c := h1
          subst h1
          simpa using this
        | some d =>
          have h1 : L.patch c d = some c' := h1
          simp only [List.take_succ_cons, List.filterMap_cons, List.getElem?_cons_succ]
          show (L.patch c d).bind _ = _ ∧ _
          rw [h1]
          exact this

/-- What is stored in the form that the manifests say is restored. -/
theorem restore_good {D S : Type} {K : Codec} (hK : K.Sound) {L : Librsync Str D S}
    {pw : Option Str} {l : Line D} {cs : List Str} (hg : Good K L pw l cs) (k : Nat) (hk : k ≤ l.old.length) :
    restore K L pw l k = cs[k]? ∧ (cs[k]?).isSome = true := by
  obtain ⟨⟨c, rest, hcs, hform, hchain⟩, -, hsame⟩ := hg
  subst hcs
  obtain ⟨hpatch, hsome⟩ := chain_patch l.old c rest k hchain hk
  refine ⟨?_, hsome⟩
  obtain ⟨e, he, hcmd, hcomp, henc⟩ : ∃ e, (l.cur :: l.old.map Prod.snd)[k]? = some e ∧ e.cmd = l.cur.cmd ∧
      compressed e = compressed l.cur ∧
      (l.cur.cmd.isEncrypted = true → e.encryption = l.cur.encryption ∧ e.salt = l.cur.salt) := by
    have hlt : k < (l.cur :: l.old.map Prod.snd).length := by simpa using Nat.lt_succ_of_le hk
    refine ⟨_, List.getElem?_eq_getElem hlt, ?_⟩
    rcases List.mem_cons.1 (List.getElem_mem hlt) with h | h
    · rw [h]; exact ⟨rfl, rfl, fun _ => ⟨rfl, rfl⟩⟩
    · obtain ⟨x, hx, hxe⟩ := List.mem_map.1 h
      rw [← hxe]
      have := hsame x hx
      exact ⟨this.1, this.2.1, fun h => (this.2.2 h).2⟩
  unfold restore
  rw [he, Option.bind_some]
  cases hq : l.cur.cmd.isEncrypted with
  | true =>
    have hnil : (l.old.take k).filterMap Prod.fst = [] := by
      rw [List.filterMap_eq_nil_iff]
      intro x hx
      exact ((hsame x (List.mem_of_mem_take hx)).2.2 hq).1
    rw [hnil] at hpatch ⊢
    rw [← hpatch]
    obtain ⟨n, hn⟩ := hform
    rw [if_pos hq] at hn
    obtain ⟨p, hpw, hpos, hblob⟩ := hn
    show (some _).bind _ = some c
    rw [Option.bind_some, hcmd, if_pos hq]
    unfold clientGet
    rw [hcmd, if_pos hq, hpw, hcomp, (henc hq).1, (henc hq).2, hblob]
    dsimp only
    rw [if_pos hpos, hK.2.2.2, Option.bind_some]
    cases compressed l.cur with
    | false => rfl
    | true => exact hK.1 n c
  | false =>
    have hget : ∀ w, clientGet K pw e w = K.gunzip w := by
      intro w
      unfold clientGet
      rw [hcmd, hq]
      rfl
    have hform2 := readStored_form hK hform hq e hcomp
    obtain ⟨n, hn⟩ := hform
    rw [if_neg (by rw [hq]; decide)] at hn
    cases hr : (l.old.take k).filterMap Prod.fst with
    | nil =>
      rw [hr] at hpatch
      rw [← hpatch]
      show (some _).bind _ = some c
      rw [Option.bind_some, hget, hcmd, hq, hcomp, hn]
      cases compressed l.cur with
      | false => exact hK.1 9 c
      | true => exact hK.1 n c
    | cons d ds =>
      rw [hr] at hpatch
      show ((patchAll L (d :: ds) (inflateOrLink K e l.blob)).map (K.gz 9)).bind _ = _
      rw [hform2.2, hpatch]
      obtain ⟨y, hy⟩ := Option.isSome_iff_exists.1 hsome
      rw [hy, Option.map_some, Option.bind_some, hget]
      exact hK.1 9 y

end Verif.StoredForm
