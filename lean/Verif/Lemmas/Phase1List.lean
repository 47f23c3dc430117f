import Verif.Lemmas.Phase1Right
import Verif.Lemmas.Sbuf
import Verif.Props.Attribs

/-!
# The list that the server writes in the first phase
-/

namespace Verif.Phase1
open Verif.Strlist Verif.Attribs Verif.Find Verif.Sbuf Verif.Iobuf

/-- What goes into the list can be read back. -/
def ListedOk (e : Ev) : Prop := ∀ x, e.listed = some x → x.Ok

structure StOk (st : St) : Prop where
  statp : st.statp.InRange
  hash : ∀ b, ∀ lp ∈ st.hash b, Fits lp.name

theorem sentAttr_range {c : Cfg} {a : Attr} {n : Nat} (h : a.InRange) (hn : n < 10) : (sentAttr c a n).InRange := by
  have hz : U64 0 := by constructor <;> decide
  have henc : ∀ b : Bool, S32 (if b then 2 else 0) := by
    intro b
    cases b <;> constructor <;> decide
  unfold sentAttr
  exact {
    dev := h.dev
    ino := h.ino
    mode := h.mode
    nlink := h.nlink
    uid := h.uid
    gid := h.gid
    rdev := h.rdev
    size := h.size
    blksize := h.blksize
    blocks := h.blocks
    atime := h.atime
    mtime := h.mtime
    ctime := h.ctime
    winattr := hz
    compression := by constructor <;> (dsimp only; omega)
    encryption := henc c.encrypted
    salt := hz
    useWinapi := Or.inl rfl }

theorem encode_fits {a : Attr} (h : a.InRange) : Fits ((encode a).getD []) := by
  obtain ⟨t, e, hl, _⟩ := C02_attribs_roundtrip a a h
  rw [e]
  show t.length ≤ 65535
  omega

theorem comp_le (c : Cfg) (f : Str) (ty : FType) : ty.comp c f ≤ c.compression := by
  have key : inExcludeComp c.excom f c.compression ≤ c.compression := by
    unfold inExcludeComp
    split
    · exact Nat.le_refl _
    · split
      · exact Nat.zero_le _
      · exact Nat.le_refl _
  cases ty <;> first | exact key | exact Nat.le_refl _

theorem told_kind {c : Cfg} {ty : FType} {cmd : Cmd} {l : Option Str} (h : ty.told c = some (cmd, l)) :
    (l = none ∧ cmd ∈ pathKinds) ∨ ∃ t, l = some t ∧ (cmd = .softLink ∨ cmd = .hardLink) := by
  have fs : fileSymbol c ∈ pathKinds := by
    unfold fileSymbol
    cases c.encrypted <;> decide
  cases ty <;> cases h
  · exact Or.inl ⟨rfl, fs⟩
  · exact Or.inl ⟨rfl, fs⟩
  · exact Or.inl ⟨rfl, fs⟩
  · exact Or.inl ⟨rfl, by decide⟩
  · exact Or.inl ⟨rfl, by decide⟩
  · exact Or.inr ⟨_, rfl, Or.inl rfl⟩
  · exact Or.inr ⟨_, rfl, Or.inr rfl⟩

theorem meta_kind (c : Cfg) : metaSymbol c ∈ pathKinds := by
  unfold metaSymbol
  cases c.encrypted <;> decide

theorem sent_listed {c : Cfg} {w : World} {a : Attr} {f : Str} {ty : FType} {e : Ev} (ha : a.InRange)
    (hf : NoNul f ∧ DotFree f ∧ Fits f) (hc : c.compression < 10)
    (hl : ∀ cmd t, ty.told c = some (cmd, some t) → Fits t) (he : e ∈ (mySendFile c w a f ty).2) : ListedOk e := by
  rw [mySendFile_eq] at he
  cases hx : ty.told c with
  | none =>
    rw [hx] at he
    rw [List.mem_singleton.mp he]
    intro x h
    cases h
  | some p =>
    obtain ⟨cmd, l⟩ := p
    rw [hx] at he
    have hfit := encode_fits (sentAttr_range (c := c) ha (Nat.lt_of_le_of_lt (comp_le c f ty) hc))
    rcases mem_doToServer he with rfl | rfl
    · rcases told_kind hx with ⟨rfl, hk⟩ | ⟨t, rfl, hk⟩
      · intro x h
        cases h
        exact ⟨hk, hfit, hf.2.2, hf.1, hf.2.1⟩
      · intro x h
        cases h
        exact ⟨hk, hfit, hf.2.2, hl cmd t hx, hf.1, hf.2.1⟩
    · intro x h
      cases h
      exact ⟨meta_kind c, hfit, hf.2.2, hf.1, hf.2.1⟩

theorem sendFile_state (c : Conf) (logic : Str → Stat → Bool) (h : LinkHash) (f : Str) (st : Stat) (top : Bool) :
    ((sendFile c logic h f st top).1 = h ∨ (sendFile c logic h f st top).1 = linkAdd h f st.dev st.ino) ∧
      ∀ t, (sendFile c logic h f st top).2 = .hardlink t → ∃ lp, linkSearch h st.dev st.ino = some lp ∧ lp.name = t := by
  rcases sendFile_cases c logic h f st top with
    ⟨e, _⟩ | ⟨_, _, _, ⟨_, _, ⟨lp, hlp, _, e⟩ | ⟨_, e⟩⟩ | ⟨_, e⟩⟩
  · rw [e]; exact ⟨Or.inl rfl, fun t h => by cases h⟩
  · rw [e]; exact ⟨Or.inl rfl, fun t h => by cases h; exact ⟨lp, hlp, rfl⟩⟩
  · rw [e]; exact ⟨Or.inr rfl, fun t h => by cases h⟩
  · rw [e]; exact ⟨Or.inl rfl, fun t h => by cases h⟩

theorem hash_add {h : LinkHash} {f : Str} {d i : Nat} (hh : ∀ b, ∀ lp ∈ h b, Fits lp.name) (hf : Fits f) :
    ∀ b, ∀ lp ∈ linkAdd h f d i b, Fits lp.name := by
  intro b lp hlp
  unfold linkAdd at hlp
  split at hlp
  · rcases List.mem_cons.mp hlp with rfl | h1
    · exact hf
    · exact hh b lp h1
  · exact hh b lp hlp

theorem sendW_ok {c : Cfg} {w : World} {st : St} {f : Str} {ty : FType} {top : Bool} (hst : StOk st)
    (hf : NoNul f ∧ DotFree f ∧ Fits f) (hc : c.compression < 10)
    (hl : ∀ cmd t, ty.told c = some (cmd, some t) → Fits t) :
    StOk (sendW c w st f ty top).st ∧ ∀ e ∈ (sendW c w st f ty top).out, ListedOk e := by
  unfold sendW
  obtain ⟨h1, h2⟩ := sendFile_state c.find (fun g _ => c.logic g st.statp) st.hash f (statOf st.statp) top
  generalize sendFile _ _ _ _ _ _ = x at *
  obtain ⟨h, s⟩ := x
  have hst' : StOk { st with hash := h } := by
    refine ⟨hst.statp, ?_⟩
    rcases h1 with h1 | h1
    · dsimp only at h1 ⊢
      rw [h1]
      exact hst.hash
    · dsimp only at h1 ⊢
      rw [h1]
      exact hash_add hst.hash hf.2.2
  cases s with
  | not => exact ⟨hst', fun e he => by cases he⟩
  | plain => exact ⟨hst', fun e he => sent_listed hst.statp hf hc hl he⟩
  | hardlink t =>
    refine ⟨hst', fun e he => sent_listed hst.statp hf hc (ty := .hardLink t) ?_ he⟩
    intro cmd t' ht
    cases ht
    obtain ⟨lp, hlp, rfl⟩ := h2 t rfl
    exact hst.hash _ lp (List.mem_of_find?_eq_some hlp)

theorem seen_range {c : Cfg} {f : Str} {a : Attr} (h : a.InRange) : (Seen c f a).InRange := by
  unfold Seen
  split
  · next hk =>
    have hm := h.mode
    have h10 : a.mode / 4096 % 16 = 10 := by
      have hk := hk.1
      unfold kindOf at hk
      dsimp only at hk
      split at hk
      · cases hk
      split at hk
      · cases hk
      split at hk
      · assumption
      split at hk
      · cases hk
      split at hk
      · cases hk
      split at hk
      · cases hk
      split at hk
      · cases hk
      · cases hk
    exact { h with
      mode := by
        constructor
        · have := hm.1
          dsimp only
          omega
        · have := hm.2
          dsimp only
          omega }
  · exact h

theorem call_ok {c : Cfg} {w : World} {starts : List Elem} (hs : Sayable c w starts) {k : Call}
    (hk : CallOk c w starts k) {st : St} (hst : StOk st) :
    StOk (k.exec c w st).st ∧ ∀ e ∈ (k.exec c w st).out, ListedOk e := by
  cases k with
  | send own f ty top =>
    cases own with
    | none =>
      obtain ⟨⟨par, hr⟩, _, rfl⟩ := hk
      exact sendW_ok (st := { st with statp := st.statp }) hst (hs.path _ _ _ hr) hs.compression
        (fun cmd t h => by cases h)
    | some a' =>
      obtain ⟨par, a, hr, hl, ht⟩ := hk
      have ha : a'.InRange := by
        rw [seen_eq ht]
        exact seen_range (hs.attr f a hl)
      refine sendW_ok (st := { st with statp := a' }) ⟨ha, hst.hash⟩ (hs.path _ _ _ hr) hs.compression ?_
      intro cmd t htold
      cases ht with
      | link h1 h2 =>
        unfold linkType at htold
        cases hx : w.readlink f with
        | none => rw [hx] at htold; cases htold
        | some t' =>
          rw [hx] at htold
          cases htold
          exact hs.target f _ hx
      | reg _ => cases htold
      | device _ _ => cases htold
      | dir _ => cases htold
      | noFsChange _ => cases htold
      | noOpen _ => cases htold
      | other _ _ _ =>
        unfold otherType at htold
        split at htold
        · cases htold
        · split at htold <;> cases htold
  | say o =>
    refine ⟨hst, fun e he x hx => ?_⟩
    obtain ⟨pr, p, rfl, _⟩ := hk e he
    cases hx
  | stop r => exact ⟨hst, fun e he => by cases he⟩

theorem exec_ok {c : Cfg} {w : World} {starts : List Elem} (hs : Sayable c w starts) (l : List Call)
    (hl : ∀ k ∈ l, CallOk c w starts k) : ∀ st, StOk st → ∀ e ∈ (exec c w l st).out, ListedOk e := by
  induction l with
  | nil => intro st _ e he; cases he
  | cons k ks ih =>
    intro st hst e he
    obtain ⟨h1, h2⟩ := call_ok hs (hl k (List.mem_cons_self ..)) hst
    rw [exec] at he
    generalize k.exec c w st = r at *
    obtain ⟨ret, st', o⟩ := r
    cases ret
    · rw [andThen_ok] at he
      rcases List.mem_append.mp he with h | h
      · exact h2 e h
      · exact ih (fun k hk => hl k (List.mem_cons_of_mem _ hk)) st' h1 e h
    · exact h2 e he
    · exact h2 e he

theorem init_ok : StOk St.init :=
  ⟨by
    unfold St.init
    exact {
      dev := by constructor <;> decide
      ino := by constructor <;> decide
      mode := by constructor <;> decide
      nlink := by constructor <;> decide
      uid := by constructor <;> decide
      gid := by constructor <;> decide
      rdev := by constructor <;> decide
      size := by constructor <;> decide
      blksize := by constructor <;> decide
      blocks := by constructor <;> decide
      atime := by constructor <;> decide
      mtime := by constructor <;> decide
      ctime := by constructor <;> decide
      winattr := by constructor <;> decide
      compression := by constructor <;> decide
      encryption := by constructor <;> decide
      salt := by constructor <;> decide
      useWinapi := Or.inl rfl },
   fun b lp h => by cases h⟩

/-! ### The server -/

/-- An entry arrives. -/
theorem server_entry {fow warned : Bool} {out : Str} {text : Problem → Str → Str} {e : Ev} {x : Entry}
    (hx : e.listed = some x) (h : x.Ok) (rest : List Rec) :
    server fow warned empty out (messages text e ++ rest) =
      if fow && warned then none else server fow warned empty (out ++ encEntry x) rest := by
  have na : (decide (Cmd.attribs.toByte = Cmd.warning.toByte)) = false := by decide
  have path : ∀ k ∈ pathKinds, decide (k.toByte = Cmd.warning.toByte) = false := by decide
  have man : ∀ {x : Entry}, x.Ok → toManifest out x.toSbuf = (out ++ encEntry x, true) := by
    intro x h
    have := writeEntries_ok (es := [x]) (fun e he => by rw [List.mem_singleton.mp he]; exact h) out
    simp only [List.map_cons, List.map_nil, writeEntries, List.flatten_cons, List.flatten_nil, List.append_nil] at this
    generalize toManifest out x.toSbuf = r at *
    obtain ⟨o, b⟩ := r
    cases b
    · cases (Prod.mk.inj this).2
    · rw [(Prod.mk.inj this).1]
  cases e with
  | warn _ _ => cases hx
  | entry cmd a p l =>
    cases l with
    | none =>
      cases hx
      have hm := man h
      obtain ⟨hk, ha, hp, hn, hd⟩ := h
      show server fow warned empty out (⟨Cmd.attribs.toByte, _⟩ :: ⟨cmd.toByte, p⟩ :: rest) = _
      rw [server, parse_attribs_plain _ _ rfl]
      dsimp only
      rw [server, parse_path _ (Or.inl hk)]
      simp only [parsePath, no_attack hn hd, isLink_pathKinds hk, empty, na, path cmd hk, Bool.or_false]
      simp only [reduceCtorEq, if_false, Bool.false_eq_true, Option.isSome_none]
      have : toManifest out { attr := some ((encode a).getD []), path := some ⟨cmd.toByte, p⟩ } =
          (out ++ encEntry (.plain cmd ((encode a).getD []) p), true) := hm
      rw [this]
    | some t =>
      cases hx
      have hm := man h
      obtain ⟨hk, ha, hp, ht, hn, hd⟩ := h
      have hl : cmd.isLink = true := by rcases hk with rfl | rfl <;> rfl
      have hw : decide (cmd.toByte = Cmd.warning.toByte) = false := by rcases hk with rfl | rfl <;> decide
      show server fow warned empty out (⟨Cmd.attribs.toByte, _⟩ :: ⟨cmd.toByte, p⟩ :: ⟨cmd.toByte, t⟩ :: rest) = _
      rw [server, parse_attribs_plain _ _ rfl]
      dsimp only
      rw [server, parse_path _ (Or.inr hk)]
      simp only [parsePath, no_attack hn hd, hl, empty, na, hw, Bool.or_false]
      simp only [reduceCtorEq, if_false, Bool.false_eq_true, if_true]
      rw [server, parse_path _ (Or.inr hk)]
      simp only [parsePath, hl, hw, Bool.or_false]
      simp only [reduceCtorEq, if_false, if_true]
      have : toManifest out { attr := some ((encode a).getD []), path := some ⟨cmd.toByte, p⟩, link := some ⟨cmd.toByte, t⟩ } =
          (out ++ encEntry (.link cmd ((encode a).getD []) p t), true) := hm
      rw [this]
      rfl

theorem server_warn {fow warned : Bool} {out : Str} {text : Problem → Str → Str} {pr : Problem} {p : Str}
    (rest : List Rec) :
    server fow warned empty out (messages text (.warn pr p) ++ rest) = server fow true empty out rest := by
  show server fow warned empty out (⟨Cmd.warning.toByte, text pr p⟩ :: rest) = _
  have hp : Sbuf.parse empty ⟨Cmd.warning.toByte, text pr p⟩ = (empty, .needMore) := by
    unfold Sbuf.parse
    dsimp only
    rw [ofByte_toByte]
  rw [server, hp]
  simp

/-- Is it a warning? -/
def Ev.isWarn : Ev → Bool
  | .warn _ _ => true
  | .entry _ _ _ _ => false

theorem server_all {fow : Bool} {text : Problem → Str → Str} (evs : List Ev) (h : ∀ e ∈ evs, ListedOk e)
    (warned : Bool) (out : Str) :
    server fow warned empty out ((evs.map (messages text)).flatten ++ [⟨Cmd.gen.toByte, bytes "backupphase2"⟩]) =
      if fow && (warned || evs.any Ev.isWarn) then none
      else some (out ++ ((evs.filterMap Ev.listed).map encEntry).flatten ++
        enc ⟨Cmd.gen.toByte, bytes "phase1end"⟩) := by
  induction evs generalizing warned out with
  | nil =>
    have hp : Sbuf.parse empty ⟨Cmd.gen.toByte, bytes "backupphase2"⟩ = (empty, .finished) := by decide +kernel
    have hw : decide (Cmd.gen.toByte = Cmd.warning.toByte) = false := by decide
    have hwr := writeAll_ok (rs := [⟨Cmd.gen.toByte, bytes "phase1end"⟩]) (out := out) (fun r hr => by
      rw [List.mem_singleton.mp hr]
      show (bytes "phase1end").length ≤ 65535
      decide +kernel)
    simp only [List.map_cons, List.map_nil, List.flatten_cons, List.flatten_nil, List.append_nil] at hwr
    simp only [List.map_nil, List.flatten_nil, List.nil_append, List.any_nil, Bool.or_false, List.filterMap_nil,
      List.append_nil]
    rw [server, hp, hw]
    dsimp only
    rw [hwr, Bool.or_false]
  | cons e es ih =>
    have ih' := ih (fun x hx => h x (List.mem_cons_of_mem _ hx))
    simp only [List.map_cons, List.flatten_cons, List.append_assoc, List.any_cons]
    cases e with
    | warn pr p =>
      rw [server_warn, ih']
      simp only [Ev.isWarn, Bool.true_or, Bool.or_true, Ev.listed, List.filterMap_cons, List.append_assoc]
    | entry cmd a p l =>
      have hl : ∃ x, Ev.listed (.entry cmd a p l) = some x := by cases l <;> exact ⟨_, rfl⟩
      obtain ⟨x, hx⟩ := hl
      rw [server_entry hx (h _ (List.mem_cons_self ..) x hx), ih']
      simp only [Ev.isWarn, Bool.false_or, List.filterMap_cons, hx, List.map_cons, List.flatten_cons,
        List.append_assoc]
      cases fow <;> cases warned <;> simp

/-- Without the message that ends it there is no list. -/
theorem server_none {fow : Bool} (ms : List Rec) (h : ∀ r ∈ ms, r.cmd ≠ Cmd.gen.toByte) :
    ∀ warned sb out, server fow warned sb out ms = none := by
  induction ms with
  | nil => intro warned sb out; rfl
  | cons r rs ih =>
    intro warned sb out
    have ih' := ih (fun x hx => h x (List.mem_cons_of_mem _ hx))
    have hr := h r (List.mem_cons_self ..)
    rw [server]
    have hfin : ∀ sb', Sbuf.parse sb r ≠ (sb', .finished) := by
      intro sb' hx
      have hgen : Cmd.ofByte r.cmd = some .gen := by
        refine Classical.byContradiction fun hne => ?_
        have hpath : ∀ k, parsePath sb k r ≠ (sb', .finished) := by
          intro k hx
          unfold parsePath at hx
          split at hx
          · cases hx
          split at hx
          · split at hx <;> cases hx
          split at hx
          · cases hx
          dsimp only at hx
          split at hx
          · cases hx
          split at hx
          · split at hx <;> cases hx
          · cases hx
        unfold Sbuf.parse at hx
        split at hx
        all_goals first
          | exact hne (by assumption)
          | cases hx
          | exact hpath _ hx
          | (split at hx <;> cases hx)
          | (dsimp only at hx; split at hx <;> cases hx)
      refine hr ?_
      unfold Cmd.ofByte at hgen
      have := List.find?_some hgen
      exact (of_decide_eq_true this).symm
    generalize Sbuf.parse sb r = x at *
    obtain ⟨sb', ret⟩ := x
    cases ret
    · rfl
    · exact ih' _ _ _
    · dsimp only
      generalize toManifest out sb' = y
      obtain ⟨o, b⟩ := y
      cases b
      · rfl
      · dsimp only
        split
        · rfl
        · exact ih' _ _ _
    · exact absurd rfl (hfin sb')

theorem messages_noGen {text : Problem → Str → Str} {e : Ev} (h : ListedOk e) :
    ∀ r ∈ messages text e, r.cmd ≠ Cmd.gen.toByte := by
  have path : ∀ k ∈ pathKinds, k.toByte ≠ Cmd.gen.toByte := by decide
  cases e with
  | warn pr p =>
    intro r hr
    rw [List.mem_singleton.mp hr]
    exact (by decide : Cmd.warning.toByte ≠ Cmd.gen.toByte)
  | entry cmd a p l =>
    cases l with
    | none =>
      have hk := (h _ rfl).1
      intro r hr
      simp only [messages, List.mem_cons, List.not_mem_nil, or_false] at hr
      rcases hr with rfl | rfl
      · exact (by decide : Cmd.attribs.toByte ≠ Cmd.gen.toByte)
      · exact path _ hk
    | some t =>
      have hk := (h _ rfl).1
      have hg : cmd.toByte ≠ Cmd.gen.toByte := by rcases hk with rfl | rfl <;> decide
      intro r hr
      simp only [messages, List.mem_cons, List.not_mem_nil, or_false] at hr
      rcases hr with rfl | rfl | rfl
      · exact (by decide : Cmd.attribs.toByte ≠ Cmd.gen.toByte)
      · exact hg
      · exact hg

end Verif.Phase1
