import Verif.Lemmas.Negotiate
import Verif.Props.SendConf

/-!
# C76: client and server agree on features
-/

namespace Verif.Negotiate
open Verif.Confs Verif.Strlist

/-- No hash has been chosen for the client, or for any other. -/
def Fresh (h : Host) (d : Confs) : Prop :=
  d .RSHASH = .rshash .unset ∧ ∀ n s, h.load n = some s → s .RSHASH = .rshash .unset

/-- Settings that cannot be named in a file stay when one is read. -/
theorem parsePath_unnamed {h : Host} {c c' : Confs} {p : Option Str} (hp : parsePath h c p = some c') {o : Opt}
    (ho : o.info.field = []) (hd : o ∉ derived)
    (hi : ∀ c, freeIncexcs c o = c o) : c' o = c o := by
  unfold parsePath at hp
  split at hp
  · cases hp
  · split at hp
    · rename_i x hx
      injection hp with hp; subst hp
      unfold parseIncexcsPath at hx
      obtain ⟨y, hy, hx⟩ := Out.bind_ok hx
      obtain ⟨ss, hss, hy⟩ := loadLines_ok hy
      have e1 : y o = c o := (applyAll_other hy (fun ⟨s, hs, e⟩ => hss.ne s hs (e.trans ho))).trans (hi c)
      unfold finalise at hx
      obtain ⟨z, hz, hx⟩ := Out.bind_ok hx
      obtain ⟨ts, hts, hz⟩ := loadLines_ok hz
      have e2 : z o = y o := applyAll_other hz (fun ⟨s, hs, e⟩ => hts.ne s hs (e.trans ho))
      split at hx
      · cases hx
      · rename_i hf'
        cases hx
        rw [finish_ne hf' hd, e2, e1]
    · cases hp

theorem parsePath_rshash {h : Host} {c c' : Confs} {p : Option Str} (hp : parsePath h c p = some c') :
    c' .RSHASH = c .RSHASH := parsePath_unnamed hp rfl (by decide) (fun _ => rfl)

theorem setRestorePath_ne {h : Host} {d : Confs} {o : Opt} (ho : o ≠ .RESTORE_PATH) : setRestorePath h d o = d o := by
  unfold setRestorePath
  split
  · exact set_ne _ _ ho
  · rfl

theorem switchRights_other {c s s' : Confs} (hs : switchRights c s = some s') {o : Opt}
    (ho : o ∉ [Opt.CLIENT_CAN_DELETE, .CLIENT_CAN_DIFF, .CLIENT_CAN_LIST, .CLIENT_CAN_MONITOR, .CLIENT_CAN_RESTORE,
      .CLIENT_CAN_VERIFY]) (hf : o ≠ .CLIENT_CAN_FORCE_BACKUP) : s' o = s o := by
  unfold switchRights at hs
  simp only at hs
  split at hs
  · injection hs with hs; subst hs
    simp only
    rw [if_neg hf, if_neg ho]
  · split at hs
    · injection hs with hs; subst hs
      simp only
      rw [if_neg hf, if_neg (fun hx => ho hx.1)]
    · cases hs

/-- Settings after a switch to another client. -/
theorem switchConfs_cases {h : Host} {c c' : Confs} {orig : Str} (hs : switchConfs h c orig = some c') :
    c' = c ∨ ∃ s s', h.load orig = some s ∧
      switchRights c (set s .SEND_CLIENT_CNTR (.int (getInt c .SEND_CLIENT_CNTR))) = some s' ∧
      c' .CONNECT_CLIENT = .str (getStr c .CONNECT_CLIENT) ∧ c' .RESTORE_PATH = .str (getStr c .RESTORE_PATH) ∧
      ∀ o, o ∉ [Opt.CONNECT_CLIENT, .RESTORE_PATH, .SUPER_CLIENT, .ORIG_CLIENT] → c' o = s' o := by
  unfold switchConfs at hs
  split at hs
  · injection hs with hs; exact Or.inl hs.symm
  · split at hs
    · cases hs
    · rename_i s hl
      split at hs
      · cases hs
      · rename_i s' hr
        injection hs with hs
        subst hs
        refine Or.inr ⟨s, s', hl, hr, rfl, rfl, ?_⟩
        intro o ho
        simp only [List.mem_cons, List.not_mem_nil, or_false, not_or] at ho
        obtain ⟨h1, h2, h3, h4⟩ := ho
        rw [set_ne _ _ h4, set_ne _ _ h3, set_ne _ _ h2, set_ne _ _ h1]

theorem switchConfs_rshash {h : Host} {c c' : Confs} {orig : Str} (hl : ∀ n s, h.load n = some s → s .RSHASH = .rshash .unset)
    (hc : c .RSHASH = .rshash .unset) (hs : switchConfs h c orig = some c') : c' .RSHASH = .rshash .unset := by
  rcases switchConfs_cases hs with rfl | ⟨s, s', h1, h2, _, _, h3⟩
  · exact hc
  · rw [h3 _ (by decide), switchRights_other h2 (by decide) (by decide), set_ne _ _ (by decide)]
    exact hl _ _ h1

theorem Deal.fresh {me : Me} {h : Host} {act : Act} {c d d1 d2 : Confs} {act1 : Act} {c1 : Confs} {inc1 : Option Str}
    {c2 : Confs} (x : Deal me h act c d d1 d2 act1 c1 inc1 c2) (hf : Fresh h d) : d2 .RSHASH = .rshash .unset := by
  have h0 : setRestorePath h d .RSHASH = .rshash .unset := by rw [setRestorePath_ne (by decide)]; exact hf.1
  have h1 : d1 .RSHASH = .rshash .unset := by
    have := x.server_restore
    split at this
    · rw [parsePath_rshash this, set_ne _ _ (by decide)]; exact h0
    · subst this
      split
      · rw [set_ne _ _ (by decide)]; exact h0
      · exact h0
  have h2 := x.acts_for
  split at h2
  · rw [h2]; exact h1
  · obtain ⟨_, y, hy, h2⟩ := h2
    have h3 := switchConfs_rshash hf.2 h1 hy
    split at h2
    · rw [parsePath_rshash h2]; exact h3
    · rw [h2]; exact h3

theorem Deal.action {me : Me} {h : Host} {act : Act} {c d d1 d2 : Confs} {act1 : Act} {c1 : Confs} {inc1 : Option Str}
    {c2 : Confs} (x : Deal me h act c d d1 d2 act1 c1 inc1 c2) : act1 = if Takes h act c d then .restore else act := by
  have := x.client_restore
  unfold clientSrestore at this
  unfold Takes
  split at this
  · rename_i ho
    have ho : Offers h d = false := by simpa using ho
    rw [ho]
    injection this with this
    injection this with this
    simpa using this.symm
  · rename_i ho
    have ho : Offers h d = true := by simpa using ho
    rw [ho]
    split at this
    · rename_i hm
      injection this with this
      injection this with this
      simpa [hm] using this.symm
    · rename_i hm
      split at this
      · rename_i hi
        simp only [Bool.true_and, ne_eq, Bool.and_eq_true, decide_eq_false_iff_not, hm, hi,
          not_false_eq_true, and_self, if_true]
        split at this
        · cases this
        · split at this
          · injection this with this
            injection this with this
            exact this.symm
          · cases this
      · rename_i hi
        injection this with this
        injection this with this
        have hi : getInt c .SERVER_CAN_RESTORE = 0 := Decidable.of_not_not hi
        simp [hi, this]

/-! ### The settings at the end -/

theorem ite_set (p : Prop) [Decidable p] (d : Confs) (o : Opt) (v : Val) (q : Opt) :
    (if p then Confs.set d o v else d) q = if q = o then (if p then v else d q) else d q := by
  by_cases hp : p <;> by_cases hq : q = o <;> simp [hp, hq, Confs.set]

theorem afterFlags_at (c d : Confs) (o : Opt) : afterFlags c d o =
    if o = .REGEX_CASE_INSENSITIVE then (if getInt c .REGEX_CASE_INSENSITIVE ≠ 0 then .int 1 else d o)
    else if o = .VSS_RESTORE then (if getInt c .VSS_RESTORE = 1 then .int 1 else if getInt c .VSS_RESTORE = 0 then .int 0
      else d o)
    else d o := by
  unfold afterFlags
  rw [ite_set, ite_set, ite_set]
  by_cases h1 : o = .REGEX_CASE_INSENSITIVE
  · subst h1; simp
  · by_cases h2 : o = .VSS_RESTORE
    · subst h2; simp
    · simp [h1, h2]

theorem afterFlags_ne {c d : Confs} {o : Opt} (h1 : o ≠ .VSS_RESTORE) (h2 : o ≠ .REGEX_CASE_INSENSITIVE) :
    afterFlags c d o = d o := by
  rw [afterFlags_at, if_neg h2, if_neg h1]

theorem afterFlags_vss (c d : Confs) : afterFlags c d .VSS_RESTORE = if getInt c .VSS_RESTORE = 0 then .int 0
    else if getInt c .VSS_RESTORE = 1 then .int 1 else d .VSS_RESTORE := by
  rw [afterFlags_at, if_neg (by decide), if_pos rfl]
  by_cases h0 : getInt c .VSS_RESTORE = 0
  · rw [if_neg (by omega), if_pos h0, if_pos h0]
  · rw [if_neg h0, if_neg h0]

theorem afterFlags_icase (c d : Confs) : afterFlags c d .REGEX_CASE_INSENSITIVE =
    if getInt c .REGEX_CASE_INSENSITIVE ≠ 0 then .int 1 else d .REGEX_CASE_INSENSITIVE := by
  rw [afterFlags_at, if_pos rfl]

theorem afterSeeds_ne {c d : Confs} {o : Opt} (h1 : o ≠ .SEED_SRC) (h2 : o ≠ .SEED_DST) : afterSeeds c d o = d o := by
  unfold afterSeeds
  cases getStr c .SEED_SRC with
  | none => rfl
  | some a =>
    cases getStr c .SEED_DST with
    | none => rfl
    | some b =>
      dsimp only
      split
      · rw [set_ne _ _ h2, set_ne _ _ h1]
      · rfl

theorem afterSeeds_some {c : Confs} {src dst : Str} (hs : Seeds c src dst) (d : Confs) :
    afterSeeds c d .SEED_SRC = .str (Seed.setupSeed true src) ∧ afterSeeds c d .SEED_DST = .str (Seed.setupSeed false dst) := by
  unfold afterSeeds
  rw [hs.1, hs.2.1]
  dsimp only
  rw [if_pos hs.2.2]
  exact ⟨by rw [set_ne _ _ (by decide), set_same], set_same _ _ _⟩

theorem afterSeeds_none {c : Confs} (hs : ∀ src dst, ¬ Seeds c src dst) (d : Confs) : afterSeeds c d = d := by
  unfold afterSeeds
  split
  · rename_i a b h1 h2
    rw [if_neg (fun hx => hs a b ⟨h1, h2, hx⟩)]
  · rfl

theorem afterFailovers_ne {me : Me} {act : Act} {d : Confs} {o : Opt} (h1 : o ≠ .BACKUP_FAILOVERS_LEFT) :
    afterFailovers me act d o = d o := by
  unfold afterFailovers
  split
  · exact set_ne _ _ h1
  · rfl

theorem afterHash_ne {me : Me} {b : Bool} {d : Confs} {o : Opt} (h1 : o ≠ .RSHASH) : afterHash me b d o = d o := by
  unfold afterHash
  split
  · exact set_ne _ _ h1
  · rfl

theorem afterUname_ne {me : Me} {d : Confs} {o : Opt} (h1 : o ≠ .CLIENT_IS_WINDOWS) : afterUname me d o = d o := by
  unfold afterUname
  split
  · exact set_ne _ _ h1
  · rfl

theorem finishServer_ne {s : Sv} {o : Opt} (h1 : o ≠ .RSHASH) : (finishServer s).confs o = s.confs o := by
  unfold finishServer
  simp only
  split
  · exact set_ne _ _ h1
  · rfl

theorem finishServer_phase (s : Sv) : (finishServer s).phase = .ended ↔
    (getStr (finishServer s).confs .SEED_SRC).isSome = (getStr (finishServer s).confs .SEED_DST).isSome := by
  unfold finishServer Seed.checkSeed
  simp only [beq_iff_eq]
  generalize (if rshash s.confs = .unset then set s.confs .RSHASH (.rshash .md4) else s.confs) = c
  by_cases hx : (getStr c .SEED_SRC).isSome = (getStr c .SEED_DST).isSome
  · simp [hx]
  · simp [hx]

theorem doSends_congr {c c' : Confs} (hc : ∀ o : Opt, o.info.flags.incexc = true → c o = c' o) :
    doSends Flags.incexc c = doSends Flags.incexc c' := by
  unfold doSends
  congr 1
  funext o
  by_cases ho : o.info.flags.incexc = true
  · rw [if_pos ho, if_pos ho, hc o ho]
  · rw [if_neg ho, if_neg ho]

theorem agreed {me : Me} {h : Host} {act : Act} {c d d1 d2 : Confs} {act1 : Act} {c1 : Confs} {inc1 : Option Str}
    {c2 : Confs} (x : Deal me h act c d d1 d2 act1 c1 inc1 c2) (hf : Fresh h d) {r : Cl} {s : Sv} {inc2 : Option Str}
    (e : (r, s) = finals me h act1 inc2 c2 d2 (Takes h act c d)
      (if Refuses h act c d then (getStr (setRestorePath h d) .RESTORE_PATH).toList else [])) :
    Agreed me h act c d d2 act1 c2 r s := by
  unfold finals at e
  injection e with er es
  subst er
  have hr := x.fresh hf
  have hs : ∀ o, o ≠ .RSHASH → s.confs o =
      serverLate me act1 c2 h.blake2 (afterUname me (set d2 .SEND_CLIENT_CNTR (.int 1))) o := by
    intro o ho; subst es; exact finishServer_ne ho
  have hl : ∀ o, o ∉ [Opt.CLIENT_IS_WINDOWS, .BACKUP_FAILOVERS_LEFT, .VSS_RESTORE, .REGEX_CASE_INSENSITIVE, .SEED_SRC,
      .SEED_DST, .RSHASH, .MESSAGE] → s.confs o = (set d2 .SEND_CLIENT_CNTR (.int 1)) o := by
    intro o ho
    simp only [List.mem_cons, List.not_mem_nil, or_false, not_or] at ho
    obtain ⟨k1, k2, k3, k4, k5, k6, k7, k8⟩ := ho
    rw [hs o k7, serverLate, afterFlags_ne k3 k4, afterSeeds_ne k5 k6, afterFailovers_ne k2, afterHash_ne k7, set_ne _ _ k8,
      afterUname_ne k1]
  refine ⟨?_, ?_, ?_, ⟨rfl, x.action⟩, ?_, ?_, ?_, ?_, ?_, ?_, ?_, ?_, ⟨?_, ?_⟩, ?_⟩
  · have e1 : rshash s.confs = if me.blake2 && h.blake2 then .blake2 else .md4 := by
      subst es
      have e0 : serverLate me act1 c2 h.blake2 (afterUname me (set d2 .SEND_CLIENT_CNTR (.int 1))) .RSHASH =
          if me.blake2 && h.blake2 then .rshash .blake2 else .rshash .unset := by
        rw [serverLate, afterFlags_ne (by decide) (by decide), afterSeeds_ne (by decide) (by decide),
          afterFailovers_ne (by decide), afterHash]
        split
        · exact set_same _ _ _
        · rw [set_ne _ _ (by decide), afterUname_ne (by decide), set_ne _ _ (by decide)]; exact hr
      unfold finishServer
      simp only
      cases hb : me.blake2 && h.blake2 with
      | true =>
        rw [hb] at e0
        have : rshash (serverLate me act1 c2 h.blake2 (afterUname me (set d2 .SEND_CLIENT_CNTR (.int 1)))) = .blake2 := by
          unfold rshash; rw [e0]; rfl
        rw [this, if_neg (by decide)]
        exact this
      | false =>
        rw [hb] at e0
        have : rshash (serverLate me act1 c2 h.blake2 (afterUname me (set d2 .SEND_CLIENT_CNTR (.int 1)))) = .unset := by
          unfold rshash; rw [e0]; rfl
        rw [this, if_pos rfl]
        unfold rshash
        rw [set_same]
        rfl
    refine ⟨?_, e1⟩
    rw [e1]
    simp only [clientLate, rshash, set_same]
  · refine ⟨rfl, ?_⟩
    unfold getInt
    rw [hs _ (by decide), serverLate, afterFlags_ne (by decide) (by decide), afterSeeds_ne (by decide) (by decide),
      afterFailovers_ne (by decide), afterHash_ne (by decide), set_same]
  · refine ⟨rfl, ?_⟩
    unfold getInt
    rw [hl _ (by decide), set_same]
  · subst es; rfl
  · subst es; rfl
  · intro o ho
    simp only [List.mem_cons, List.not_mem_nil, or_false, not_or] at ho
    obtain ⟨k1, k2, k3⟩ := ho
    simp only [clientLate]
    rw [set_ne _ _ k3, set_ne _ _ k1, set_ne _ _ k2]
  · subst es
    show some (withCompression d2 _) = _
    unfold withCompression
    rfl
  · rw [hs _ (by decide), serverLate, afterFlags_ne (by decide) (by decide), afterSeeds_ne (by decide) (by decide),
      afterFailovers_ne (by decide), afterHash_ne (by decide), set_ne _ _ (by decide), afterUname]
    split
    · exact set_same _ _ _
    · exact set_ne _ _ (by decide)
  · rw [hs _ (by decide), serverLate, afterFlags_ne (by decide) (by decide), afterSeeds_ne (by decide) (by decide),
      afterFailovers]
    split
    · exact set_same _ _ _
    · rw [afterHash_ne (by decide), set_ne _ _ (by decide), afterUname_ne (by decide), set_ne _ _ (by decide)]
  · rw [hs _ (by decide), serverLate, afterFlags_vss, afterSeeds_ne (by decide) (by decide), afterFailovers_ne (by decide),
      afterHash_ne (by decide), set_ne _ _ (by decide), afterUname_ne (by decide), set_ne _ _ (by decide)]
  · rw [hs _ (by decide), serverLate, afterFlags_icase, afterSeeds_ne (by decide) (by decide), afterFailovers_ne (by decide),
      afterHash_ne (by decide), set_ne _ _ (by decide), afterUname_ne (by decide), set_ne _ _ (by decide)]
  · intro src dst hsd
    rw [hs _ (by decide), hs _ (by decide), serverLate, afterFlags_ne (by decide) (by decide),
      afterFlags_ne (by decide) (by decide)]
    exact afterSeeds_some hsd _
  · intro hsd
    rw [hs _ (by decide), hs _ (by decide), serverLate, afterFlags_ne (by decide) (by decide),
      afterFlags_ne (by decide) (by decide), afterSeeds_none hsd]
    constructor <;>
      rw [afterFailovers_ne (by decide), afterHash_ne (by decide), set_ne _ _ (by decide), afterUname_ne (by decide),
        set_ne _ _ (by decide)]
  · intro o ho
    simp only [List.mem_cons, List.not_mem_nil, or_false, not_or] at ho
    rw [hl o (by simp only [List.mem_cons, List.not_mem_nil, or_false, not_or]; grind), set_ne _ _ ho.2.1]

end Verif.Negotiate

namespace Verif
open Verif.Negotiate Verif.Confs

/-- C76: in every schedule, when neither side can go on, either both have come to the end of the conversation, nothing is
left on its way between them, and they have agreed on everything; or one of them has given up, and then there was
something that could not be accepted. So they never wait for each other. -/
theorem C76_agree (h : Host) (hr : Recent h) (me : Me) (act : Act) (c d : Confs) (hf : Fresh h d) {n : Nat} {w : World}
    (hs : Steps h n (start h me act c d) w) (hw : Stuck h w) :
    (∃ r d1 d2 act1 c1 inc1 c2, w.cl = .done r ∧ w.up = [] ∧ w.down = [] ∧
      Deal me h act c d d1 d2 act1 c1 inc1 c2 ∧ Agreed me h act c d d2 act1 c2 r w.sv ∧
      w.sv.phase = if (getStr w.sv.confs .SEED_SRC).isSome = (getStr w.sv.confs .SEED_DST).isSome then .ended else .refused) ∨
    ((∀ r, w.cl ≠ .done r) ∧ (w.cl = .failed ∨ w.sv.phase = .failed) ∧
      ∀ d1 d2 act1 c1 inc1 c2, ¬ Deal me h act c d d1 d2 act1 c1 inc1 c2) := by
  obtain ⟨m, e, h1, h2, h3⟩ := ends_start hr me act c d
  obtain ⟨k, hk, hke⟩ := h1.confluent h2 hs
  have : e = w := by
    cases hke with
    | nil => rfl
    | cons a _ => exact absurd a (hw _)
  subst this
  rcases h3 with ⟨r, hr1, hu, hd, hp, d1, d2, act1, c1, inc1, c2, inc2, hdeal, hfin⟩ | ⟨ha, hn, hfail⟩
  · refine Or.inl ⟨r, d1, d2, act1, c1, inc1, c2, hr1, hu, hd, hdeal, agreed hdeal hf hfin, ?_⟩
    have hfs : e.sv = finishServer _ := (congrArg Prod.snd hfin)
    have := finishServer_phase ⟨.reading, serverLate me act1 c2 h.blake2 (afterUname me (set d2 .SEND_CLIENT_CNTR (.int 1))), Takes h act c d,
     some (withCompression d2 ((doSends Flags.incexc c2).flatMap (· ++ [newline]) ++ [newline])), (if Refuses h act c d then (getStr (setRestorePath h d) .RESTORE_PATH).toList else [])⟩
    rw [← hfs] at this
    split
    · rename_i hx; exact this.mpr hx
    · rename_i hx
      rcases hp with hp | hp
      · exact absurd (this.mp hp) hx
      · exact hp
  · exact Or.inr ⟨hn, hfail, ha⟩

/-- C76: no schedule goes on for ever. -/
theorem C76_finite (h : Host) (hr : Recent h) (me : Me) (act : Act) (c d : Confs) :
    ∃ N, ∀ n w, Steps h n (start h me act c d) w → n ≤ N := by
  obtain ⟨m, e, h1, h2, _⟩ := ends_start hr me act c d
  refine ⟨m, fun n w hs => ?_⟩
  obtain ⟨k, hk, _⟩ := h1.confluent h2 hs
  omega

/-- C76: whether it succeeds does not depend on the schedule: it does if and only if everything can be accepted. -/
theorem C76_succeeds_iff (h : Host) (hr : Recent h) (me : Me) (act : Act) (c d : Confs) (hf : Fresh h d) {n : Nat} {w : World}
    (hs : Steps h n (start h me act c d) w) (hw : Stuck h w) :
    (∃ r, w.cl = .done r) ↔ ∃ d1 d2 act1 c1 inc1 c2, Deal me h act c d d1 d2 act1 c1 inc1 c2 := by
  rcases C76_agree h hr me act c d hf hs hw with ⟨r, d1, d2, act1, c1, inc1, c2, h1, _, _, h2, _⟩ | ⟨h1, _, h2⟩
  · exact ⟨fun _ => ⟨d1, d2, act1, c1, inc1, c2, h2⟩, fun _ => ⟨r, h1⟩⟩
  · exact ⟨fun ⟨r, hx⟩ => absurd hx (h1 r), fun ⟨d1, d2, act1, c1, inc1, c2, hx⟩ => absurd hx (h2 _ _ _ _ _ _)⟩

end Verif

namespace Verif.Negotiate
open Verif.Confs Verif.Strlist

/-! ### Any client -/

/-- How the settings of the server can change when a message comes. -/
inductive Change (h : Host) : Confs → Confs → Prop
  | refl (c) : Change h c c
  | set (c o v) (ho : o ∈ [Opt.SEND_CLIENT_CNTR, .CLIENT_IS_WINDOWS, .MESSAGE, .BACKUP_FAILOVERS_LEFT, .SEED_SRC,
      .SEED_DST, .VSS_RESTORE, .REGEX_CASE_INSENSITIVE]) : Change h c (Confs.set c o v)
  | hash (c v) (hv : v = .md4 ∨ v = .blake2 ∧ h.blake2 = true) : Change h c (Confs.set c .RSHASH (.rshash v))
  | refused (c) : Change h c (Confs.set c .RESTORE_PATH (.str none))
  | offered (c) : Change h c (setRestorePath h c)
  | restore (c path c') (hp : getStr c .RESTORE_PATH = some path)
      (h1 : parsePath h (Confs.set c .INCEXCDIR (.lst [])) (some path) = some c') : Change h c c'
  | switch (c name c') (h1 : switchConfs h c name = some c') : Change h c c'
  | switchRestore (c name c' c'') (h1 : switchConfs h c name = some c')
      (h2 : parsePath h c' (getStr c' .RESTORE_PATH) = some c'') : Change h c c''

theorem serverStep_change (h : Host) (s : Sv) (m : Str) : Change h s.confs (serverStep h s m).1.confs := by
  unfold serverStep
  cases hp : s.phase with
  | start =>
    dsimp only
    split
    · split
      · exact .refl _
      · exact .offered _
    · exact .refl _
  | reading =>
    dsimp only
    unfold readOne
    cases hc : classify m with
    | finish =>
      dsimp only
      unfold finishServer
      dsimp only
      split
      · exact .hash _ _ (Or.inl rfl)
      · exact .refl _
    | restoreOk =>
      dsimp only
      cases hg : getStr s.confs .RESTORE_PATH with
      | none => exact .refl _
      | some path =>
        dsimp only
        cases hpp : parsePath h (Confs.set s.confs .INCEXCDIR (.lst [])) (some path) with
        | none => exact .refl _
        | some c => exact .restore _ _ _ hg hpp
    | origClient name =>
      dsimp only
      cases hs : switchConfs h s.confs name with
      | none => exact .refl _
      | some c =>
        dsimp only
        split
        · cases hpp : parsePath h c (getStr c .RESTORE_PATH) with
          | none => exact .refl _
          | some c' => exact .switchRestore _ _ _ _ hs hpp
        · exact .switch _ _ _ hs
    | restoreNotOk => exact .refused _
    | counters => exact .set _ _ _ (by decide)
    | uname os =>
      dsimp only
      split
      · exact .set _ _ _ (by decide)
      · exact .refl _
    | blake2 =>
      dsimp only
      split
      · rename_i hb; exact .hash _ _ (Or.inr ⟨rfl, hb⟩)
      · exact .refl _
    | message => exact .set _ _ _ (by decide)
    | failovers n => exact .set _ _ _ (by decide)
    | seedSrc p =>
      dsimp only
      cases Seed.setupSeed true p with
      | none => exact .refl _
      | some p => exact .set _ _ _ (by decide)
    | seedDst p =>
      dsimp only
      cases Seed.setupSeed false p with
      | none => exact .refl _
      | some p => exact .set _ _ _ (by decide)
    | vssOff => exact .set _ _ _ (by decide)
    | vssStrip => exact .set _ _ _ (by decide)
    | icase => exact .set _ _ _ (by decide)
    | autoupgrade => exact .refl _
    | includesOk => exact .refl _
    | settings => exact .refl _
    | ignored => exact .refl _
    | unknown => exact .refl _
  | sentRestore => dsimp only; split <;> exact .refl _
  | sentIncludes => dsimp only; split <;> exact .refl _
  | receiving acc => dsimp only; split <;> exact .refl _
  | ended => exact .refl _
  | refused => exact .refl _
  | failed => exact .refl _

theorem serverRun_inv {h : Host} (P : Confs → Prop) (hP : ∀ c c', P c → Change h c c' → P c') (ms : List Str) (s : Sv)
    (hs : P s.confs) : P (serverRun h s ms).confs := by
  induction ms generalizing s with
  | nil => exact hs
  | cons m ms ih =>
    unfold serverRun
    split
    · exact hs
    · exact ih _ (hP _ _ hs (serverStep_change h s m))

theorem serverStart_ne {h : Host} {d : Confs} {o : Opt} (ho : o ≠ .DIRECTORY_TREE) : (serverStart h d).confs o = d o := by
  unfold serverStart
  split
  · rfl
  · dsimp only
    split
    · exact set_ne _ _ ho
    · rfl

theorem rights_facts : ∀ o ∈ rights, o ∉ [Opt.CONNECT_CLIENT, .RESTORE_PATH, .SUPER_CLIENT, .ORIG_CLIENT] ∧
    (o ≠ .CLIENT_CAN_FORCE_BACKUP → o ∈ [Opt.CLIENT_CAN_DELETE, .CLIENT_CAN_DIFF, .CLIENT_CAN_LIST, .CLIENT_CAN_MONITOR,
      .CLIENT_CAN_RESTORE, .CLIENT_CAN_VERIFY]) ∧
    ∀ x ∈ [Opt.SEND_CLIENT_CNTR, .CLIENT_IS_WINDOWS, .MESSAGE, .BACKUP_FAILOVERS_LEFT, .SEED_SRC,
      .SEED_DST, .VSS_RESTORE, .REGEX_CASE_INSENSITIVE, .RSHASH, .RESTORE_PATH], o ≠ x := by
  decide

theorem serverStep_ended {h : Host} {s : Sv} {m : Str} (ho : ¬ s.over) :
    (serverStep h s m).1.phase = .ended → ∃ t, (serverStep h s m).1 = finishServer t := by
  unfold serverStep
  cases hp : s.phase with
  | ended => exact absurd (Or.inl hp) ho
  | refused => exact absurd (Or.inr (Or.inl hp)) ho
  | failed => exact absurd (Or.inr (Or.inr hp)) ho
  | start =>
    dsimp only
    split
    · split <;> exact fun e => by cases e
    · exact fun e => by cases e
  | sentRestore => dsimp only; split <;> exact fun e => by cases e
  | sentIncludes => dsimp only; split <;> exact fun e => by cases e
  | receiving acc => dsimp only; split <;> exact fun e => by cases e
  | reading =>
    dsimp only
    have hn : ∀ t : Sv, t.phase = s.phase → t.phase = .ended → ∃ u, t = finishServer u := by
      intro t h1 h2; rw [h1, hp] at h2; cases h2
    unfold readOne
    cases hc : classify m with
    | finish => exact fun _ => ⟨s, rfl⟩
    | restoreOk =>
      dsimp only
      cases hg : getStr s.confs .RESTORE_PATH with
      | none => exact fun e => by cases e
      | some path =>
        dsimp only
        cases hpp : parsePath h (Confs.set s.confs .INCEXCDIR (.lst [])) (some path) with
        | none => exact fun e => by cases e
        | some c => exact fun e => by cases e
    | origClient name =>
      dsimp only
      cases hs : switchConfs h s.confs name with
      | none => exact fun e => by cases e
      | some c =>
        dsimp only
        split
        · cases hpp : parsePath h c (getStr c .RESTORE_PATH) with
          | none => exact fun e => by cases e
          | some c' => exact hn _ rfl
        · exact hn _ rfl
    | blake2 =>
      dsimp only
      split
      · exact hn _ rfl
      · exact fun e => by cases e
    | seedSrc p =>
      dsimp only
      cases Seed.setupSeed true p with
      | none => exact fun e => by cases e
      | some p => exact hn _ rfl
    | seedDst p =>
      dsimp only
      cases Seed.setupSeed false p with
      | none => exact fun e => by cases e
      | some p => exact hn _ rfl
    | autoupgrade => exact fun e => by cases e
    | includesOk => exact fun e => by cases e
    | settings => exact fun e => by cases e
    | unknown => exact fun e => by cases e
    | _ => exact hn _ rfl

end Verif.Negotiate

namespace Verif
open Verif.Negotiate Verif.Confs

/-- C76: whatever a client sends, the server uses a hash only if it has it. -/
theorem C76_any_hash (h : Host) (d : Confs) (hf : Fresh h d) (ms : List Str) :
    rshash (serverRun h (serverStart h d) ms).confs = .blake2 → h.blake2 = true := by
  refine serverRun_inv (fun c => rshash c = .blake2 → h.blake2 = true) ?_ ms _ ?_
  · intro c c' hc ch
    have conv : ∀ a b : Confs, a .RSHASH = b .RSHASH → rshash a = rshash b := by
      intro a b e; unfold rshash; rw [e]
    have sw : ∀ n c', switchConfs h c n = some c' → rshash c' = .blake2 → h.blake2 = true := by
      intro n c' hs
      rcases switchConfs_cases hs with rfl | ⟨s, s', h1, h2, _, _, h3⟩
      · exact hc
      · intro e
        unfold rshash at e
        rw [h3 _ (by decide), switchRights_other h2 (by decide) (by decide), set_ne _ _ (by decide), hf.2 _ _ h1] at e
        cases e
    cases ch with
    | refl => exact hc
    | set o v ho => rw [conv _ _ (set_ne _ _ (by rintro rfl; revert ho; decide))]; exact hc
    | hash v hv =>
      intro e
      rcases hv with rfl | ⟨_, hb⟩
      · unfold rshash at e; rw [set_same] at e; cases e
      · exact hb
    | refused => rw [conv _ _ (set_ne _ _ (by decide))]; exact hc
    | offered => rw [conv _ _ (setRestorePath_ne (by decide))]; exact hc
    | restore path _ hp h1 => rw [conv _ _ ((parsePath_rshash h1).trans (set_ne _ _ (by decide)))]; exact hc
    | switch n _ h1 => exact sw n _ h1
    | switchRestore n x _ h1 h2 => rw [conv _ _ (parsePath_rshash h2)]; exact sw n _ h1
  · intro e
    unfold rshash at e
    rw [serverStart_ne (by decide), hf.1] at e
    cases e

/-- C76: whatever a client sends, when the server is satisfied it has a hash, and either both ends of a seed or none. -/
theorem C76_any_end (h : Host) (hr : Recent h) (d : Confs) (ms : List Str) :
    let s := serverRun h (serverStart h d) ms
    s.phase = .ended → rshash s.confs ≠ .unset ∧
      (getStr s.confs .SEED_SRC).isSome = (getStr s.confs .SEED_DST).isSome := by
  intro s hs
  have key : ∀ (ms : List Str) (s : Sv), (s.phase = .ended → ∃ t, s = finishServer t) →
      (serverRun h s ms).phase = .ended → ∃ t, serverRun h s ms = finishServer t := by
    intro ms
    induction ms with
    | nil => exact fun s h1 => h1
    | cons m ms ih =>
      intro s h1
      unfold serverRun
      split
      · exact h1
      · rename_i ho
        exact ih _ (serverStep_ended ho)
  obtain ⟨t, ht⟩ := key ms _ (by
    intro e
    rw [start_of_recent hr d] at e
    cases e) hs
  have ht : s = finishServer t := ht
  rw [ht] at hs ⊢
  refine ⟨?_, (finishServer_phase t).mp hs⟩
  unfold finishServer
  dsimp only
  split
  · unfold rshash; rw [set_same]; decide
  · rename_i hu; exact hu

/-- C76: whatever a client sends, the server remembers who has connected. -/
theorem C76_any_connected (h : Host) (d : Confs) (ms : List Str) :
    getStr (serverRun h (serverStart h d) ms).confs .CONNECT_CLIENT = getStr d .CONNECT_CLIENT := by
  refine serverRun_inv (fun c => getStr c .CONNECT_CLIENT = getStr d .CONNECT_CLIENT) ?_ ms _ ?_
  · intro c c' hc ch
    have conv : ∀ a b : Confs, a .CONNECT_CLIENT = b .CONNECT_CLIENT → getStr a .CONNECT_CLIENT = getStr b .CONNECT_CLIENT := by
      intro a b e; unfold getStr; rw [e]
    have sw : ∀ n c', switchConfs h c n = some c' → getStr c' .CONNECT_CLIENT = getStr d .CONNECT_CLIENT := by
      intro n c' hs
      rcases switchConfs_cases hs with rfl | ⟨_, _, _, _, e, _, _⟩
      · exact hc
      · have : getStr c' .CONNECT_CLIENT = getStr c .CONNECT_CLIENT := by
          conv => lhs; unfold getStr
          rw [e]
        rw [this]; exact hc
    cases ch with
    | refl => exact hc
    | set o v ho => rw [conv _ _ (set_ne _ _ (by rintro rfl; revert ho; decide))]; exact hc
    | hash v hv => rw [conv _ _ (set_ne _ _ (by decide))]; exact hc
    | refused => rw [conv _ _ (set_ne _ _ (by decide))]; exact hc
    | offered => rw [conv _ _ (setRestorePath_ne (by decide))]; exact hc
    | restore path _ hp h1 =>
      rw [conv _ _ ((parsePath_unnamed h1 rfl (by decide) (fun _ => rfl)).trans (set_ne _ _ (by decide)))]; exact hc
    | switch n _ h1 => exact sw n _ h1
    | switchRestore n x _ h1 h2 => rw [conv _ _ (parsePath_unnamed h2 rfl (by decide) (fun _ => rfl))]; exact sw n _ h1
  · show getStr (serverStart h d).confs .CONNECT_CLIENT = _
    unfold getStr
    rw [serverStart_ne (by decide)]

/-- C76: whatever a client sends, it has no right at the end that it did not have at the beginning, if there is no file
for a restore on the server. (Such a file is written by the administrator, and can contain any setting.) -/
theorem C76_any_rights (h : Host) (hn : ∀ p, h.isFile p = false) (d : Confs) (hd : getStr d .RESTORE_PATH = none)
    (ms : List Str) (o : Opt) (ho : o ∈ rights) (hr : getInt d o = 0) :
    getInt (serverRun h (serverStart h d) ms).confs o = 0 := by
  refine (serverRun_inv (fun c => getStr c .RESTORE_PATH = none ∧ getInt c o = 0) ?_ ms _ ?_).2
  · intro c c' ⟨hc1, hc2⟩ ch
    have conv : ∀ a b : Confs, a o = b o → getInt a o = getInt b o := by
      intro a b e; unfold getInt; rw [e]
    have conv' : ∀ a b : Confs, a .RESTORE_PATH = b .RESTORE_PATH → getStr a .RESTORE_PATH = getStr b .RESTORE_PATH := by
      intro a b e; unfold getStr; rw [e]
    have sw : ∀ n c', switchConfs h c n = some c' → getStr c' .RESTORE_PATH = none ∧ getInt c' o = 0 := by
      intro n c' hs
      rcases switchConfs_cases hs with rfl | ⟨s, s', _, h2, _, e, h3⟩
      · exact ⟨hc1, hc2⟩
      · refine ⟨?_, ?_⟩
        · conv => lhs; unfold getStr
          rw [e]; exact hc1
        · rw [conv _ _ (h3 o (rights_facts o ho).1)]
          unfold switchRights at h2
          dsimp only at h2
          split at h2
          · injection h2 with h2; subst h2
            by_cases hb : o = .CLIENT_CAN_FORCE_BACKUP
            · unfold getInt; dsimp only; rw [if_pos hb]
            · have hm : o ∈ [Opt.CLIENT_CAN_DELETE, .CLIENT_CAN_DIFF, .CLIENT_CAN_LIST, .CLIENT_CAN_MONITOR,
                  .CLIENT_CAN_RESTORE, .CLIENT_CAN_VERIFY] := (rights_facts o ho).2.1 hb
              conv => lhs; unfold getInt
              dsimp only; rw [if_neg hb, if_pos hm]; exact hc2
          · split at h2
            · injection h2 with h2; subst h2
              by_cases hb : o = .CLIENT_CAN_FORCE_BACKUP
              · unfold getInt; dsimp only; rw [if_pos hb]
              · have hm : o ∈ [Opt.CLIENT_CAN_DELETE, .CLIENT_CAN_DIFF, .CLIENT_CAN_LIST, .CLIENT_CAN_MONITOR,
                    .CLIENT_CAN_RESTORE, .CLIENT_CAN_VERIFY] := (rights_facts o ho).2.1 hb
                conv => lhs; unfold getInt
                dsimp only; rw [if_neg hb, if_pos ⟨hm, hc2⟩]
            · cases h2
    have hne : ∀ x, x ∈ [Opt.SEND_CLIENT_CNTR, .CLIENT_IS_WINDOWS, .MESSAGE, .BACKUP_FAILOVERS_LEFT, .SEED_SRC,
      .SEED_DST, .VSS_RESTORE, .REGEX_CASE_INSENSITIVE, .RSHASH, .RESTORE_PATH] → o ≠ x := by
      intro x hx; exact (rights_facts o ho).2.2 x hx
    cases ch with
    | refl => exact ⟨hc1, hc2⟩
    | set x v hx =>
      refine ⟨?_, ?_⟩
      · rw [conv' _ _ (set_ne _ _ (by rintro rfl; revert hx; decide))]; exact hc1
      · rw [conv _ _ (set_ne _ _ (hne x (List.mem_append_left [Opt.RSHASH, Opt.RESTORE_PATH] hx)))]; exact hc2
    | hash v hv =>
      exact ⟨by rw [conv' _ _ (set_ne _ _ (by decide))]; exact hc1,
        by rw [conv _ _ (set_ne _ _ (hne _ (by decide)))]; exact hc2⟩
    | refused =>
      exact ⟨by unfold getStr; rw [set_same], by rw [conv _ _ (set_ne _ _ (hne _ (by decide)))]; exact hc2⟩
    | offered =>
      unfold setRestorePath
      rw [hn, if_neg Bool.false_ne_true]; exact ⟨hc1, hc2⟩
    | restore path _ hp h1 => rw [hc1] at hp; cases hp
    | switch n _ h1 => exact sw n _ h1
    | switchRestore n x _ h1 h2 =>
      rw [(sw n _ h1).1] at h2
      cases h2
  · refine ⟨?_, ?_⟩
    · unfold getStr; rw [serverStart_ne (by decide)]; exact hd
    · unfold getInt; rw [serverStart_ne (by rintro rfl; revert ho; decide)]; exact hr

/-! ### Examples -/

namespace Negotiate

/-- The settings for `alice` on the server. -/
def exAlice : Confs := set (set (set (set exServer .STARTDIR (.lst [⟨bytes "/home", 1⟩])) .CNAME (.str (some (bytes "alice"))))
  .CLIENT_CAN_DELETE (.int 0)) .DIRECTORY (.str (some (bytes "/spool")))

/-- The settings for `bob` on the server: `alice` may restore. -/
def exBob : Confs := set (set exServer .CNAME (.str (some (bytes "bob")))) .RESTORE_CLIENTS (.lst [⟨bytes "alice", 1⟩])

/-- A server. If `r`, there is a restore for `alice`. -/
def exHost (r : Bool) : Host where
  env := exEnv []
  cli := 20400
  blake2 := true
  isFile := fun p => r && p == bytes "/spool/alice/restore"
  lines := fun _ => some [bytes "include = /home", bytes "restoreprefix = /old"]
  load := fun n => if n = bytes "bob" then some exBob else none

/-- A client. -/
def exMe : Me := ⟨exEnv [], true, some (bytes "Linux"), 2⟩

/-- Its settings: it seeds. -/
def exSeeds : Confs := set (set exClient .SEED_SRC (.str (some (bytes "/home")))) .SEED_DST (.str (some (bytes "/mnt")))

/-- Its settings: it acts for another. -/
def exFor (n : Str) : Confs := set exClient .ORIG_CLIENT (.str (some n))

theorem exHost_recent (r : Bool) : Recent (exHost r) := by
  show Version.versionToLong (some (bytes "2.0.46")) ≤ 20400
  decide

theorem exHost_fresh (r : Bool) : Fresh (exHost r) exAlice := by
  refine ⟨rfl, fun n s hs => ?_⟩
  have hs : (if n = bytes "bob" then some exBob else none) = some s := hs
  split at hs
  · injection hs with hs; subst hs; rfl
  · cases hs

/-- A backup, with seeds, that accepts what the server wants to include. -/
theorem exDeal_backup : ∃ d1 d2 act1 c1 inc1 c2, Deal exMe (exHost false) .backup exSeeds exAlice d1 d2 act1 c1 inc1 c2 ∧
    Seeds c2 (bytes "/home") (bytes "/mnt") ∧ texts c2 .INCLUDE = [bytes "/home"] := by
  have hx : (clientSincexc exMe.env true (doSends Flags.incexc exAlice ++ [bytes "sincexc end"]) .backup none exSeeds).map
      (fun c => (getStr c .SEED_SRC, getStr c .SEED_DST, texts c .INCLUDE)) =
      some (some (bytes "/home"), some (bytes "/mnt"), [bytes "/home"]) := by decide +kernel
  obtain ⟨c2, hc2, hs⟩ := Option.map_eq_some_iff.mp hx
  injection hs with hs1 hs2
  injection hs2 with hs2 hs3
  refine ⟨exAlice, exAlice, .backup, exSeeds, none, c2, ⟨?_, ?_, ?_, ?_, ?_, ?_⟩, ⟨hs1, hs2, by decide, by decide⟩, hs3⟩
  · rfl
  · rfl
  · rfl
  · exact hc2
  · decide
  · intro src dst ⟨h1, h2, _, _⟩
    rw [hs1] at h1; rw [hs2] at h2
    cases h1; cases h2
    decide +kernel

/-- A client that acts for another. -/
theorem exDeal_for : ∃ d1 d2 act1 c1 inc1 c2,
    Deal exMe (exHost false) .restore (exFor (bytes "bob")) exAlice d1 d2 act1 c1 inc1 c2 ∧
    getStr d2 .CNAME = some (bytes "bob") ∧ getInt d2 .CLIENT_CAN_DELETE = 0 ∧ getInt exBob .CLIENT_CAN_DELETE = 1 := by
  have hx : (switchConfs (exHost false) exAlice (bytes "bob")).map
      (fun c => (getStr c .CNAME, getInt c .CLIENT_CAN_DELETE)) = some (some (bytes "bob"), 0) := by decide +kernel
  obtain ⟨d2, hd2, hs⟩ := Option.map_eq_some_iff.mp hx
  injection hs with hs1 hs2
  refine ⟨exAlice, d2, .restore, exFor (bytes "bob"), none, exFor (bytes "bob"), ⟨?_, ?_, ?_, ?_, ?_, ?_⟩, hs1, hs2, rfl⟩
  · rfl
  · rfl
  · exact ⟨by decide, d2, hd2, rfl⟩
  · rfl
  · decide
  · rintro src dst ⟨h1, _⟩
    cases h1

/-- A restore that the server wants. -/
theorem exDeal_restore : ∃ d1 d2 act1 c1 inc1 c2,
    Deal exMe (exHost true) .timerCheck exClient exAlice d1 d2 act1 c1 inc1 c2 ∧ Takes (exHost true) .timerCheck exClient exAlice = true ∧
    act1 = .restore ∧ getStr c2 .RESTOREPREFIX = some (bytes "/restore/old") := by
  have hx : ((parsePath (exHost true) (set (setRestorePath (exHost true) exAlice) .INCEXCDIR (.lst []))
      (getStr (setRestorePath (exHost true) exAlice) .RESTORE_PATH)).bind (fun d1 =>
        clientSrestore exMe.env true (doSends Flags.incexcRestore d1 ++ [bytes "srestore end"]) .timerCheck exClient)).any
      (fun r => decide (r.1 = .restore) && (decide (getStr r.2.1 .ORIG_CLIENT = none) && (decide (getStr r.2.1 .SEED_SRC = none) &&
        (r.2.2.isSome && decide (getStr r.2.1 .RESTOREPREFIX = some (bytes "/restore/old")))))) = true := by decide +kernel
  obtain ⟨⟨act1, c1, inc1⟩, hr, hs⟩ := (Option.any_eq_true _ _).mp hx
  obtain ⟨d1, hd1, hr⟩ := Option.bind_eq_some_iff.mp hr
  simp only [Bool.and_eq_true, decide_eq_true_eq] at hs
  obtain ⟨hs1, hs2, hs3, hs4, hs5⟩ := hs
  have ht : Takes (exHost true) .timerCheck exClient exAlice = true := by decide +kernel
  have ho : Offers (exHost true) exAlice = true := by decide +kernel
  refine ⟨d1, d1, act1, c1, inc1, c1, ⟨?_, ?_, ?_, ?_, ?_, ?_⟩, ht, hs1, hs5⟩
  · rw [ht, if_pos rfl]; exact hd1
  · rw [ho]; exact hr
  · rw [hs2]
  · unfold clientSincexc
    rw [if_neg (by rw [hs1]; simp)]
  · decide
  · rintro src dst ⟨h1, _⟩
    rw [hs3] at h1; cases h1

end Negotiate

/-- A client that may not act for another. -/
example : ¬ ∃ d1 d2 act1 c1 inc1 c2,
    Deal exMe (exHost false) .restore (exFor (bytes "carol")) exAlice d1 d2 act1 c1 inc1 c2 := by
  rintro ⟨d1, d2, act1, c1, inc1, c2, x⟩
  have h1 : d1 = exAlice := x.server_restore
  have h2 : some (Act.restore, exFor (bytes "carol"), none) = some (act1, c1, inc1) := x.client_restore
  injection h2 with h2
  injection h2 with _ h2
  injection h2 with h2 _
  have h3 := x.acts_for
  subst h1
  rw [← h2, show getStr (exFor (bytes "carol")) .ORIG_CLIENT = some (bytes "carol") from rfl] at h3
  obtain ⟨_, y, hy, _⟩ := h3
  rw [show switchConfs (exHost false) exAlice ((bytes "carol").take 499) = none from rfl] at hy
  cases hy

/-- C76 fails: the server answers that all is well and then gives up, if only one end of a seed is set in its own settings. -/
theorem C76_refused_violated :
    let s : Sv := ⟨.reading, set exServer .SEED_SRC (.str (some (bytes "/mnt"))), false, none, []⟩
    (serverStep (exHost false) s (bytes "extra_comms_end")).2 = [bytes "extra_comms_end ok"] ∧
      (serverStep (exHost false) s (bytes "extra_comms_end")).1.phase = .refused := by
  refine ⟨rfl, ?_⟩
  decide +kernel

end Verif
