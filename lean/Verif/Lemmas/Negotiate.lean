import Verif.Spec.Negotiate
import Verif.Lemmas.SendConf

/-!
# Running client and server together
-/

namespace Verif.Negotiate
open Verif.Confs Verif.Strlist

/-! ### Schedules -/

theorem Steps.append {h : Host} {m n : Nat} {u v w : World} (a : Steps h m u v) (b : Steps h n v w) :
    Steps h (m + n) u w := by
  induction a with
  | nil w => rw [Nat.zero_add]; exact b
  | cons h1 _ ih => rw [Nat.add_right_comm]; exact .cons h1 (ih b)

/-- Two steps that are possible at the same time can be made in either order. -/
theorem Step.diamond {h : Host} {w u v : World} (a : Step h w u) (b : Step h w v) :
    u = v ∨ ∃ x, Step h u x ∧ Step h v x := by
  cases a with
  | send m k up sv down =>
    cases b with
    | send => exact Or.inl rfl
    | server _ m' up' _ _ ho =>
      refine Or.inr ⟨⟨k, up' ++ [m], (serverStep h sv m').1, down ++ (serverStep h sv m').2⟩, ?_, ?_⟩
      · exact Step.server _ _ _ _ _ ho
      · exact Step.send _ _ _ _ _
  | recv k up sv m down =>
    cases b with
    | recv => exact Or.inl rfl
    | server _ m' up' _ _ ho =>
      refine Or.inr ⟨⟨k m, up', (serverStep h sv m').1, down ++ (serverStep h sv m').2⟩, ?_, ?_⟩
      · exact Step.server _ _ _ _ _ ho
      · exact Step.recv _ _ _ _ _
  | line e acc k up sv m down hm =>
    cases b with
    | line => exact Or.inl rfl
    | last => exact absurd rfl hm
    | server _ m' up' _ _ ho =>
      refine Or.inr ⟨⟨.recvUntil e (some (addToIncexc acc m)) k, up', (serverStep h sv m').1,
        down ++ (serverStep h sv m').2⟩, ?_, ?_⟩
      · exact Step.server _ _ _ _ _ ho
      · exact Step.line _ _ _ _ _ _ _ hm
  | last e acc k up sv down =>
    cases b with
    | line _ _ _ _ _ _ _ hm => exact absurd rfl hm
    | last => exact Or.inl rfl
    | server _ m' up' _ _ ho =>
      refine Or.inr ⟨⟨k (addToIncexc acc [newline]), up', (serverStep h sv m').1,
        down ++ (serverStep h sv m').2⟩, ?_, ?_⟩
      · exact Step.server _ _ _ _ _ ho
      · exact Step.last _ _ _ _ _ _
  | server cl m up sv down ho =>
    cases b with
    | send m' k =>
      refine Or.inr ⟨⟨k, up ++ [m'], (serverStep h sv m).1, down ++ (serverStep h sv m).2⟩, ?_, ?_⟩
      · exact Step.send _ _ _ _ _
      · exact Step.server _ _ _ _ _ ho
    | recv k _ _ m' down' =>
      refine Or.inr ⟨⟨k m', up, (serverStep h sv m).1, down' ++ (serverStep h sv m).2⟩, ?_, ?_⟩
      · exact Step.recv _ _ _ _ _
      · exact Step.server _ _ _ _ _ ho
    | line e acc k _ _ m' down' hm =>
      refine Or.inr ⟨⟨.recvUntil e (some (addToIncexc acc m')) k, up, (serverStep h sv m).1,
        down' ++ (serverStep h sv m).2⟩, ?_, ?_⟩
      · exact Step.line _ _ _ _ _ _ _ hm
      · exact Step.server _ _ _ _ _ ho
    | last e acc k _ _ down' =>
      refine Or.inr ⟨⟨k (addToIncexc acc [newline]), up, (serverStep h sv m).1,
        down' ++ (serverStep h sv m).2⟩, ?_, ?_⟩
      · exact Step.last _ _ _ _ _ _
      · exact Step.server _ _ _ _ _ ho
    | server => exact Or.inl rfl

/-- If one schedule comes to an end, one step of another brings it nearer. -/
theorem Steps.toward {h : Host} {n : Nat} {w e : World} (a : Steps h n w e) (he : Stuck h e) {u : World}
    (b : Step h w u) : ∃ m, n = m + 1 ∧ Steps h m u e := by
  induction a generalizing u with
  | nil w => exact absurd b (he u)
  | @cons n w v e h1 h2 ih =>
    refine ⟨n, rfl, ?_⟩
    rcases Step.diamond h1 b with rfl | ⟨x, hx, hy⟩
    · exact h2
    · obtain ⟨m, rfl, hm⟩ := ih he hx
      exact .cons hy hm

/-- If one schedule comes to an end, every schedule does, and at the same one. -/
theorem Steps.confluent {h : Host} {n m : Nat} {w e u : World} (a : Steps h n w e) (he : Stuck h e) (b : Steps h m w u) :
    ∃ k, n = m + k ∧ Steps h k u e := by
  induction b generalizing n with
  | nil w => exact ⟨n, (Nat.zero_add n).symm, a⟩
  | @cons m w v u h1 h2 ih =>
    obtain ⟨k, rfl, hk⟩ := a.toward he h1
    obtain ⟨j, rfl, hj⟩ := ih hk
    exact ⟨j, by omega, hj⟩

/-! ### One schedule: the server answers at once -/

/-- The client cannot be done without receiving something. -/
def NoDone : Prog → Prop
  | .done _ => False
  | .send _ k => NoDone k
  | _ => True

/-- There is a schedule that comes to an end where both are done and `Q` holds, or one has failed, if that is
`allowed`. -/
def Ends (h : Host) (allowed : Prop) (Q : Cl → Sv → Prop) (w : World) : Prop :=
  ∃ n e, Steps h n w e ∧ Stuck h e ∧
    ((∃ r, e.cl = .done r ∧ e.up = [] ∧ e.down = [] ∧ (e.sv.phase = .ended ∨ e.sv.phase = .refused) ∧ Q r e.sv) ∨
     (allowed ∧ (∀ r, e.cl ≠ .done r) ∧ (e.cl = .failed ∨ e.sv.phase = .failed)))

variable {h : Host} {allowed : Prop} {Q : Cl → Sv → Prop}

theorem Ends.step {u v : World} (a : Step h u v) (b : Ends h allowed Q v) : Ends h allowed Q u := by
  obtain ⟨n, e, hs, hr⟩ := b
  exact ⟨n + 1, e, .cons a hs, hr⟩

theorem Ends.steps {n : Nat} {u v : World} (a : Steps h n u v) (b : Ends h allowed Q v) : Ends h allowed Q u := by
  obtain ⟨m, e, hs, hr⟩ := b
  exact ⟨n + m, e, a.append hs, hr⟩

/-- The server has failed. -/
theorem ends_server_failed (k : Prog) (hk : NoDone k) (up : List Str) (sv : Sv) (hs : sv.phase = .failed) (ha : allowed) :
    Ends h allowed Q ⟨k, up, sv, []⟩ := by
  have ho : sv.over := Or.inr (Or.inr hs)
  induction k generalizing up with
  | send m k ih => exact Ends.step (Step.send ..) (ih hk _)
  | recv k _ =>
    refine ⟨0, _, .nil _, ?_, Or.inr ⟨ha, fun r => by simp, Or.inr hs⟩⟩
    intro v hv; cases hv; contradiction
  | recvUntil e acc k _ =>
    refine ⟨0, _, .nil _, ?_, Or.inr ⟨ha, fun r => by simp, Or.inr hs⟩⟩
    intro v hv; cases hv; contradiction
  | done r => exact hk.elim
  | failed =>
    refine ⟨0, _, .nil _, ?_, Or.inr ⟨ha, fun r => by simp, Or.inr hs⟩⟩
    intro v hv; cases hv; contradiction

/-- The client has failed. -/
theorem ends_client_failed (sv : Sv) (down : List Str) (ha : allowed) : Ends h allowed Q ⟨.failed, [], sv, down⟩ := by
  refine ⟨0, _, .nil _, ?_, Or.inr ⟨ha, fun r => by simp, Or.inl rfl⟩⟩
  intro v hv; cases hv

theorem ends_done (r : Cl) (sv : Sv) (hp : sv.phase = .ended ∨ sv.phase = .refused) (hq : Q r sv) :
    Ends h allowed Q ⟨.done r, [], sv, []⟩ := by
  refine ⟨0, _, .nil _, ?_, Or.inl ⟨r, rfl, rfl, rfl, hp, hq⟩⟩
  intro v hv; cases hv

/-- Something is sent, and the server reads it. -/
theorem ends_send {m : Str} {k : Prog} {sv sv' : Sv} {rs : List Str} (ho : ¬ sv.over) (hs : serverStep h sv m = (sv', rs))
    (hk : Ends h allowed Q ⟨k, [], sv', rs⟩) : Ends h allowed Q ⟨.send m k, [], sv, []⟩ := by
  refine Ends.step (Step.send ..) (Ends.step (Step.server _ m [] sv [] ho) ?_)
  rw [hs]; exact hk

/-- Something is sent, and the server fails. -/
theorem ends_send_failed {m : Str} {k : Prog} {sv sv' : Sv} (ho : ¬ sv.over) (hs : serverStep h sv m = (sv', []))
    (hp : sv'.phase = .failed) (hk : NoDone k) (ha : allowed) : Ends h allowed Q ⟨.send m k, [], sv, []⟩ :=
  ends_send ho hs (ends_server_failed k hk [] sv' hp ha)

theorem ends_sendIf {b : Bool} {m : Str} {k : Prog} {sv sv' : Sv} (ho : ¬ sv.over)
    (hs : b = true → serverStep h sv m = (sv', [])) (hn : b = false → sv' = sv)
    (hk : Ends h allowed Q ⟨k, [], sv', []⟩) : Ends h allowed Q ⟨sendIf b m k, [], sv, []⟩ := by
  unfold sendIf
  cases b with
  | true => exact ends_send ho (hs rfl) hk
  | false => rw [hn rfl] at hk; exact hk

/-- The answer is what was expected. -/
theorem ends_expect {m : Str} {k : Prog} {sv : Sv} (hk : Ends h allowed Q ⟨k, [], sv, []⟩) :
    Ends h allowed Q ⟨expect m k, [], sv, [m]⟩ := by
  refine Ends.step (Step.recv ..) ?_
  rw [if_pos rfl]; exact hk

/-- The text that is received. -/
theorem recvUntil_steps (e : Str) (acc : Option Str) (k : Str → Prog) (sv : Sv) (ms : List Str) (hm : ∀ m ∈ ms, m ≠ e) :
    ∃ n r, recvLoop e acc (ms ++ [e]) = some r ∧
      Steps h n ⟨.recvUntil e acc k, [], sv, ms ++ [e]⟩ ⟨k (addToIncexc r [newline]), [], sv, []⟩ := by
  induction ms generalizing acc with
  | nil => exact ⟨1, acc, by simp [recvLoop], .cons (Step.last ..) (.nil _)⟩
  | cons m ms ih =>
    have h1 := hm m (List.mem_cons_self ..)
    obtain ⟨n, r, hr, hs⟩ := ih (some (addToIncexc acc m)) (fun x hx => hm x (List.mem_cons_of_mem _ hx))
    refine ⟨n + 1, r, ?_, .cons (Step.line _ _ _ _ _ _ _ h1) hs⟩
    rw [List.cons_append, recvLoop, if_neg h1]; exact hr

theorem ends_recvUntil {e : Str} {k : Str → Prog} {sv : Sv} {ms : List Str} (hm : ∀ m ∈ ms, m ≠ e)
    (hk : ∀ buf, incexcRecv e (ms ++ [e]) = some buf → Ends h allowed Q ⟨k buf, [], sv, []⟩) :
    Ends h allowed Q ⟨.recvUntil e none k, [], sv, ms ++ [e]⟩ := by
  obtain ⟨n, r, hr, hs⟩ := recvUntil_steps (h := h) e none k sv ms hm
  exact Ends.steps hs (hk _ (by unfold incexcRecv; rw [hr]; rfl))

/-! ### Settings on their way -/

/-- Fields of settings that are sent do not begin the words that end them. -/
def sentField (o : Opt) : Bool :=
  !o.info.field.isEmpty && !(o.info.field.isPrefixOf (bytes "srestore end")) &&
    !(o.info.field.isPrefixOf (bytes "sincexc end")) && !(o.info.field.isPrefixOf (bytes "incexc end"))

theorem sent_field {o : Opt} (ho : o.info.flags.incexc = true ∨ o.info.flags.incexcRestore = true) :
    sentField o = true := by
  have key : Opt.all.all (fun o => !(o.info.flags.incexc || o.info.flags.incexcRestore) || sentField o) = true := by
    decide +kernel
  have := List.all_eq_true.mp key o (mem_all o)
  rcases ho with ho | ho <;> simpa [ho] using this

theorem sendLine_prefix (f v : Str) : f.isPrefixOf (sendLine f v) = true := by
  unfold sendLine Prepend.prependN Prepend.prependLen
  rw [List.isPrefixOf_iff_prefix]
  simp

theorem doSends_line {flag : Flags → Bool} {c : Confs} {l : Str} (hl : l ∈ doSends flag c) :
    ∃ o : Opt, flag o.info.flags = true ∧ ∃ v, l = sendLine o.info.field v := by
  unfold doSends at hl
  rw [List.mem_flatMap] at hl
  obtain ⟨o, -, ho⟩ := hl
  split at ho
  · rename_i hf
    refine ⟨o, hf, ?_⟩
    unfold sendOne at ho
    split at ho
    · cases ho
    · exact ⟨_, by simpa using ho⟩
    · obtain ⟨e, _, rfl⟩ := List.mem_map.mp ho; exact ⟨_, rfl⟩
    · exact ⟨_, by simpa using ho⟩
    · exact ⟨_, by simpa using ho⟩
    · cases ho
  · cases ho

theorem doSends_not {flag : Flags → Bool} (hflag : ∀ o : Opt, flag o.info.flags = true →
    o.info.flags.incexc = true ∨ o.info.flags.incexcRestore = true) {c : Confs} {l : Str} (hl : l ∈ doSends flag c) :
    l ≠ bytes "srestore end" ∧ l ≠ bytes "sincexc end" ∧ l ≠ bytes "incexc end" ∧ l ≠ [] := by
  obtain ⟨o, ho, v, rfl⟩ := doSends_line hl
  have h1 := sent_field (hflag o ho)
  unfold sentField at h1
  simp only [Bool.and_eq_true, Bool.not_eq_true'] at h1
  obtain ⟨⟨⟨h1, h2⟩, h3⟩, h4⟩ := h1
  have hp := sendLine_prefix o.info.field v
  refine ⟨fun e => ?_, fun e => ?_, fun e => ?_, fun e => ?_⟩
  · rw [e, h2] at hp; cases hp
  · rw [e, h3] at hp; cases hp
  · rw [e, h4] at hp; cases hp
  · rw [e] at hp
    cases hf : o.info.field with
    | nil => rw [hf] at h1; cases h1
    | cons a l => rw [hf] at hp; cases hp

/-- The text of several lines. -/
theorem addToIncexc_text (acc : Option Str) (l : Str) (hl : l ≠ []) :
    addToIncexc acc l = (acc.map (· ++ [newline])).getD [] ++ l := by
  unfold addToIncexc Prepend.prependN Prepend.prependLen
  have : l.isEmpty = false := by cases l <;> simp_all
  cases acc <;> simp [this]

/-- The server receives settings. -/
theorem ends_sendAll {k : Prog} (ms : List Str) (hm : ∀ m ∈ ms, m ≠ bytes "incexc end" ∧ m ≠ []) (acc : Option Str) (sv : Sv)
    (hk : ∀ acc', addToIncexc acc' [newline] =
        (acc.map (· ++ [newline])).getD [] ++ ms.flatMap (· ++ [newline]) ++ [newline] →
      Ends h allowed Q ⟨k, [], { sv with phase := .receiving acc' }, []⟩) :
    Ends h allowed Q ⟨sendAll ms k, [], { sv with phase := .receiving acc }, []⟩ := by
  induction ms generalizing acc with
  | nil =>
    refine hk acc ?_
    rw [addToIncexc_text _ _ (by simp)]
    cases acc <;> simp
  | cons m ms ih =>
    obtain ⟨h1, h2⟩ := hm m (List.mem_cons_self ..)
    refine ends_send (sv' := { sv with phase := .receiving (some (addToIncexc acc m)) }) (rs := []) (by simp [Sv.over])
      (by simp [serverStep, h1]) ?_
    refine ih (fun x hx => hm x (List.mem_cons_of_mem _ hx)) _ ?_
    intro acc' ha
    refine hk acc' ?_
    rw [ha, addToIncexc_text _ _ h2]
    simp

/-! ### The parts of the conversation, from the end -/

theorem not_over {sv : Sv} (hp : sv.phase = .reading) : ¬ sv.over := by
  rintro (e | e | e) <;> rw [hp] at e <;> cases e

theorem step_reading {sv : Sv} (hp : sv.phase = .reading) (m : Str) : serverStep h sv m = readOne h sv m := by
  unfold serverStep; rw [hp]

theorem classify_uname {os : Str} (ho : os ≠ []) : classify (bytes "uname=" ++ os) = .uname os := by
  cases os with
  | nil => exact absurd rfl ho
  | cons a l => rfl

theorem classify_no_uname : classify (bytes "uname=") = .unknown := by rfl

theorem classify_failovers (n : Str) : classify (bytes "backup_failovers_left=" ++ n) = .failovers n := by rfl

theorem classify_src (n : Str) : classify (bytes "seed_src=" ++ n) = .seedSrc n := by rfl

theorem classify_dst (n : Str) : classify (bytes "seed_dst=" ++ n) = .seedDst n := by rfl

theorem classify_orig {o : Str} (ho : o ≠ []) :
    classify ((bytes "orig_client=" ++ o).take 511) = .origClient (o.take 499) := by
  cases o with
  | nil => exact absurd rfl ho
  | cons a l => rfl

theorem classify_no_orig : classify ((bytes "orig_client=" ++ []).take 511) = .unknown := by rfl

theorem readOne_end (sv : Sv) : readOne h sv (bytes "extra_comms_end") = (finishServer sv, [bytes "extra_comms_end ok"]) := by
  rfl

theorem finish_phase (sv : Sv) : (finishServer sv).phase = .ended ∨ (finishServer sv).phase = .refused := by
  unfold finishServer
  simp only
  generalize Seed.checkSeed _ _ = b
  cases b
  · exact Or.inr rfl
  · exact Or.inl rfl

theorem end_ends {r : Cl} {sv : Sv} (hp : sv.phase = .reading) (hq : Q r (finishServer sv)) :
    Ends h allowed Q ⟨clientEnd r, [], sv, []⟩ := by
  refine ends_send (not_over hp) ((step_reading hp _).trans (readOne_end sv)) (ends_expect (ends_done _ _ (finish_phase sv) hq))

/-- Several changes. -/
def afterFlags (c d : Confs) : Confs :=
  let d1 := if getInt c .VSS_RESTORE = 0 then set d .VSS_RESTORE (.int 0) else d
  let d2 := if getInt c .VSS_RESTORE = 1 then set d1 .VSS_RESTORE (.int 1) else d1
  if getInt c .REGEX_CASE_INSENSITIVE ≠ 0 then set d2 .REGEX_CASE_INSENSITIVE (.int 1) else d2

theorem sendIf_ends {b : Bool} {m : Str} {k : Prog} {sv : Sv} (hp : sv.phase = .reading) (f : Confs → Confs)
    (hr : readOne h sv m = ({ sv with confs := f sv.confs }, []))
    (hk : Ends h allowed Q ⟨k, [], { sv with confs := if b then f sv.confs else sv.confs }, []⟩) :
    Ends h allowed Q ⟨sendIf b m k, [], sv, []⟩ := by
  refine ends_sendIf (sv' := { sv with confs := if b then f sv.confs else sv.confs }) (not_over hp) ?_ ?_ hk
  · rintro rfl; rw [step_reading hp, hr]; rfl
  · rintro rfl; rfl

theorem flags_ends {feat : Str} (h1 : supports feat ":vss_restore:" = true) (h2 : supports feat ":regex_icase:" = true)
    {c : Confs} {k : Prog} {sv : Sv} (hp : sv.phase = .reading)
    (hk : Ends h allowed Q ⟨k, [], { sv with confs := afterFlags c sv.confs }, []⟩) :
    Ends h allowed Q ⟨clientFlags feat c k, [], sv, []⟩ := by
  unfold clientFlags
  rw [h1, h2]
  refine sendIf_ends hp (fun d => set d .VSS_RESTORE (.int 0)) rfl ?_
  refine sendIf_ends hp (fun d => set d .VSS_RESTORE (.int 1)) rfl ?_
  refine sendIf_ends hp (fun d => set d .REGEX_CASE_INSENSITIVE (.int 1)) rfl ?_
  simp only [Bool.true_and, decide_eq_true_eq]
  exact hk

/-- The seeds. -/
def afterSeeds (c d : Confs) : Confs :=
  match getStr c .SEED_SRC, getStr c .SEED_DST with
  | some src, some dst =>
    if src ≠ [] ∧ dst ≠ [] then
      set (set d .SEED_SRC (.str (Seed.setupSeed true src))) .SEED_DST (.str (Seed.setupSeed false dst))
    else d
  | _, _ => d

/-- The server accepts the seeds. -/
def SeedsOk (c : Confs) : Prop := ∀ src dst, Seeds c src dst →
  (Seed.setupSeed true src).isSome = true ∧ (Seed.setupSeed false dst).isSome = true

theorem seeds_ends {feat : Str} (h1 : supports feat ":seed:" = true) {c : Confs} {k : Prog} {sv : Sv} (hp : sv.phase = .reading)
    (hn : NoDone k) (hf : ¬ SeedsOk c → allowed)
    (hk : SeedsOk c → Ends h allowed Q ⟨k, [], { sv with confs := afterSeeds c sv.confs }, []⟩) :
    Ends h allowed Q ⟨clientSeeds feat c k, [], sv, []⟩ := by
  unfold clientSeeds
  unfold afterSeeds at hk
  split
  · rename_i src dst e1 e2
    rw [e1, e2] at hk
    simp only at hk
    simp only [h1, and_true]
    by_cases hne : src ≠ [] ∧ dst ≠ []
    · rw [if_pos hne]
      rw [if_pos hne] at hk
      have hs : Seeds c src dst := ⟨e1, e2, hne.1, hne.2⟩
      have ho := not_over hp
      cases s1 : Seed.setupSeed true src with
      | none =>
        refine ends_send_failed ho (sv' := sv.fail.1) ?_ rfl hn (hf ?_)
        · rw [step_reading hp, readOne, classify_src]; simp only [s1]; rfl
        · intro hok; have := (hok src dst hs).1; rw [s1] at this; cases this
      | some a =>
        refine ends_send ho (sv' := { sv with confs := set sv.confs .SEED_SRC (.str (some a)) }) (rs := []) ?_ ?_
        · rw [step_reading hp, readOne, classify_src]; simp only [s1]
        cases s2 : Seed.setupSeed false dst with
        | none =>
          refine ends_send_failed (not_over hp) (sv' := { sv with confs := set sv.confs .SEED_SRC (.str (some a)), phase := .failed }) ?_ rfl hn (hf ?_)
          · refine (step_reading (by exact hp) _).trans ?_
            rw [readOne, classify_dst]; simp only [s2]; rfl
          · intro hok; have := (hok src dst hs).2; rw [s2] at this; cases this
        | some b =>
          have hok : SeedsOk c := by
            intro x y ⟨k1, k2, _, _⟩
            rw [e1] at k1; rw [e2] at k2
            injection k1 with k1; injection k2 with k2
            subst k1; subst k2
            rw [s1, s2]; exact ⟨rfl, rfl⟩
          have hk := hk hok
          rw [s1, s2] at hk
          refine ends_send (not_over hp) ?_ hk
          refine (step_reading (by exact hp) _).trans ?_
          rw [readOne, classify_dst]; simp only [s2]
    · rw [if_neg hne]
      rw [if_neg hne] at hk
      refine hk ?_
      intro x y ⟨k1, k2, k3, k4⟩
      rw [e1] at k1; rw [e2] at k2
      injection k1 with k1; injection k2 with k2
      subst k1; subst k2
      exact absurd ⟨k3, k4⟩ hne
  · rename_i hx
    refine ?_
    have hok : SeedsOk c := fun x y ⟨k1, k2, _, _⟩ => absurd k2 (hx x y k1)
    have hk := hk hok
    split at hk
    · rename_i a b e1 e2; exact absurd e2 (hx a b e1)
    · exact hk

/-- The number of servers to try. -/
def afterFailovers (me : Me) (act : Act) (d : Confs) : Confs :=
  if act = .backup ∨ act = .backupTimed then set d .BACKUP_FAILOVERS_LEFT (.int me.failovers) else d

theorem failovers_ends {me : Me} {feat : Str} (h1 : supports feat ":failover:" = true) {act : Act} {k : Prog} {sv : Sv}
    (hp : sv.phase = .reading) (hk : Ends h allowed Q ⟨k, [], { sv with confs := afterFailovers me act sv.confs }, []⟩) :
    Ends h allowed Q ⟨clientFailovers me feat act k, [], sv, []⟩ := by
  unfold clientFailovers
  rw [h1]
  refine sendIf_ends hp (fun d => set d .BACKUP_FAILOVERS_LEFT (.int me.failovers)) ?_ ?_
  · rw [readOne, classify_failovers]
    simp only [atoi_showInt]
  · simp only [Bool.true_and, decide_eq_true_eq]
    exact hk

/-- Settings of the client at the end. -/
def clientLate (me : Me) (bl : Bool) (c : Confs) : Confs :=
  set (set c .MESSAGE (.int 1)) .RSHASH (.rshash (if me.blake2 && bl then .blake2 else .md4))

/-- The hash. -/
def afterHash (me : Me) (bl : Bool) (d : Confs) : Confs :=
  if me.blake2 && bl then set d .RSHASH (.rshash .blake2) else d

/-- Settings of the server at the end. -/
def serverLate (me : Me) (act : Act) (c : Confs) (bl : Bool) (d : Confs) : Confs :=
  afterFlags c (afterSeeds c (afterFailovers me act (afterHash me bl (set d .MESSAGE (.int 1)))))

/-- The machine. -/
def afterUname (me : Me) (d : Confs) : Confs :=
  if (me.os.map isWindows).getD false then set d .CLIENT_IS_WINDOWS (.int 1) else d

theorem noDone_flags {feat : Str} {c : Confs} {k : Prog} (hk : NoDone k) : NoDone (clientFlags feat c k) := by
  unfold clientFlags sendIf
  repeat' split
  all_goals exact hk

theorem noDone_seeds {feat : Str} {c : Confs} {k : Prog} (hk : NoDone k) : NoDone (clientSeeds feat c k) := by
  unfold clientSeeds
  split
  · split <;> exact hk
  · exact hk

theorem noDone_sendIf {b : Bool} {m : Str} {k : Prog} (hk : NoDone k) : NoDone (sendIf b m k) := by
  unfold sendIf; split <;> exact hk

theorem noDone_rest {me : Me} {feat : Str} {r : Cl} : NoDone (clientRest me feat r) := by
  unfold clientRest clientFailovers
  exact noDone_sendIf (noDone_sendIf (noDone_sendIf (noDone_seeds (noDone_flags (k := clientEnd _) trivial))))

theorem noDone_uname {me : Me} {feat : Str} {r : Cl} : NoDone (clientUname me feat r) := noDone_sendIf noDone_rest

theorem noDone_settings {me : Me} {feat : Str} {r : Cl} : NoDone (clientSettings me feat r) := by
  unfold clientSettings
  split
  · trivial
  · exact noDone_uname

theorem noDone_counters {me : Me} {feat : Str} {r : Cl} : NoDone (clientCounters me feat r) := by
  unfold clientCounters
  split
  · exact noDone_settings
  · exact noDone_settings

theorem noDone_includes {me : Me} {feat : Str} {r : Cl} : NoDone (clientIncludes me feat r) := by
  unfold clientIncludes
  split
  · trivial
  · exact noDone_counters

theorem noDone_orig {me : Me} {feat : Str} {r : Cl} : NoDone (clientOrig me feat r) := by
  unfold clientOrig
  split
  · exact noDone_includes
  · split <;> trivial

/-- What the server offers. -/
structure Feats (feat : Str) (srestore sincexc bl : Bool) : Prop where
  srestore : supports feat ":srestore:" = srestore
  sincexc : supports feat ":sincexc:" = sincexc
  orig : supports feat ":orig_client:" = true
  counters : supports feat ":counters_json:" = true
  incexc : supports feat ":incexc:" = true
  uname : supports feat ":uname:" = true
  msg : supports feat ":msg:" = true
  blake2 : supports feat ":rshash=blake2:" = bl
  failover : supports feat ":failover:" = true
  seed : supports feat ":seed:" = true
  vss : supports feat ":vss_restore:" = true
  icase : supports feat ":regex_icase:" = true

theorem feats (a b bl : Bool) : Feats (featureList a b true bl) a b bl := by
  have key : ∀ a b bl : Bool,
      (supports (featureList a b true bl) ":srestore:" = a ∧ supports (featureList a b true bl) ":sincexc:" = b ∧
       supports (featureList a b true bl) ":rshash=blake2:" = bl) ∧
      [":orig_client:", ":counters_json:", ":incexc:", ":uname:", ":msg:", ":failover:", ":seed:", ":vss_restore:",
        ":regex_icase:"].all (fun x => supports (featureList a b true bl) x) = true := by decide +kernel
  obtain ⟨⟨h1, h2, h3⟩, h4⟩ := key a b bl
  simp only [List.all_cons, List.all_nil, Bool.and_eq_true, and_true] at h4
  obtain ⟨k1, k2, k3, k4, k5, k6, k7, k8, k9⟩ := h4
  exact ⟨h1, h2, k1, k2, k3, k4, k5, h3, k6, k7, k8, k9⟩

theorem feats_ok (a b bl : Bool) : (bytes "extra_comms_begin ok").isPrefixOf (featureList a b true bl) = true := by
  cases a <;> cases b <;> cases bl <;> decide +kernel

theorem rest_ends {me : Me} {feat : Str} {a b : Bool} (hf : Feats feat a b h.blake2) {r : Cl} {sv : Sv}
    (hp : sv.phase = .reading) (hfail : ¬ SeedsOk r.confs → allowed)
    (hq : SeedsOk r.confs → Q { r with confs := clientLate me h.blake2 r.confs }
      (finishServer { sv with confs := serverLate me r.act r.confs h.blake2 sv.confs })) :
    Ends h allowed Q ⟨clientRest me feat r, [], sv, []⟩ := by
  have e0 : clientRest me feat r = sendIf true (bytes "msg") (sendIf (me.blake2 && h.blake2) (bytes "rshash=blake2")
      (clientFailovers me feat r.act (clientSeeds feat (clientLate me h.blake2 r.confs)
        (clientFlags feat (clientLate me h.blake2 r.confs) (clientEnd { r with confs := clientLate me h.blake2 r.confs }))))) := by
    unfold clientRest clientLate
    rw [hf.msg, hf.blake2]; rfl
  rw [e0]
  have e1 : SeedsOk (clientLate me h.blake2 r.confs) ↔ SeedsOk r.confs := Iff.rfl
  have e2 : ∀ d, afterSeeds (clientLate me h.blake2 r.confs) d = afterSeeds r.confs d := fun d => rfl
  have e3 : ∀ d, afterFlags (clientLate me h.blake2 r.confs) d = afterFlags r.confs d := fun d => rfl
  refine sendIf_ends hp (fun d => set d .MESSAGE (.int 1)) rfl ?_
  rw [if_pos rfl]
  refine ends_sendIf (not_over hp) (sv' := { sv with confs := afterHash me h.blake2 (set sv.confs .MESSAGE (.int 1)) }) ?_ ?_ ?_
  · intro hb
    have hb2 : h.blake2 = true := (Bool.and_eq_true_iff.mp hb).2
    refine (step_reading (by exact hp) _).trans ?_
    rw [readOne, show classify (bytes "rshash=blake2") = .blake2 from rfl]
    show (if h.blake2 = true then _ else _) = _
    rw [if_pos hb2]
    unfold afterHash
    rw [if_pos hb]
  · intro hb
    simp only [afterHash, hb, Bool.false_eq_true, if_false]
  refine failovers_ends hf.failover hp ?_
  refine seeds_ends hf.seed hp (noDone_flags trivial) (fun hx => hfail (fun hy => hx (e1.mpr hy))) (fun hx => ?_)
  refine flags_ends hf.vss hf.icase hp (end_ends hp ?_)
  rw [e2, e3]
  exact hq (e1.mp hx)

theorem uname_ends {me : Me} {feat : Str} {a b : Bool} (hf : Feats feat a b h.blake2) {r : Cl} {sv : Sv}
    (hp : sv.phase = .reading) (hfail : ¬ (me.os ≠ some [] ∧ SeedsOk r.confs) → allowed)
    (hq : me.os ≠ some [] → SeedsOk r.confs → Q { r with confs := clientLate me h.blake2 r.confs }
      (finishServer { sv with confs := serverLate me r.act r.confs h.blake2 (afterUname me sv.confs) })) :
    Ends h allowed Q ⟨clientUname me feat r, [], sv, []⟩ := by
  unfold clientUname
  rw [hf.uname]
  unfold afterUname at hq
  cases ho : me.os with
  | none =>
    rw [ho] at hfail hq
    exact rest_ends hf hp (fun hx => hfail (fun hy => hx hy.2)) (hq (by simp))
  | some os =>
    rw [ho] at hfail hq
    by_cases he : os = []
    · subst he
      refine ends_send_failed (sv' := sv.fail.1) (not_over hp) ?_ rfl noDone_rest (hfail (by simp))
      rw [step_reading hp]
      show readOne h sv (bytes "uname=") = _
      rw [readOne, classify_no_uname]; rfl
    · refine ends_send (rs := []) (sv' := { sv with confs := if isWindows os then set sv.confs .CLIENT_IS_WINDOWS (.int 1) else sv.confs }) (not_over hp) ?_ ?_
      · rw [step_reading hp]
        show readOne h sv (bytes "uname=" ++ os) = _
        rw [readOne, classify_uname he]
      · exact rest_ends hf hp (fun hx => hfail (fun hy => hx hy.2)) (hq (by simpa using he))

theorem settings_ends {me : Me} {feat : Str} {a b : Bool} (hf : Feats feat a b h.blake2) {r : Cl} {sv : Sv}
    (hp : sv.phase = .reading) (hfail : ¬ (me.os ≠ some [] ∧ SeedsOk r.confs) → allowed)
    (hq : me.os ≠ some [] → SeedsOk r.confs → Q { r with confs := clientLate me h.blake2 r.confs }
      (finishServer { sv with
        incexc := some (withCompression sv.confs ((doSends Flags.incexc r.confs).flatMap (· ++ [newline]) ++ [newline])),
        confs := serverLate me r.act r.confs h.blake2 (afterUname me sv.confs) })) :
    Ends h allowed Q ⟨clientSettings me feat r, [], sv, []⟩ := by
  unfold clientSettings
  rw [hf.incexc, if_pos rfl]
  unfold sendSettings
  refine ends_send (rs := [bytes "incexc ok"]) (sv' := { sv with phase := .receiving none }) (not_over hp) ?_ (ends_expect ?_)
  · rw [step_reading hp]; rfl
  refine ends_sendAll _ (fun m hm => ?_) none sv (fun acc' hacc => ?_)
  · have := doSends_not (fun o ho => Or.inl ho) hm
    exact ⟨this.2.2.1, this.2.2.2⟩
  refine ends_send (rs := [bytes "incexc end ok"])
    (sv' := { sv with phase := .reading, incexc := some (withCompression sv.confs (addToIncexc acc' [newline])) })
    (by simp [Sv.over]) ?_ (ends_expect ?_)
  · simp [serverStep]
  simp only [Option.map_none, Option.getD_none, List.nil_append] at hacc
  rw [hacc]
  exact uname_ends hf rfl hfail hq

/-- The part of a deal that begins when the server has said what to include. -/
theorem counters_ends {me : Me} {feat : Str} {a b : Bool} (hf : Feats feat a b h.blake2) {r : Cl} {sv : Sv}
    (hp : sv.phase = .reading) (hfail : ¬ (me.os ≠ some [] ∧ SeedsOk r.confs) → allowed)
    (hq : me.os ≠ some [] → SeedsOk r.confs →
      Q { r with confs := clientLate me h.blake2 (set r.confs .SEND_CLIENT_CNTR (.int 1)) }
      (finishServer { sv with
        incexc := some (withCompression sv.confs ((doSends Flags.incexc r.confs).flatMap (· ++ [newline]) ++ [newline])),
        confs := serverLate me r.act r.confs h.blake2 (afterUname me (set sv.confs .SEND_CLIENT_CNTR (.int 1))) })) :
    Ends h allowed Q ⟨clientCounters me feat r, [], sv, []⟩ := by
  unfold clientCounters
  rw [hf.counters, if_pos rfl]
  refine ends_send (rs := []) (sv' := { sv with confs := set sv.confs .SEND_CLIENT_CNTR (.int 1) }) (not_over hp) ?_ ?_
  · rw [step_reading hp]; rfl
  refine settings_ends hf hp hfail ?_
  intro h1 h2
  have e : doSends Flags.incexc (set r.confs .SEND_CLIENT_CNTR (.int 1)) = doSends Flags.incexc r.confs := by
    unfold doSends
    congr 1
    funext o
    by_cases ho : o = .SEND_CLIENT_CNTR
    · subst ho; rfl
    · rw [set_ne _ _ ho]
  rw [e]
  exact hq h1 h2

/-- What both have in the end. -/
def finals (me : Me) (h : Host) (act : Act) (inc : Option Str) (c2 d2 : Confs) (sr : Bool) (un : List Str) : Cl × Sv :=
  (⟨act, clientLate me h.blake2 (set c2 .SEND_CLIENT_CNTR (.int 1)), inc⟩,
   finishServer ⟨.reading, serverLate me act c2 h.blake2 (afterUname me (set d2 .SEND_CLIENT_CNTR (.int 1))), sr,
     some (withCompression d2 ((doSends Flags.incexc c2).flatMap (· ++ [newline]) ++ [newline])), un⟩)

theorem counters_ends' {me : Me} {feat : Str} {a b : Bool} (hf : Feats feat a b h.blake2) {r : Cl} {d : Confs} {sr : Bool}
    {inc : Option Str} {un : List Str} (hfail : ¬ (me.os ≠ some [] ∧ SeedsOk r.confs) → allowed)
    (hq : me.os ≠ some [] → SeedsOk r.confs →
      Q (finals me h r.act r.incexc r.confs d sr un).1 (finals me h r.act r.incexc r.confs d sr un).2) :
    Ends h allowed Q ⟨clientCounters me feat r, [], ⟨.reading, d, sr, inc, un⟩, []⟩ :=
  counters_ends hf rfl hfail hq

/-- What has to be accepted from the includes on. -/
def IncOk (me : Me) (b : Bool) (act : Act) (inc : Option Str) (c1 d2 c2 : Confs) : Prop :=
  clientSincexc me.env b (doSends Flags.incexc d2 ++ [bytes "sincexc end"]) act inc c1 = some c2 ∧
    me.os ≠ some [] ∧ SeedsOk c2

theorem includes_ends {me : Me} {feat : Str} {a b : Bool} (hf : Feats feat a b h.blake2) {r : Cl} {d : Confs} {sr : Bool}
    {un : List Str} (hfail : (∀ c2, ¬ IncOk me b r.act r.incexc r.confs d c2) → allowed)
    (hq : ∀ c2 inc2, IncOk me b r.act r.incexc r.confs d c2 →
      Q (finals me h r.act inc2 c2 d sr un).1 (finals me h r.act inc2 c2 d sr un).2) :
    Ends h allowed Q ⟨clientIncludes me feat r, [], ⟨.reading, d, sr, none, un⟩, []⟩ := by
  unfold clientIncludes
  rw [hf.sincexc]
  split
  · rename_i hc
    obtain ⟨h1, h2, h3, h4⟩ := hc
    refine ends_send (rs := doSends Flags.incexc d ++ [bytes "sincexc end"]) (sv' := ⟨.sentIncludes, d, sr, none, un⟩)
      (not_over rfl) rfl ?_
    refine ends_recvUntil (fun m hm => (doSends_not (fun o ho => Or.inl ho) hm).2.1) (fun buf hb => ?_)
    refine ends_send (rs := []) (sv' := ⟨.reading, d, sr, none, un⟩) (by simp [Sv.over]) rfl ?_
    have e : clientSincexc me.env b (doSends Flags.incexc d ++ [bytes "sincexc end"]) r.act r.incexc r.confs =
        match parseIncexcsBuf me.env r.confs buf with
        | .ok c => some c
        | _ => none := by
      unfold clientSincexc
      rw [if_pos ⟨h1, h2, h3⟩, if_pos h4, hb]
      dsimp only
      cases parseIncexcsBuf me.env r.confs buf <;> rfl
    cases hp : parseIncexcsBuf me.env r.confs buf with
    | ok c2 =>
      rw [hp] at e
      simp only
      refine counters_ends' hf (fun hx => hfail (fun c hc => hx ?_)) (fun ho hs => hq c2 (some buf) ⟨e, ho, hs⟩)
      have := hc.1
      rw [e] at this
      injection this with this
      subst this
      exact hc.2
    | error =>
      rw [hp] at e
      exact ends_client_failed _ _ (hfail (fun c hc => by have := hc.1; rw [e] at this; cases this))
    | undefined =>
      rw [hp] at e
      exact ends_client_failed _ _ (hfail (fun c hc => by have := hc.1; rw [e] at this; cases this))
  · rename_i hc
    have e : clientSincexc me.env b (doSends Flags.incexc d ++ [bytes "sincexc end"]) r.act r.incexc r.confs =
        some r.confs := by
      unfold clientSincexc
      split
      · rename_i hx
        rw [if_neg (fun hy => hc ⟨hx.1, hx.2.1, hx.2.2, hy⟩)]
      · rfl
    refine counters_ends' hf (fun hx => hfail (fun c hc => hx ?_)) (fun ho hs => hq r.confs r.incexc ⟨e, ho, hs⟩)
    have := hc.1
    rw [e] at this
    injection this with this
    subst this
    exact hc.2

/-- The server acts for the right client. -/
def OrigOk (h : Host) (tk : Bool) (c1 d1 d2 : Confs) : Prop :=
  match getStr c1 .ORIG_CLIENT with
  | none => d2 = d1
  | some o => o ≠ [] ∧ ∃ x, switchConfs h d1 (o.take 499) = some x ∧
      if tk then parsePath h x (getStr x .RESTORE_PATH) = some d2 else d2 = x

theorem orig_ends {me : Me} {feat : Str} {a b : Bool} (hf : Feats feat a b h.blake2) {r : Cl} {d : Confs} {sr : Bool}
    {un : List Str}
    (hfail : (∀ d2 c2, OrigOk h sr r.confs d d2 → ¬ IncOk me b r.act r.incexc r.confs d2 c2) → allowed)
    (hq : ∀ d2 c2 inc2, OrigOk h sr r.confs d d2 → IncOk me b r.act r.incexc r.confs d2 c2 →
      Q (finals me h r.act inc2 c2 d2 sr un).1 (finals me h r.act inc2 c2 d2 sr un).2) :
    Ends h allowed Q ⟨clientOrig me feat r, [], ⟨.reading, d, sr, none, un⟩, []⟩ := by
  unfold clientOrig
  unfold OrigOk at hfail hq
  cases ho : getStr r.confs .ORIG_CLIENT with
  | none =>
    rw [ho] at hfail hq
    refine includes_ends hf (fun hx => hfail (fun d2 c2 e => ?_)) (fun c2 inc2 hi => hq d c2 inc2 rfl hi)
    rw [show d2 = d from e]; exact hx c2
  | some o =>
    rw [ho] at hfail hq
    simp only at hfail hq ⊢
    rw [hf.orig, if_pos rfl]
    by_cases he : o = []
    · subst he
      refine ends_send_failed (sv' := ⟨.failed, d, sr, none, un⟩) (not_over rfl) ?_ rfl trivial
        (hfail (fun d2 c2 e => absurd rfl e.1))
      refine (step_reading rfl _).trans ?_
      rw [readOne, classify_no_orig]; rfl
    cases hs : switchConfs h d (o.take 499) with
    | none =>
      refine ends_send_failed (sv' := ⟨.failed, d, sr, none, un⟩) (not_over rfl) ?_ rfl trivial
        (hfail (fun d2 c2 e => by obtain ⟨_, x, hx, _⟩ := e; rw [hs] at hx; cases hx))
      refine (step_reading rfl _).trans ?_
      rw [readOne, classify_orig he]
      simp only [hs]; rfl
    | some x =>
      cases sr with
      | false =>
        refine ends_send (rs := [bytes "orig_client ok"]) (sv' := ⟨.reading, x, false, none, un⟩) (not_over rfl) ?_ (ends_expect ?_)
        · refine (step_reading rfl _).trans ?_
          rw [readOne, classify_orig he]
          simp only [hs, Bool.false_eq_true, if_false]
        · refine includes_ends hf (fun hx => hfail (fun d2 c2 e => ?_))
            (fun c2 inc2 hi => hq x c2 inc2 ⟨he, x, hs, by simp⟩ hi)
          obtain ⟨_, y, hy, e⟩ := e
          rw [hs] at hy; injection hy with hy; subst hy
          simp only [Bool.false_eq_true, if_false] at e
          rw [e]; exact hx c2
      | true =>
        cases hp : parsePath h x (getStr x .RESTORE_PATH) with
        | none =>
          refine ends_send_failed (sv' := ⟨.failed, d, true, none, un⟩) (not_over rfl) ?_ rfl trivial
            (hfail (fun d2 c2 e => by
              obtain ⟨_, y, hy, e⟩ := e
              rw [hs] at hy; injection hy with hy; subst hy
              rw [if_pos rfl, hp] at e; cases e))
          refine (step_reading rfl _).trans ?_
          rw [readOne, classify_orig he]
          simp only [hs, if_true, hp]; rfl
        | some d2 =>
          refine ends_send (rs := [bytes "orig_client ok"]) (sv' := ⟨.reading, d2, true, none, un⟩) (not_over rfl) ?_ (ends_expect ?_)
          · refine (step_reading rfl _).trans ?_
            rw [readOne, classify_orig he]
            simp only [hs, if_true, hp]
          · refine includes_ends hf (fun hx => hfail (fun d3 c2 e => ?_))
              (fun c2 inc2 hi => hq d2 c2 inc2 ⟨he, x, hs, by simp [hp]⟩ hi)
            obtain ⟨_, y, hy, e⟩ := e
            rw [hs] at hy; injection hy with hy; subst hy
            rw [if_pos rfl, hp] at e
            injection e with e; subst e
            exact hx c2

/-- What is accepted, altogether. -/
theorem Deal.parts {me : Me} {act : Act} {c d d1 d2 : Confs} {act1 : Act} {c1 : Confs} {inc1 : Option Str} {c2 : Confs}
    (x : Deal me h act c d d1 d2 act1 c1 inc1 c2) :
    OrigOk h (Takes h act c d) c1 d1 d2 ∧
      IncOk me (decide (getLst d .STARTDIR ≠ [] ∨ getLst d .INCGLOB ≠ [])) act1 inc1 c1 d2 c2 :=
  ⟨x.acts_for, x.client_includes, x.os, x.seeds⟩

/-- The client is new enough for counters. -/
def Recent (h : Host) : Prop := Version.versionToLong (some (bytes "2.0.46")) ≤ h.cli

theorem start_of_recent (hr : Recent h) (d : Confs) : serverStart h d = ⟨.start, d, false, none, []⟩ := by
  have e : (20046 : Int) ≤ h.cli := hr
  unfold serverStart
  rw [if_neg (by omega), show Version.versionToLong (some (bytes "1.3.6")) = 10306 from by decide,
    show Version.versionToLong (some (bytes "1.2.7")) = 10207 from by decide, if_neg (by omega), if_neg (by omega)]

/-- One schedule, to its end. -/
theorem ends_start (hr : Recent h) (me : Me) (act : Act) (c d : Confs) :
    Ends h (∀ d1 d2 act1 c1 inc1 c2, ¬ Deal me h act c d d1 d2 act1 c1 inc1 c2)
      (fun r s => ∃ d1 d2 act1 c1 inc1 c2 inc2, Deal me h act c d d1 d2 act1 c1 inc1 c2 ∧
        (r, s) = finals me h act1 inc2 c2 d2 (Takes h act c d)
          (if Refuses h act c d then (getStr (setRestorePath h d) .RESTORE_PATH).toList else []))
      (start h me act c d) := by
  unfold start client
  rw [start_of_recent hr]
  have hcl : (20046 : Int) ≤ h.cli := hr
  refine ends_send (rs := [features h d]) (sv' := ⟨.reading, setRestorePath h d, false, none, []⟩) (by simp [Sv.over]) ?_ ?_
  · unfold serverStep
    simp only [if_true]
    rw [if_neg]
    rw [show Version.versionToLong (some (bytes "1.3.0")) = 10300 from by decide]
    omega
  refine Ends.step (Step.recv ..) ?_
  have hfe : features h d = featureList (Offers h d) (decide (getLst d .STARTDIR ≠ [] ∨ getLst d .INCGLOB ≠ [])) true h.blake2 := by
    unfold features
    rw [show decide (Version.versionToLong (some (bytes "2.0.46")) ≤ h.cli) = true from decide_eq_true hr]
    rfl
  rw [hfe, if_pos (feats_ok _ _ _)]
  have hf := feats (Offers h d) (decide (getLst d .STARTDIR ≠ [] ∨ getLst d .INCGLOB ≠ [])) h.blake2
  generalize featureList (Offers h d) (decide (getLst d .STARTDIR ≠ [] ∨ getLst d .INCGLOB ≠ [])) true h.blake2 = feat at hf
  unfold clientRestore
  rw [hf.srestore]
  -- without a restore
  have plain : ∀ d1 un, Takes h act c d = false →
      d1 = (if Refuses h act c d then set (setRestorePath h d) .RESTORE_PATH (.str none) else setRestorePath h d) →
      un = (if Refuses h act c d then (getStr (setRestorePath h d) .RESTORE_PATH).toList else []) →
      (∀ ms, clientSrestore me.env (Offers h d) ms act c = some (act, c, none)) →
      Ends h (∀ d1 d2 act1 c1 inc1 c2, ¬ Deal me h act c d d1 d2 act1 c1 inc1 c2)
        (fun r s => ∃ d1 d2 act1 c1 inc1 c2 inc2, Deal me h act c d d1 d2 act1 c1 inc1 c2 ∧
          (r, s) = finals me h act1 inc2 c2 d2 (Takes h act c d)
            (if Refuses h act c d then (getStr (setRestorePath h d) .RESTORE_PATH).toList else []))
        ⟨clientOrig me feat ⟨act, c, none⟩, [], ⟨.reading, d1, false, none, un⟩, []⟩ := by
    intro d1 un ht e1 e2 hc
    refine orig_ends hf ?_ ?_
    · intro hx d1' d2 act1 c1 inc1 c2 hd
      have h1 := hd.server_restore
      rw [ht, if_neg (by simp), ← e1] at h1
      subst h1
      have h2 := hd.client_restore
      rw [hc] at h2
      injection h2 with h2
      injection h2 with h2 h3
      injection h3 with h3 h4
      subst h2; subst h3; subst h4
      have hp := hd.parts
      rw [ht] at hp
      exact hx d2 c2 hp.1 hp.2
    · intro d2 c2 inc2 ho hi
      refine ⟨d1, d2, act, c, none, c2, inc2, ⟨?_, hc _, ?_, hi.1, hi.2.1, hi.2.2⟩, ?_⟩
      · rw [ht, if_neg (by simp)]; exact e1
      · rw [ht]; exact ho
      · rw [ht, ← e2]
  cases hof : Offers h d with
  | false =>
    rw [if_neg Bool.false_ne_true]
    have t : Takes h act c d = false := by simp [Takes, hof]
    have r : Refuses h act c d = false := by simp [Refuses, hof]
    exact plain _ _ t (by rw [r]; rfl) (by rw [r]; rfl) (fun ms => by rw [hof]; rfl)
  | true =>
    rw [if_pos rfl]
    by_cases hm : act = .monitor
    · rw [if_pos hm]
      have t : Takes h act c d = false := by simp [Takes, hm]
      have r : Refuses h act c d = false := by simp [Refuses, hm]
      exact plain _ _ t (by simp [r]) (by simp [r]) (fun ms => by rw [hof]; unfold clientSrestore; simp [hm])
    · rw [if_neg hm]
      by_cases hi : getInt c .SERVER_CAN_RESTORE = 0
      · rw [if_neg (not_not_intro hi)]
        have t : Takes h act c d = false := by simp [Takes, hi]
        have r : Refuses h act c d = true := by simp [Refuses, hi, hof, hm]
        refine ends_send (rs := []) (sv' := ⟨.reading, set (setRestorePath h d) .RESTORE_PATH (.str none), false, none,
          (getStr (setRestorePath h d) .RESTORE_PATH).toList ++ []⟩) (not_over rfl) rfl ?_
        exact plain _ _ t (by simp [r]) (by simp [r])
          (fun ms => by rw [hof]; unfold clientSrestore; simp [hm, hi])
      · rw [if_pos hi]
        have t : Takes h act c d = true := by simp [Takes, hi, hof, hm]
        have r : Refuses h act c d = false := by simp [Refuses, hi]
        obtain ⟨path, hpath⟩ := Option.isSome_iff_exists.mp (show (getStr (setRestorePath h d) .RESTORE_PATH).isSome = true from hof)
        cases hp : parsePath h (set (setRestorePath h d) .INCEXCDIR (.lst [])) (some path) with
        | none =>
          refine ends_send_failed (sv' := ⟨.failed, setRestorePath h d, true, none, []⟩) (not_over rfl) ?_ rfl trivial ?_
          · refine (step_reading rfl _).trans ?_
            rw [readOne, show classify (bytes "srestore ok") = .restoreOk from rfl]
            simp only [hpath, hp]
          · intro d1 d2 act1 c1 inc1 c2 hd
            have h1 := hd.server_restore
            rw [t, if_pos rfl, hpath, hp] at h1
            cases h1
        | some d1 =>
          refine ends_send (rs := doSends Flags.incexcRestore d1 ++ [bytes "srestore end"])
            (sv' := ⟨.sentRestore, d1, true, none, []⟩) (not_over rfl) ?_ ?_
          · refine (step_reading rfl _).trans ?_
            rw [readOne, show classify (bytes "srestore ok") = .restoreOk from rfl]
            simp only [hpath, hp]
          refine ends_recvUntil (fun m hm => (doSends_not (fun o ho => Or.inr ho) hm).1) (fun buf hb => ?_)
          refine ends_send (rs := []) (sv' := ⟨.reading, d1, true, none, []⟩) (by simp [Sv.over]) rfl ?_
          have hdet : ∀ {d1' d2 act1 c1 inc1 c2}, Deal me h act c d d1' d2 act1 c1 inc1 c2 → d1' = d1 := by
            intro d1' d2 act1 c1 inc1 c2 hd
            have h1 := hd.server_restore
            rw [t, if_pos rfl, hpath, hp] at h1
            injection h1 with h1; exact h1.symm
          have e : clientSrestore me.env true (doSends Flags.incexcRestore d1 ++ [bytes "srestore end"]) act c =
              match parseIncexcsSrestore me.env c buf with
              | .ok c => some (.restore, c, some buf)
              | _ => none := by
            unfold clientSrestore
            rw [if_neg (by simp), if_neg hm, if_pos hi, hb]
            dsimp only
            cases parseIncexcsSrestore me.env c buf <;> rfl
          cases hq : parseIncexcsSrestore me.env c buf with
          | ok c1 =>
            rw [hq] at e
            simp only
            refine orig_ends hf ?_ ?_
            · intro hx d1' d2 act1 c1' inc1 c2 hd
              cases hdet hd
              have h2 := hd.client_restore
              rw [hof, e] at h2
              injection h2 with h2
              injection h2 with h2 h3
              injection h3 with h3 h4
              subst h2; subst h3; subst h4
              have hp := hd.parts
              rw [t] at hp
              exact hx d2 c2 hp.1 hp.2
            · intro d2 c2 inc2 ho hi
              refine ⟨d1, d2, .restore, c1, some buf, c2, inc2, ⟨?_, ?_, ?_, hi.1, hi.2.1, hi.2.2⟩, ?_⟩
              · rw [t, if_pos rfl, hpath]; exact hp
              · rw [hof]; exact e
              · rw [t]; exact ho
              · rw [t, r]; rfl
          | error =>
            rw [hq] at e
            refine ends_client_failed _ _ (fun d1' d2 act1 c1 inc1 c2 hd => ?_)
            cases hdet hd
            have h2 := hd.client_restore
            rw [hof, e] at h2; cases h2
          | undefined =>
            rw [hq] at e
            refine ends_client_failed _ _ (fun d1' d2 act1 c1 inc1 c2 hd => ?_)
            cases hdet hd
            have h2 := hd.client_restore
            rw [hof, e] at h2; cases h2

end Verif.Negotiate
