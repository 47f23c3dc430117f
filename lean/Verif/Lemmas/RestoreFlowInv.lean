import Verif.Lemmas.RestoreFlow

/-!
# What holds all the time while the data of a restore are sent
-/

namespace Verif.RestoreFlow
open Verif Verif.Transfer
open Verif.Exchange (bufMax wire load fits carries Room Small load_append load_suffix fits_nil)

/-! ### What the server has yet to do -/

/-- A look between two entries, or an entry. -/
inductive Item where
  | drain
  | ent (e : Entry)
  deriving DecidableEq, Repr

/-- What the server does for it. -/
def Item.ops : Item → List Op
  | .drain => [.drain]
  | .ent e => entryOps e

/-- The entry. -/
def Item.entry : Item → Option Entry
  | .drain => none
  | .ent e => some e

/-- The data paths of some items. -/
def dpths (its : List Item) : List Str := (its.filterMap Item.entry).filterMap Entry.dpth

/-- The pieces of a file, the end marker, and what follows. -/
def body (d : Str) (pieces : List Str) (ender : Str) (tail : List Op) : List Op :=
  pieces.flatMap (fun p => [.say ⟨.append, p⟩, .look d]) ++ (.say ⟨.endFile, ender⟩ :: tail)

/-- Messages about which nothing is interrupted. -/
def Quiet (ops : List Op) : Prop := ∀ o ∈ ops, ∃ m, o = .say m ∧ hasData m.cmd = false

/-- Where the server is within an entry, given the client that is as far, what the client has said by then, and the
data paths that are to come. -/
inductive Cur (mode : CMode) (dp : Option Str) (snt : List Msg) (ds : List Str) : List Op → Prop where
  | quiet (ops : List Op) : Quiet ops → Cur mode dp snt ds ops
  | h0 (d attr path : Str) (cmd : Cmd) (pieces : List Str) (ender : Str) (tail : List Op) : hasData cmd = true →
      d ≠ [] → d ∉ ds → ⟨.interrupt, d⟩ ∉ snt → Quiet tail →
      Cur mode dp snt ds (.say ⟨.datapth, d⟩ :: .say ⟨.attribs, attr⟩ :: .say ⟨cmd, path⟩ :: body d pieces ender tail)
  | h1 (d attr path : Str) (cmd : Cmd) (pieces : List Str) (ender : Str) (tail : List Op) : hasData cmd = true →
      d ∉ ds → ⟨.interrupt, d⟩ ∉ snt → mode = .idle → dp = some d → Quiet tail →
      Cur mode dp snt ds (.say ⟨.attribs, attr⟩ :: .say ⟨cmd, path⟩ :: body d pieces ender tail)
  | h2 (d path : Str) (cmd : Cmd) (pieces : List Str) (ender : Str) (tail : List Op) : hasData cmd = true →
      d ∉ ds → ⟨.interrupt, d⟩ ∉ snt → mode = .idle → dp = some d → Quiet tail →
      Cur mode dp snt ds (.say ⟨cmd, path⟩ :: body d pieces ender tail)
  | file (d : Str) (pieces : List Str) (ender : Str) (tail : List Op) :
      ((∃ p, mode = .skipping p) ∨ ((∃ p g a, mode = .taking p g a) ∧ ⟨.interrupt, d⟩ ∉ snt)) → Quiet tail →
      Cur mode dp snt ds (body d pieces ender tail)
  | look (d : Str) (pieces : List Str) (ender : Str) (tail : List Op) :
      ((∃ p, mode = .skipping p) ∨ ((∃ p g a, mode = .taking p g a) ∧ ⟨.interrupt, d⟩ ∉ snt)) → Quiet tail →
      Cur mode dp snt ds (.look d :: body d pieces ender tail)

/-- What the server has yet to do. -/
def Shape (mode : CMode) (dp : Option Str) (snt : List Msg) (ops : List Op) : Prop :=
  ∃ cur its fin, ops = cur ++ (its.flatMap Item.ops ++ fin) ∧ (fin = [.say endMsg] ∨ (fin = [] ∧ its = [])) ∧
    (∀ e, .ent e ∈ its → e.Fine) ∧ (dpths its).Nodup ∧ (∀ d, ⟨.interrupt, d⟩ ∈ snt → d ∉ dpths its) ∧
    Cur mode dp snt (dpths its) cur

theorem cur_fewer {mode : CMode} {dp : Option Str} {snt snt' : List Msg} {ds : List Str} {ops : List Op}
    (h : Cur mode dp snt ds ops) (hs : ∀ d, ⟨.interrupt, d⟩ ∈ snt' → (⟨.interrupt, d⟩ : Msg) ∈ snt) :
    Cur mode dp snt' ds ops := by
  cases h with
  | quiet _ q => exact .quiet _ q
  | h0 d attr path cmd pieces ender tail a b c e f => exact .h0 d attr path cmd pieces ender tail a b c (fun h => e (hs _ h)) f
  | h1 d attr path cmd pieces ender tail a b c e f g =>
    exact .h1 d attr path cmd pieces ender tail a b (fun h => c (hs _ h)) e f g
  | h2 d path cmd pieces ender tail a b c e f g =>
    exact .h2 d path cmd pieces ender tail a b (fun h => c (hs _ h)) e f g
  | file d pieces ender tail a b =>
    refine .file d pieces ender tail ?_ b
    rcases a with a | ⟨a, a'⟩
    · exact .inl a
    · exact .inr ⟨a, fun h => a' (hs _ h)⟩
  | look d pieces ender tail a b =>
    refine .look d pieces ender tail ?_ b
    rcases a with a | ⟨a, a'⟩
    · exact .inl a
    · exact .inr ⟨a, fun h => a' (hs _ h)⟩

theorem shape_fewer {mode : CMode} {dp : Option Str} {snt snt' : List Msg} {ops : List Op}
    (h : Shape mode dp snt ops) (hs : ∀ d, ⟨.interrupt, d⟩ ∈ snt' → (⟨.interrupt, d⟩ : Msg) ∈ snt) :
    Shape mode dp snt' ops := by
  obtain ⟨cur, its, fin, a, b, c, d, e, f⟩ := h
  exact ⟨cur, its, fin, a, b, c, d, fun x hx => e x (hs x hx), cur_fewer f hs⟩

theorem quiet_says (ws : List Str) : Quiet (ws.map (fun w => .say ⟨.warning, w⟩)) := by
  intro o ho
  simp only [List.mem_map] at ho
  obtain ⟨w, _, rfl⟩ := ho
  exact ⟨_, rfl, rfl⟩

theorem entryOps_ne (e : Entry) : entryOps e ≠ [] := by
  cases e <;> simp [entryOps]

/-- An entry is begun. -/
theorem cur_entry (mode : CMode) (dp : Option Str) (snt : List Msg) (ds : List Str) (e : Entry) (he : e.Fine)
    (hd : ∀ d, e.dpth = some d → d ∉ ds ∧ ⟨.interrupt, d⟩ ∉ snt) : Cur mode dp snt ds (entryOps e) := by
  cases e with
  | plain cmd path attr =>
    refine .quiet _ ?_
    intro o ho
    have hk := he.1
    simp only [entryOps, List.mem_cons, List.not_mem_nil, or_false] at ho
    rcases ho with rfl | rfl
    · exact ⟨_, rfl, rfl⟩
    · refine ⟨_, rfl, ?_⟩
      rcases hk with rfl | rfl <;> rfl
  | link cmd path attr target =>
    refine .quiet _ ?_
    intro o ho
    have hk : cmd.isLink = true := he.1
    have hk' : hasData cmd = false := by cases cmd <;> first | rfl | exact absurd hk (by decide)
    simp only [entryOps, List.mem_cons, List.not_mem_nil, or_false] at ho
    rcases ho with rfl | rfl | rfl
    · exact ⟨_, rfl, rfl⟩
    · exact ⟨_, rfl, hk'⟩
    · exact ⟨_, rfl, hk'⟩
  | data cmd path attr d pieces ender aft =>
    obtain ⟨hk, h1, h2⟩ := he.1
    exact .h0 d attr path cmd pieces ender _ (by simpa [hasData] using hk) h1 (hd d rfl).1 (hd d rfl).2 (quiet_says aft)
  | missing attr d warn =>
    refine .quiet _ ?_
    intro o ho
    simp only [entryOps, List.mem_cons, List.not_mem_nil, or_false] at ho
    rcases ho with rfl | rfl | rfl
    · exact ⟨_, rfl, rfl⟩
    · exact ⟨_, rfl, rfl⟩
    · exact ⟨_, rfl, rfl⟩

/-- The next entry is begun if there is nothing left of the one before. -/
theorem shape_norm {mode : CMode} {dp : Option Str} {snt : List Msg} {ops : List Op} (h : Shape mode dp snt ops) :
    ∃ cur its fin, ops = cur ++ (its.flatMap Item.ops ++ fin) ∧ (fin = [.say endMsg] ∨ (fin = [] ∧ its = [])) ∧
      (∀ e, .ent e ∈ its → e.Fine) ∧ (dpths its).Nodup ∧ (∀ d, ⟨.interrupt, d⟩ ∈ snt → d ∉ dpths its) ∧
      Cur mode dp snt (dpths its) cur ∧
      (cur ≠ [] ∨ (cur = [] ∧ ∃ r, its = .drain :: r) ∨ ops = []) := by
  obtain ⟨cur, its, fin, a, b, c, d, e, f⟩ := h
  by_cases hc : cur = []
  · subst hc
    cases its with
    | nil =>
      rcases b with rfl | ⟨rfl, _⟩
      · refine ⟨[.say endMsg], [], [], by simpa using a, .inr ⟨rfl, rfl⟩, c, d, e, .quiet _ ?_, .inl (by simp)⟩
        intro o ho
        rw [List.mem_singleton] at ho
        exact ⟨_, ho, rfl⟩
      · exact ⟨[], [], [], a, .inr ⟨rfl, rfl⟩, c, d, e, f, .inr (.inr (by simpa using a))⟩
    | cons i its =>
      cases i with
      | drain => exact ⟨[], _, fin, a, b, c, d, e, f, .inr (.inl ⟨rfl, its, rfl⟩)⟩
      | ent x =>
        have hfin : fin = [.say endMsg] := by
          rcases b with h | ⟨_, h⟩
          · exact h
          · simp at h
        have edp : dpths (.ent x :: its) = (match x.dpth with | some d => d :: dpths its | none => dpths its) := by
          simp only [dpths, Item.entry, List.filterMap_cons]
          cases x.dpth <;> rfl
        refine ⟨entryOps x, its, fin, ?_, .inl hfin, fun y hy => c y (by simp [hy]), ?_, ?_, ?_, .inl (entryOps_ne x)⟩
        · rw [a]
          simp [Item.ops]
        · rw [edp] at d
          cases hx : x.dpth with
          | none => rw [hx] at d; exact d
          | some dd => rw [hx] at d; exact (List.nodup_cons.1 d).2
        · intro dd hdd hm
          apply e dd hdd
          rw [edp]
          cases hx : x.dpth with
          | none => exact hm
          | some d2 => exact List.mem_cons_of_mem _ hm
        · refine cur_entry _ _ _ _ x (c x (by simp)) ?_
          intro dd hx
          rw [edp, hx] at d e
          exact ⟨(List.nodup_cons.1 d).1, fun hm => e dd hm (by simp)⟩
  · exact ⟨cur, its, fin, a, b, c, d, e, f, .inl hc⟩

/-! ### The server writes -/

theorem read_datapth (c : Cli) (d : Str) (hd : d ≠ [])
    (hf : (cliRead { c with pend := [] } ⟨.datapth, d⟩).mode ≠ .failed) :
    cliRead { c with pend := [] } ⟨.datapth, d⟩ = { c with pend := [], datapth := some d } ∧ c.mode = .idle := by
  obtain ⟨mode, dp, rs, pend, log⟩ := c
  cases mode with
  | idle => simp [cliRead, endMsg]
  | link p => exact absurd (by simp [cliRead, Cmd.isLink]) hf
  | taking p g a => exact absurd (by simp [cliRead]) hf
  | skipping p => exact absurd (by simp [cliRead, hd]) hf
  | over => exact absurd (by simp [cliRead]) hf
  | failed => exact absurd (by simp [cliRead]) hf

theorem read_data (c : Cli) (cmd : Cmd) (path : Str) (hk : hasData cmd = true) (hm : c.mode = .idle) :
    cliRead c ⟨cmd, path⟩ = dealData c path := by
  obtain ⟨mode, dp, rs, pend, log⟩ := c
  simp only at hm
  subst hm
  have h1 : (⟨cmd, path⟩ : Msg) ≠ endMsg := by
    intro h
    have : cmd = .gen := congrArg Msg.cmd h
    rw [this] at hk
    exact absurd hk (by decide)
  have h2 : cmd ≠ .datapth := by rintro rfl; exact absurd hk (by decide)
  have h3 : cmd ≠ .attribs := by rintro rfl; exact absurd hk (by decide)
  have h4 : ¬ (cmd = .message ∨ cmd = .warning) := by
    rintro (rfl | rfl) <;> exact absurd hk (by decide)
  have h5 : ¬ (cmd.isLink = true) := by
    intro h
    cases cmd <;> first | exact absurd h (by decide) | exact absurd hk (by decide)
  unfold hasData at hk
  simp only [cliRead]
  rw [if_neg h1, if_neg h2, if_neg h3, if_neg h4, if_neg h5, if_pos hk]

theorem read_attribs (c : Cli) (a : Str) (hm : c.mode = .idle) : cliRead c ⟨.attribs, a⟩ = c := by
  obtain ⟨mode, dp, rs, pend, log⟩ := c
  simp only at hm
  subst hm
  simp [cliRead, endMsg]

/-- The server writes a message of an entry. -/
theorem cur_say (c : Cli) (snt : List Msg) (ds : List Str) (m : Msg) (ops : List Op)
    (h : Cur c.mode c.datapth snt ds (.say m :: ops))
    (hf : (cliRead { c with pend := [] } m).mode ≠ .failed)
    (hi : ∀ d, ⟨.interrupt, d⟩ ∈ snt → d ∉ ds) :
    Cur (cliRead { c with pend := [] } m).mode (cliRead { c with pend := [] } m).datapth (snt ++ emit c m) ds ops ∧
      ∀ d, ⟨.interrupt, d⟩ ∈ snt ++ emit c m → d ∉ ds := by
  have quiet : hasData m.cmd = false → ∀ d, ⟨.interrupt, d⟩ ∈ snt ++ emit c m → (⟨.interrupt, d⟩ : Msg) ∈ snt := by
    intro hq d hd
    rcases List.mem_append.1 hd with hd | hd
    · exact hd
    · exact absurd rfl (emit_quiet c m hq _ hd)
  generalize e : Op.say m :: ops = l at h
  cases h with
  | quiet _ q =>
    subst e
    obtain ⟨m', e', hq⟩ := q (.say m) (by simp)
    injection e' with e'
    subst e'
    exact ⟨.quiet _ (fun o ho => q o (by simp [ho])), fun d hd => hi d (quiet hq d hd)⟩
  | h0 d attr path cmd pieces ender tail a b c' e' f =>
    injection e with e1 e2
    injection e1 with e1
    subst e1 e2
    obtain ⟨r1, r2⟩ := read_datapth c d b hf
    rw [r1]
    have q := quiet rfl
    exact ⟨.h1 d attr path cmd pieces ender tail a c' (fun h => e' (q _ h)) r2 rfl f, fun x hx => hi x (q x hx)⟩
  | h1 d attr path cmd pieces ender tail a b c' e' f g =>
    injection e with e1 e2
    injection e1 with e1
    subst e1 e2
    rw [read_attribs { c with pend := [] } attr e']
    have q := quiet rfl
    exact ⟨.h2 d path cmd pieces ender tail a b (fun h => c' (q _ h)) e' f g, fun x hx => hi x (q x hx)⟩
  | h2 d path cmd pieces ender tail a b c' e' f g =>
    injection e with e1 e2
    injection e1 with e1
    subst e1 e2
    unfold emit
    rw [read_data { c with pend := [] } cmd path a e'] at hf ⊢
    unfold dealData at hf ⊢
    cases hr : c.replies with
    | nil => simp [hr] at hf
    | cons r rs =>
      simp only [hr] at hf ⊢
      cases hrr : r.refuse with
      | true =>
        simp only [f, if_true]
        refine ⟨.file d pieces ender tail (.inl ⟨path, rfl⟩) g, ?_⟩
        intro x hx
        simp only [List.mem_append, List.mem_singleton] at hx
        rcases hx with hx | hx | hx
        · exact hi x hx
        · exact absurd (says_cmd _ _ hx) (by simp)
        · have : x = d := congrArg Msg.buf hx
          rw [this]
          exact b
      | false =>
        simp only [Bool.false_eq_true, if_false]
        have q : ∀ x, (⟨.interrupt, x⟩ : Msg) ∈ snt ++ says r.warns → (⟨.interrupt, x⟩ : Msg) ∈ snt := by
          intro x hx
          rcases List.mem_append.1 hx with hx | hx
          · exact hx
          · exact absurd (says_cmd _ _ hx) (by simp)
        exact ⟨.file d pieces ender tail (.inr ⟨⟨_, _, _, rfl⟩, fun h => c' (q _ h)⟩) g, fun x hx => hi x (q x hx)⟩
  | file d pieces ender tail a g =>
    cases pieces with
    | nil =>
      have e' : Op.say m :: ops = .say ⟨.endFile, ender⟩ :: tail := e
      injection e' with e1 e2
      injection e1 with e1
      subst e1 e2
      have q := quiet rfl
      exact ⟨.quiet _ g, fun x hx => hi x (q x hx)⟩
    | cons p ps =>
      have e' : Op.say m :: ops = .say ⟨.append, p⟩ :: .look d :: body d ps ender tail := e
      injection e' with e1 e2
      injection e1 with e1
      subst e1 e2
      have q := quiet rfl
      refine ⟨.look d ps ender tail ?_ g, fun x hx => hi x (q x hx)⟩
      rcases a with ⟨p', hp'⟩ | ⟨⟨p', g', a', hp'⟩, hn⟩
      · refine .inl ⟨p', ?_⟩
        simp [cliRead, hp']
      · refine .inr ⟨⟨p', g' ++ [p], a', ?_⟩, fun h => hn (q _ h)⟩
        simp [cliRead, hp']
  | look d pieces ender tail a g => exact absurd e (by simp)

theorem shape_say (c : Cli) (snt : List Msg) (m : Msg) (ops : List Op)
    (h : Shape c.mode c.datapth snt (.say m :: ops)) (hf : (cliRead { c with pend := [] } m).mode ≠ .failed) :
    Shape (cliRead { c with pend := [] } m).mode (cliRead { c with pend := [] } m).datapth (snt ++ emit c m) ops := by
  obtain ⟨cur, its, fin, a, b, c', d, e, f, g⟩ := shape_norm h
  rcases g with g | ⟨g, r, hr⟩ | g
  · cases cur with
    | nil => exact absurd rfl g
    | cons o cur =>
      injection a with a1 a2
      subst a1
      obtain ⟨k1, k2⟩ := cur_say c snt (dpths its) m cur f hf e
      exact ⟨cur, its, fin, a2, b, c', d, k2, k1⟩
  · rw [g, hr] at a
    simp [Item.ops] at a
  · simp at g

/-! ### The server looks -/

theorem shape_look {mode : CMode} {dp : Option Str} {snt : List Msg} {d : Str} {ops : List Op}
    (h : Shape mode dp snt (.look d :: ops)) :
    Shape mode dp snt ops ∧
    ((∃ p, mode = .skipping p) ∨ ⟨.interrupt, d⟩ ∉ snt) ∧ 
    ∃ pieces ender rest, ops = body d pieces ender rest ∧ Shape mode dp snt (.say ⟨.endFile, ender⟩ :: rest) := by
  obtain ⟨cur, its, fin, a, b, c', dd, e, f, g⟩ := shape_norm h
  rcases g with g | ⟨g, r, hr⟩ | g
  · generalize hl : cur = l at f
    cases f with
    | quiet _ q =>
      subst hl
      cases cur with
      | nil => exact absurd rfl g
      | cons o cur =>
        injection a with a1 a2
        obtain ⟨m, e1, _⟩ := q o (by simp)
        rw [← a1] at e1
        exact absurd e1 (by simp)
    | h0 => subst hl; simp at a
    | h1 => subst hl; simp at a
    | h2 => subst hl; simp at a
    | file d' pieces ender tail k q =>
      subst hl
      cases pieces <;> simp [body] at a
    | look d' pieces ender tail k q =>
      subst hl
      injection a with a1 a2
      injection a1 with a1
      subst a1
      have e1 : ops = body d pieces ender (tail ++ (its.flatMap Item.ops ++ fin)) := by
        rw [a2]
        simp [body]
      refine ⟨⟨_, its, fin, a2, b, c', dd, e, .file d pieces ender tail k q⟩, ?_, pieces, ender, _, e1, ?_⟩
      · rcases k with k | k
        · exact .inl k
        · exact .inr k.2
      · exact ⟨_, its, fin, rfl, b, c', dd, e, .file d [] ender tail k q⟩
  · rw [g, hr] at a
    simp [Item.ops] at a
  · simp at g

theorem shape_drain {mode : CMode} {dp : Option Str} {snt : List Msg} {ops : List Op}
    (h : Shape mode dp snt (.drain :: ops)) : Shape mode dp snt ops ∧ sayMsgs ops ≠ [] := by
  obtain ⟨cur, its, fin, a, b, c', dd, e, f, g⟩ := shape_norm h
  have hq : Quiet ([] : List Op) := fun o ho => by simp at ho
  rcases g with g | ⟨g, r, hr⟩ | g
  · generalize hl : cur = l at f
    exfalso
    cases f with
    | quiet _ q =>
      subst hl
      cases cur with
      | nil => exact absurd rfl g
      | cons o cur =>
        injection a with a1 a2
        obtain ⟨m, e1, _⟩ := q o (by simp)
        rw [← a1] at e1
        exact absurd e1 (by simp)
    | h0 => subst hl; simp at a
    | h1 => subst hl; simp at a
    | h2 => subst hl; simp at a
    | file d' pieces ender tail k q =>
      subst hl
      cases pieces <;> simp [body] at a
    | look d' pieces ender tail k q =>
      subst hl
      simp at a
  · subst g hr
    have e1 : ops = r.flatMap Item.ops ++ fin := by simpa [Item.ops] using a
    have hfin : fin = [.say endMsg] := by
      rcases b with h | ⟨_, h⟩
      · exact h
      · simp at h
    refine ⟨⟨[], r, fin, e1, .inl hfin, fun x hx => c' x (by simp [hx]), dd, e, .quiet _ hq⟩, ?_⟩
    rw [e1, sayMsgs_append, hfin]
    simp [sayMsgs]
  · simp at g

/-- A file that is skipped can be broken off. -/
theorem after_body (c : Cli) (p : Str) (hc : c.mode = .skipping p) (d : Str) (pieces : List Str) (ender : Str)
    (rest : List Op) :
    after c (sayMsgs (body d pieces ender rest)) = after c (sayMsgs (.say ⟨.endFile, ender⟩ :: rest)) ∧
    future c (sayMsgs (body d pieces ender rest)) = future c (sayMsgs (.say ⟨.endFile, ender⟩ :: rest)) := by
  induction pieces generalizing c with
  | nil => exact ⟨rfl, rfl⟩
  | cons q ps ih =>
    have e : sayMsgs (body d (q :: ps) ender rest) = ⟨.append, q⟩ :: sayMsgs (body d ps ender rest) := by
      simp [body, sayMsgs]
    have r : cliRead { c with pend := [] } ⟨.append, q⟩ = { c with pend := [] } := by
      simp [cliRead, hc]
    rw [e, after_cons, r, future, r]
    obtain ⟨k1, k2⟩ := ih { c with pend := [] } hc
    rw [k1, k2, ← future_split]
    refine ⟨?_, rfl⟩
    rw [sayMsgs_say]
    rfl

theorem cut_body (d : Str) (pieces : List Str) (ender : Str) (rest : List Op) :
    cut (body d pieces ender rest) = .say ⟨.endFile, ender⟩ :: rest := by
  induction pieces with
  | nil => simp [body, cut]
  | cons q ps ih =>
    have e : body d (q :: ps) ender rest = .say ⟨.append, q⟩ :: .look d :: body d ps ender rest := by simp [body]
    rw [e, cut, if_neg (by simp), cut, ih]
    simp

theorem load_body (d : Str) (pieces : List Str) (ender : Str) (rest : List Op) :
    load (sayMsgs (.say ⟨.endFile, ender⟩ :: rest)) ≤ load (sayMsgs (body d pieces ender rest)) := by
  rw [body, sayMsgs_append, load_append]
  omega

end Verif.RestoreFlow
