import Verif.Spec.JsonInput
import Verif.Lemmas.Sbuf

namespace Verif.JsonInput
open Verif.Monitor Verif.Iobuf

/-! ### Stepping -/

theorem feed_cons {now s t s'} (ts) (h : step now s t = .ok s') : feed now s (t :: ts) = feed now s' ts := by
  simp only [feed, h]

theorem step_key {now s} {k : Str} (hl : k.length < 32) (hn : NoNul k) :
    step now s (.key k) = .ok { s with lastkey := k } := by
  have h1 : k.length + 1 ≤ 32 := hl
  simp only [step, mapKey, if_pos h1, Sbuf.cstr_noNul hn]

theorem feed_key {now s ts} {k : String} (hk : (bytes k).length < 32 ∧ NoNul (bytes k) := by decide) :
    feed now s (.key (bytes k) :: ts) = feed now { s with lastkey := bytes k } ts :=
  feed_cons ts (step_key hk.1 hk.2)

theorem feed_startMap {now s ts} : feed now s (.startMap :: ts) = feed now { s with depth := s.depth + 1 } ts := rfl

theorem feed_endMap {now s ts} (h : s.inBackups = false) :
    feed now s (.endMap :: ts) = feed now { s with depth := s.depth - 1 } ts := by
  refine feed_cons ts ?_
  simp [step, endMap, h]

theorem feed_endMap' {now s ts} (h : s.inBackups = true) (h1 : s.inFlags = false) (h2 : s.inCounters = false)
    (h3 : s.inList = false) :
    feed now s (.endMap :: ts) = feed now (addToBuList { s with depth := s.depth - 1 }) ts := by
  refine feed_cons ts ?_
  simp [step, endMap, h, h1, h2, h3]

/-! ### The current client -/

/-- `*current` replaced. -/
def Clients.withCur (s : Clients) (c : Client) : Clients := s.modCur (fun _ => c)

theorem modCur_eq {s : Clients} {c} (h : s.cur = some c) (f) : s.modCur f = s.withCur (f c) := by
  obtain ⟨cn, cu, l⟩ := s
  cases cu with
  | null => rfl
  | new => simp only [Clients.cur] at h; simp only [Clients.withCur, Clients.modCur, h, Option.map_some]
  | old i =>
    simp only [Clients.cur] at h
    obtain ⟨hi, h⟩ := List.getElem?_eq_some_iff.mp h
    simp only [Clients.withCur, Clients.modCur]
    congr 1
    apply List.ext_getElem? ; intro j
    rw [List.getElem?_modify, List.getElem?_modify]
    by_cases hj : i = j
    · subst hj; simp [hi, h]
    · simp [hj]

theorem cur_withCur {s : Clients} {c} (h : s.cur = some c) (d) : (s.withCur d).cur = some d := by
  obtain ⟨cn, cu, l⟩ := s
  cases cu with
  | null => simp [Clients.cur] at h
  | new => simp only [Clients.cur] at h; simp [Clients.withCur, Clients.modCur, Clients.cur, h]
  | old i =>
    simp only [Clients.cur] at h
    simp [Clients.withCur, Clients.modCur, Clients.cur, h]

theorem withCur_withCur (s : Clients) (c d) : (s.withCur c).withCur d = s.withCur d := by
  obtain ⟨cn, cu, l⟩ := s
  cases cu with
  | null => rfl
  | new => cases cn <;> rfl
  | old i =>
    simp only [Clients.withCur, Clients.modCur]
    congr 1
    apply List.ext_getElem? ; intro j
    simp only [List.getElem?_modify]
    by_cases hj : i = j
    · subst hj; cases l[i]? <;> simp
    · simp [hj]

theorem withCur_self {s : Clients} {c} (h : s.cur = some c) : s.withCur c = s := by
  have := modCur_eq h id
  rw [show id c = c from rfl] at this
  rw [← this]
  obtain ⟨cn, cu, l⟩ := s
  cases cu <;> simp [Clients.modCur]

theorem withCur_current (s : Clients) (c) : (s.withCur c).current = s.current := by
  obtain ⟨cn, cu, l⟩ := s
  cases cu <;> rfl

theorem current_ne {s : Clients} {c} (h : s.cur = some c) : s.current ≠ .null := by
  intro hc; simp [Clients.cur, hc] at h

/-! ### Numbers -/

theorem unsigned_signed {n : Nat} (h : n < 2 ^ 64) : unsigned (signed n) = n := by
  unfold unsigned signed
  split <;> omega

theorem ofNat_signed (v : UInt64) : UInt64.ofNat (unsigned (signed v.toNat)) = v := by
  rw [unsigned_signed v.toNat_lt]; simp

/-! ### Counters -/

theorem upd_upd (e : Cntr.Cntr) (ch : Byte) (f g) : Cntr.upd (Cntr.upd e ch f) ch g = Cntr.upd e ch (fun x => g (f x)) := by
  funext x
  unfold Cntr.upd
  by_cases h : x = ch ∧ Cntr.has ch = true
  · simp only [if_pos h]
  · simp only [if_neg h]

theorem setEnt_head {s : St} {c : Client} {k : Kid} {ks : List Kid} {ch : Byte} (f) (he : s.ent = some (k.id, ch))
    (hc : s.cl.cur = some c) (hk : c.kids = k :: ks) (hd : ∀ x ∈ ks, x.id ≠ k.id) :
    setEnt s f = .ok { s with cl := s.cl.withCur { c with kids := { k with ent := Cntr.upd k.ent ch f } :: ks } } := by
  have h1 : (c.kids.any fun x => decide (x.id = k.id)) = true := by simp [hk]
  have h2 : c.kids.map (fun x => if x.id = k.id then { x with ent := Cntr.upd x.ent ch f } else x) =
      { k with ent := Cntr.upd k.ent ch f } :: ks := by
    rw [hk, List.map_cons, if_pos rfl]
    congr 1
    conv => rhs; rw [← List.map_id ks]
    exact List.map_congr_left (fun x hx => by rw [if_neg (hd x hx)]; rfl)
  simp only [setEnt, he, hc, h1, if_true]
  rw [modCur_eq hc, h2]

/-- The numbers of a row. -/
def setRow (e : Cntr.Cntr) (r : Cmd × Cntr.Ent) : Cntr.Cntr :=
  Cntr.upd e r.1.toByte (fun x => if (r.1, Cntr.Flag.single) ∈ Cntr.table then { x with count := r.2.count } else r.2)

theorem has_of_mem {r : Cmd × Cntr.Flag} (h : r ∈ Cntr.table) : Cntr.has r.1.toByte = true := by
  unfold Cntr.has
  exact List.any_eq_true.mpr ⟨r, h, by simp⟩

theorem feed_int {now s ts s'} {v : Int} (h : integer s v = .ok s') : feed now s (.int v :: ts) = feed now s' ts :=
  feed_cons ts h

theorem feed_str {now s ts s'} {v : Str} (h : string s v = .ok s') : feed now s (.str v :: ts) = feed now s' ts :=
  feed_cons ts h

theorem cstr_one (b : Byte) (h : b ≠ 0) : cstr [b] = [b] := by
  simp [cstr, h]

theorem toByte_ne (c : Cmd) : c.toByte ≠ 0 := by cases c <;> decide

theorem feed_cnt {now : UInt64} {s : St} {c : Client} {k : Kid} {ks : List Kid} {ch : Byte} {ts : List Tok} {v : Int}
    {key : String} (g : Cntr.Ent → Cntr.Ent) (he : s.ent = some (k.id, ch))
    (hc : s.cl.cur = some c) (hk : c.kids = k :: ks) (hd : ∀ x ∈ ks, x.id ≠ k.id)
    (hi : integer { s with lastkey := bytes key } v = setEnt { s with lastkey := bytes key } g)
    (hkey : (bytes key).length < 32 ∧ NoNul (bytes key) := by decide) :
    feed now s (.key (bytes key) :: .int v :: ts) = feed now { s with
      lastkey := bytes key
      cl := s.cl.withCur { c with kids := { k with ent := Cntr.upd k.ent ch g } :: ks } } ts := by
  rw [feed_key hkey]
  refine feed_cons ts ?_
  show integer { s with lastkey := bytes key } v = _
  rw [hi]
  exact setEnt_head (s := { s with lastkey := bytes key }) g he hc hk hd

theorem feed_row {now : UInt64} {field : Cmd → Str} {s : St} {c : Client} {k : Kid} {ks : List Kid} {ts} {r : Cmd × Cntr.Ent}
    (hin : s.inCounters = true) (hb : s.inBackups = false) (hc : s.cl.cur = some c) (hk : c.kids = k :: ks)
    (hd : ∀ x ∈ ks, x.id ≠ k.id) (hr : ∃ f, (r.1, f) ∈ Cntr.table) :
    ∃ lk, feed now s (rowToks field r ++ ts) = feed now { s with
      lastkey := lk
      ent := some (k.id, r.1.toByte)
      cl := s.cl.withCur { c with kids := { k with ent := setRow k.ent r } :: ks } } ts := by
  obtain ⟨f, hf⟩ := hr
  have hh := has_of_mem hf
  dsimp only at hh
  unfold rowToks
  simp only [strPair, intPair, List.cons_append, List.nil_append, List.append_assoc]
  rw [feed_startMap, feed_key]
  rw [feed_str (s' := { s with depth := s.depth + 1, lastkey := bytes "name" })
    (by simp only [string, hin, if_true, show keyOf (bytes "name") = .name by decide])]
  rw [feed_key]
  rw [feed_str (s' := { s with depth := s.depth + 1, lastkey := bytes "type", ent := some (k.id, r.1.toByte) })
    (by simp only [string, hin, if_true, show keyOf (bytes "type") = .type by decide, hc, hk,
          cstr_one _ (toByte_ne r.1), List.headD_cons, hh])]
  let R (lk : Str) (E : Cntr.Cntr) : St := { s with
    depth := s.depth + 1
    lastkey := lk
    ent := some (k.id, r.1.toByte)
    cl := s.cl.withCur { c with kids := { k with ent := E } :: ks } }
  have hR : ({ s with depth := s.depth + 1, lastkey := bytes "type", ent := some (k.id, r.1.toByte) } : St) =
      R (bytes "type") k.ent := by
    show _ = ({ s with depth := _, lastkey := _, ent := _, cl := _ } : St)
    rw [show ({ c with kids := { k with ent := k.ent } :: ks } : Client) = c by rw [← hk]]
    rw [withCur_self hc]
  rw [hR]
  have h_count : ∀ lk E ts, feed now (R lk E) (.key (bytes "count") :: .int (signed r.2.count.toNat) :: ts) =
      feed now (R (bytes "count") (Cntr.upd E r.1.toByte
        (fun e => { e with count := UInt64.ofNat (unsigned (signed r.2.count.toNat)) }))) ts := fun lk E ts => by
    refine (feed_cnt (k := { k with ent := E }) _ rfl (cur_withCur hc _) rfl hd
      (by simp only [R, integer, hin, if_true, show keyOf (bytes "count") = .count by decide]; rfl)).trans ?_
    simp only [R, withCur_withCur]
  rw [h_count]
  by_cases hs : (r.1, Cntr.Flag.single) ∈ Cntr.table
  · rw [if_pos hs, List.nil_append, feed_endMap (by exact hb)]
    refine ⟨bytes "count", ?_⟩
    congr 1
    simp only [R, setRow, if_pos hs, ofNat_signed, Int.add_sub_cancel]
  · rw [if_neg hs]
    simp only [List.cons_append, List.nil_append]
    have h_changed : ∀ lk E ts, feed now (R lk E) (.key (bytes "changed") :: .int (signed r.2.changed.toNat) :: ts) =
        feed now (R (bytes "changed") (Cntr.upd E r.1.toByte
          (fun e => { e with changed := UInt64.ofNat (unsigned (signed r.2.changed.toNat)) }))) ts := fun lk E ts => by
      refine (feed_cnt (k := { k with ent := E }) _ rfl (cur_withCur hc _) rfl hd
        (by simp only [R, integer, hin, if_true, show keyOf (bytes "changed") = .changed by decide]; rfl)).trans ?_
      simp only [R, withCur_withCur]
    have h_same : ∀ lk E ts, feed now (R lk E) (.key (bytes "same") :: .int (signed r.2.same.toNat) :: ts) =
        feed now (R (bytes "same") (Cntr.upd E r.1.toByte
          (fun e => { e with same := UInt64.ofNat (unsigned (signed r.2.same.toNat)) }))) ts := fun lk E ts => by
      refine (feed_cnt (k := { k with ent := E }) _ rfl (cur_withCur hc _) rfl hd
        (by simp only [R, integer, hin, if_true, show keyOf (bytes "same") = .same by decide]; rfl)).trans ?_
      simp only [R, withCur_withCur]
    have h_deleted : ∀ lk E ts, feed now (R lk E) (.key (bytes "deleted") :: .int (signed r.2.deleted.toNat) :: ts) =
        feed now (R (bytes "deleted") (Cntr.upd E r.1.toByte
          (fun e => { e with deleted := UInt64.ofNat (unsigned (signed r.2.deleted.toNat)) }))) ts := fun lk E ts => by
      refine (feed_cnt (k := { k with ent := E }) _ rfl (cur_withCur hc _) rfl hd
        (by simp only [R, integer, hin, if_true, show keyOf (bytes "deleted") = .deleted by decide]; rfl)).trans ?_
      simp only [R, withCur_withCur]
    have h_scanned : ∀ lk E ts, feed now (R lk E) (.key (bytes "scanned") :: .int (signed r.2.phase1.toNat) :: ts) =
        feed now (R (bytes "scanned") (Cntr.upd E r.1.toByte
          (fun e => { e with phase1 := UInt64.ofNat (unsigned (signed r.2.phase1.toNat)) }))) ts := fun lk E ts => by
      refine (feed_cnt (k := { k with ent := E }) _ rfl (cur_withCur hc _) rfl hd
        (by simp only [R, integer, hin, if_true, show keyOf (bytes "scanned") = .scanned by decide]; rfl)).trans ?_
      simp only [R, withCur_withCur]
    rw [h_changed, h_same, h_deleted, h_scanned, feed_endMap (by exact hb)]
    refine ⟨bytes "scanned", ?_⟩
    congr 1
    simp only [R, setRow, if_neg hs, ofNat_signed, Int.add_sub_cancel, upd_upd]

theorem feed_rows {now : UInt64} {field : Cmd → Str} {ks : List Kid} {ts} :
    ∀ (rows : List (Cmd × Cntr.Ent)) (s : St) (c : Client) (k : Kid),
    s.inCounters = true → s.inBackups = false → s.cl.cur = some c → c.kids = k :: ks →
    (∀ x ∈ ks, x.id ≠ k.id) → (∀ r ∈ rows, ∃ f, (r.1, f) ∈ Cntr.table) →
    ∃ lk en, feed now s ((rows.map (rowToks field)).flatten ++ ts) = feed now { s with
      lastkey := lk
      ent := en
      cl := s.cl.withCur { c with kids := { k with ent := rows.foldl setRow k.ent } :: ks } } ts
  | [], s, c, k, _, _, hc, hk, _, _ => by
    refine ⟨s.lastkey, s.ent, ?_⟩
    simp only [List.foldl_nil]
    rw [show ({ c with kids := { k with ent := k.ent } :: ks } : Client) = c by rw [← hk]]
    rw [withCur_self hc]
    rfl
  | r :: rows, s, c, k, hin, hb, hc, hk, hd, hr => by
    rw [List.map_cons, List.flatten_cons, List.append_assoc]
    obtain ⟨lk, h1⟩ := feed_row (now := now) (field := field) (ts := (rows.map (rowToks field)).flatten ++ ts)
      hin hb hc hk hd (hr r (by simp))
    rw [h1]
    obtain ⟨lk2, en, h2⟩ := feed_rows (now := now) (field := field) (ts := ts) (ks := ks) rows
      { s with
        lastkey := lk
        ent := some (k.id, r.1.toByte)
        cl := s.cl.withCur { c with kids := { k with ent := setRow k.ent r } :: ks } } _ _ hin hb
      (cur_withCur hc _) rfl hd (fun x hx => hr x (by simp [hx]))
    rw [h2]
    refine ⟨lk2, en, ?_⟩
    simp only [withCur_withCur, List.foldl_cons]

/-! ### Children -/

/-- What is kept of a child. -/
def mkKid (now : UInt64) (id : Nat) (k : ChildInfo) : Kid :=
  ⟨id, k.pid, k.bno, statusOf (statusStr k.status),
    k.counters.foldl setRow (Cntr.setCount Cntr.init Cmd.timestamp.toByte now)⟩

theorem feed_child {now : UInt64} {field : Cmd → Str} {s : St} {c : Client} {k : ChildInfo} {ts}
    (hb : s.inBackups = false) (hf : s.inFlags = false) (hcn : s.inCounters = false) (hc : s.cl.cur = some c)
    (hid : ∀ x ∈ c.kids, x.id < s.next) (hp : ∀ x ∈ c.kids, x.pid ≠ k.pid)
    (hr : ∀ r ∈ k.counters, ∃ f, (r.1, f) ∈ Cntr.table) :
    ∃ lk en p b f, feed now s (childToks field k ++ ts) = feed now { s with
      lastkey := lk
      ent := en
      pid := p
      bno := b
      phase := f
      next := s.next + 1
      cl := s.cl.withCur { c with kids := mkKid now s.next k :: c.kids } } ts := by
  have hn : s.cl.current ≠ .null := current_ne hc
  unfold childToks countersToks
  simp only [strPair, intPair, List.cons_append, List.nil_append, List.append_assoc]
  rw [feed_startMap, feed_key]
  rw [feed_int (s' := { s with depth := s.depth + 1, lastkey := bytes "pid", pid := k.pid })
    (by simp only [integer, show keyOf (bytes "pid") = .pid by decide])]
  rw [feed_key]
  rw [feed_int (s' := { s with depth := s.depth + 1, lastkey := bytes "backup", pid := k.pid, bno := k.bno })
    (by simp only [integer, show keyOf (bytes "backup") = .backup by decide])]
  rw [feed_key]
  rw [feed_str (s' := { s with depth := s.depth + 1, lastkey := bytes "action", pid := k.pid, bno := k.bno })
    (by simp only [string, hcn, show keyOf (bytes "action") = .action by decide]; rfl)]
  rw [feed_key]
  have hst : cstr (statusStr k.status) = statusStr k.status := by
    refine Sbuf.cstr_noNul ?_
    unfold statusStr
    repeat' split
    all_goals decide
  rw [feed_str (s' := { s with
      depth := s.depth + 1
      lastkey := bytes "phase"
      pid := k.pid
      bno := k.bno
      phase := statusOf (statusStr k.status) })
    (by simp only [string, hcn, show keyOf (bytes "phase") = .phase by decide, hn, hst]; rfl)]
  rw [feed_key]
  let kid : Kid := ⟨s.next, k.pid, k.bno, statusOf (statusStr k.status),
    Cntr.setCount Cntr.init Cmd.timestamp.toByte now⟩
  have hany : (c.kids.any fun x => decide (x.pid = k.pid)) = false := by
    rw [List.any_eq_false]
    intro x hx
    simpa using hp x hx
  rw [feed_cons (s' := { s with
      depth := s.depth + 1
      lastkey := bytes "counters"
      pid := k.pid
      bno := k.bno
      phase := statusOf (statusStr k.status)
      inCounters := true
      next := s.next + 1
      cl := s.cl.withCur { c with kids := kid :: c.kids } }) (t := .startArr) _
    (by
      simp only [step, startArr, show keyOf (bytes "counters") = .counters by decide, startCounters, hc, hany]
      rw [modCur_eq hc]
      rfl)]
  obtain ⟨lk, en, h⟩ := feed_rows (now := now) (field := field) (ts := .endArr :: .endMap :: ts) k.counters
    { s with
      depth := s.depth + 1
      lastkey := bytes "counters"
      pid := k.pid
      bno := k.bno
      phase := statusOf (statusStr k.status)
      inCounters := true
      next := s.next + 1
      cl := s.cl.withCur { c with kids := kid :: c.kids } } _ kid rfl hb (cur_withCur hc _) rfl
    (fun x hx => by have := hid x hx; show x.id ≠ s.next; omega) hr
  rw [h]
  rw [feed_cons (t := .endArr) (s' := { s with
      depth := s.depth + 1
      lastkey := lk
      ent := en
      pid := k.pid
      bno := k.bno
      phase := statusOf (statusStr k.status)
      next := s.next + 1
      cl := s.cl.withCur { c with kids := mkKid now s.next k :: c.kids } }) _
    (by
      simp only [step, endArr, hb, hf, Bool.false_and, withCur_withCur, hcn]
      rfl)]
  rw [feed_endMap (by exact hb)]
  refine ⟨lk, en, k.pid, k.bno, statusOf (statusStr k.status), ?_⟩
  simp only [Int.add_sub_cancel]

/-- The children, the last one first. -/
def addKids (now : UInt64) : Nat → List Kid → List ChildInfo → List Kid
  | _, l, [] => l
  | n, l, k :: ks => addKids now (n + 1) (mkKid now n k :: l) ks

theorem feed_children {now : UInt64} {field : Cmd → Str} {ts} : ∀ (ks : List ChildInfo) (s : St) (c : Client),
    s.inBackups = false → s.inFlags = false → s.inCounters = false → s.cl.cur = some c →
    (∀ x ∈ c.kids, x.id < s.next) → (∀ x ∈ c.kids, ∀ k ∈ ks, x.pid ≠ k.pid) → (ks.map (·.pid)).Nodup →
    (∀ k ∈ ks, ∀ r ∈ k.counters, ∃ f, (r.1, f) ∈ Cntr.table) →
    ∃ lk en p b f, feed now s ((ks.map (childToks field)).flatten ++ ts) = feed now { s with
      lastkey := lk
      ent := en
      pid := p
      bno := b
      phase := f
      next := s.next + ks.length
      cl := s.cl.withCur { c with kids := addKids now s.next c.kids ks } } ts
  | [], s, c, _, _, _, hc, _, _, _, _ => by
    refine ⟨s.lastkey, s.ent, s.pid, s.bno, s.phase, ?_⟩
    simp only [addKids]
    rw [withCur_self hc]
    rfl
  | k :: ks, s, c, hb, hf, hcn, hc, hid, hp, hnd, hr => by
    rw [List.map_cons, List.flatten_cons, List.append_assoc]
    obtain ⟨lk, en, p, b, f, h⟩ := feed_child (now := now) (field := field)
      (ts := (ks.map (childToks field)).flatten ++ ts) hb hf hcn hc hid (fun x hx => hp x hx k (by simp))
      (hr k (by simp))
    rw [h]
    rw [List.map_cons, List.nodup_cons] at hnd
    obtain ⟨lk2, en2, p2, b2, f2, h2⟩ := feed_children (now := now) (field := field) (ts := ts) ks { s with
      lastkey := lk
      ent := en
      pid := p
      bno := b
      phase := f
      next := s.next + 1
      cl := s.cl.withCur { c with kids := mkKid now s.next k :: c.kids } } _ hb hf hcn (cur_withCur hc _)
      (fun x hx => by
        rcases List.mem_cons.mp hx with rfl | hx
        · exact Nat.lt_succ_self _
        · exact Nat.lt_succ_of_lt (hid x hx))
      (fun x hx k' hk' => by
        rcases List.mem_cons.mp hx with rfl | hx
        · intro e
          exact hnd.1 (List.mem_map.mpr ⟨k', hk', e.symm⟩)
        · exact hp x hx k' (by simp [hk'])) hnd.2 (fun k' hk' => hr k' (by simp [hk']))
    rw [h2]
    refine ⟨lk2, en2, p2, b2, f2, ?_⟩
    simp only [withCur_withCur, addKids, List.length_cons]
    rw [show s.next + 1 + ks.length = s.next + (ks.length + 1) by omega]

/-! ### Backups -/

theorem feed_flags {now : UInt64} {ts} : ∀ (l : List Str) (s : St), s.lastkey = bytes "flags" →
    s.inCounters = false → s.cl.current ≠ .null → (∀ n ∈ l, NoNul n ∧ (flagOf n).isSome) →
    feed now s (l.map .str ++ ts) = feed now { s with flags := s.flags ++ l.filterMap flagOf } ts
  | [], s, _, _, _, _ => by simp
  | n :: l, s, hk, hcn, hn, hl => by
    obtain ⟨f, hf⟩ := Option.isSome_iff_exists.mp (hl n (by simp)).2
    rw [List.map_cons, List.cons_append]
    rw [feed_str (s' := { s with flags := s.flags ++ [f] })
      (by simp only [string, hcn, hk, show keyOf (bytes "flags") = .flags by decide, hn,
            Sbuf.cstr_noNul (hl n (by simp)).1, hf]; rfl)]
    rw [feed_flags l { s with flags := s.flags ++ [f] } hk hcn hn (fun m hm => hl m (by simp [hm]))]
    simp [hf]

theorem feed_logs {now : UInt64} {ts} : ∀ (l : List Str) (s : St), s.lastkey = bytes "list" →
    s.inCounters = false → (∀ n ∈ l, NoNul n ∧ (logOf n).isSome) →
    feed now s (l.map .str ++ ts) = feed now { s with flags := s.flags ++ l.filterMap logOf } ts
  | [], s, _, _, _ => by simp
  | n :: l, s, hk, hcn, hl => by
    obtain ⟨f, hf⟩ := Option.isSome_iff_exists.mp (hl n (by simp)).2
    rw [List.map_cons, List.cons_append]
    rw [feed_str (s' := { s with flags := s.flags ++ [f] })
      (by simp only [string, hcn, hk, show keyOf (bytes "list") = .list by decide,
            Sbuf.cstr_noNul (hl n (by simp)).1, hf]; rfl)]
    rw [feed_logs l { s with flags := s.flags ++ [f] } hk hcn (fun m hm => hl m (by simp [hm]))]
    simp [hf]

theorem keyOf_log (g : Log) : isLog (keyOf g.name) = true := by cases g <;> decide

theorem logName_ok (g : Log) : g.name.length < 32 ∧ NoNul g.name := by cases g <;> decide

theorem string_log {s : St} {g : Log} {n : Str} (hk : s.lastkey = g.name) (hcn : s.inCounters = false) (hn : NoNul n) :
    string s n = .ok { s with coming := s.coming ++ [n] } := by
  cases g <;>
    (rw [Log.name] at hk
     simp only [string, hcn, hk, Sbuf.cstr_noNul hn]
     first
       | (rw [show keyOf (bytes "backup") = .backup by decide]; rfl)
       | (rw [show keyOf (bytes "restore") = .log .restore by decide]; rfl)
       | (rw [show keyOf (bytes "verify") = .log .verify by decide]; rfl)
       | (rw [show keyOf (bytes "backup_stats") = .log .backupStats by decide]; rfl)
       | (rw [show keyOf (bytes "restore_stats") = .log .restoreStats by decide]; rfl)
       | (rw [show keyOf (bytes "verify_stats") = .log .verifyStats by decide]; rfl))

theorem feed_lines {now : UInt64} {g : Log} {ts} : ∀ (l : List Str) (s : St), s.lastkey = g.name →
    s.inCounters = false → (∀ n ∈ l, NoNul n) →
    feed now s (l.map .str ++ ts) = feed now { s with coming := s.coming ++ l } ts
  | [], s, _, _, _ => by simp
  | n :: l, s, hk, hcn, hl => by
    rw [List.map_cons, List.cons_append]
    rw [feed_str (string_log hk hcn (hl n (by simp)))]
    rw [feed_lines l { s with coming := s.coming ++ [n] } hk hcn (fun m hm => hl m (by simp [hm]))]
    simp

/-- What is kept of a backup. -/
def mkEntry (id : Nat) (b : BackupInfo) : Entry :=
  ⟨id, b.bno, b.flags.filterMap flagOf ++ b.logs.filterMap logOf, some b.timestamp, none⟩

/-- What the server says about a backup, in the terms of the client. -/
structure Sane (b : BackupInfo) : Prop where
  bno : 0 < b.bno ∧ b.bno < 2 ^ 64
  flags : ∀ n ∈ b.flags, NoNul n ∧ (flagOf n).isSome
  logs : ∀ n ∈ b.logs, NoNul n ∧ (logOf n).isSome
  counters : b.counters = none
  entries : b.entries = none

/-- The beginning of a backup, until after the flags. -/
theorem feed_backup_flags {now : UInt64} {s : St} {c : Client} {b : BackupInfo} {ts}
    (hb : s.inBackups = true) (hf : s.inFlags = false) (hcn : s.inCounters = false) (hl : s.inList = false)
    (hc : s.cl.cur = some c) (hfl : s.flags = []) (h : Sane b) :
    feed now s ([.startMap] ++ intPair "number" (signed b.bno) ++ intPair "timestamp" b.timestamp ++
      [.key (bytes "flags"), .startArr] ++ b.flags.map .str ++ [.endArr] ++ ts) = feed now { s with
        depth := s.depth + 1
        number := b.bno
        timestamp := some b.timestamp
        flags := b.flags.filterMap flagOf
        lastkey := bytes "flags" } ts := by
  have hn : s.cl.current ≠ .null := current_ne hc
  simp only [intPair, List.cons_append, List.nil_append, List.append_assoc]
  rw [feed_startMap, feed_key]
  rw [feed_int (s' := { s with depth := s.depth + 1, lastkey := bytes "number", number := b.bno })
    (by simp only [integer, show keyOf (bytes "number") = .number by decide, hb, hf, hcn, hl, hn,
          unsigned_signed h.bno.2]; rfl)]
  rw [feed_key]
  rw [feed_int (s' := { s with
      depth := s.depth + 1
      lastkey := bytes "timestamp"
      number := b.bno
      timestamp := some b.timestamp })
    (by simp only [integer, show keyOf (bytes "timestamp") = .timestamp by decide, hb, hf, hcn, hl, hn]; rfl)]
  rw [feed_key]
  rw [feed_cons (t := .startArr) (s' := { s with
      depth := s.depth + 1
      lastkey := bytes "flags"
      number := b.bno
      timestamp := some b.timestamp
      inFlags := true }) _
    (by simp only [step, startArr, show keyOf (bytes "flags") = .flags by decide])]
  rw [feed_flags b.flags _ (by rfl) (by exact hcn) (by exact hn) h.flags]
  rw [feed_cons (t := .endArr) (s' := { s with
      depth := s.depth + 1
      lastkey := bytes "flags"
      number := b.bno
      timestamp := some b.timestamp
      flags := b.flags.filterMap flagOf }) _
    (by simp only [step, endArr, Bool.and_false, Bool.not_true, Bool.false_and, hfl, hf]; rfl)]

/-- The list of logs. -/
theorem feed_backup_list {now : UInt64} {s : St} {b : BackupInfo} {ts}
    (hb : s.inBackups = true) (hf : s.inFlags = false) (hcn : s.inCounters = false) (hl : s.inList = false) (h : Sane b) :
    feed now s ([.key (bytes "logs"), .startMap, .key (bytes "list"), .startArr] ++ b.logs.map .str ++ [.endArr] ++ ts) =
      feed now { s with
        depth := s.depth + 1
        flags := s.flags ++ b.logs.filterMap logOf
        lastkey := bytes "list" } ts := by
  simp only [List.cons_append, List.nil_append, List.append_assoc]
  rw [feed_key, feed_startMap, feed_key]
  rw [feed_cons (t := .startArr) (s' := { s with depth := s.depth + 1, lastkey := bytes "list", inList := true }) _
    (by simp only [step, startArr, show keyOf (bytes "list") = .list by decide])]
  rw [feed_logs b.logs _ (by rfl) (by exact hcn) h.logs]
  rw [feed_cons (t := .endArr) (s' := { s with
      depth := s.depth + 1
      lastkey := bytes "list"
      flags := s.flags ++ b.logs.filterMap logOf }) _
    (by simp only [step, endArr, hb, hf, hcn, hl]; rfl)]

theorem feed_backup {now : UInt64} {field : Cmd → Str} {asked : Option Log} {s : St} {c : Client} {b : BackupInfo} {ts}
    (hb : s.inBackups = true) (hf : s.inFlags = false) (hcn : s.inCounters = false) (hl : s.inList = false)
    (hc : s.cl.cur = some c) (hfl : s.flags = []) (hnu : s.number = 0) (hti : s.timestamp = none) (h : Sane b)
    (hlines : asked = none ∨ b.lines = none ∨ b.logs = []) :
    ∃ lk, feed now s (backupToks field asked b ++ ts) = feed now { s with
      lastkey := lk
      bus := s.bus ++ [mkEntry s.next b]
      next := s.next + 1 } ts := by
  have hb0 : b.bno ≠ 0 := by have := h.bno.1; omega
  unfold backupToks
  rw [h.counters, h.entries]
  dsimp only
  rw [List.append_nil, List.append_nil, List.append_assoc, List.append_assoc, feed_backup_flags hb hf hcn hl hc hfl h]
  unfold logToks
  by_cases hlg : b.logs = []
  · rw [if_pos hlg, List.nil_append, List.singleton_append]
    rw [feed_endMap' (by exact hb) (by exact hf) (by exact hcn) (by exact hl)]
    refine ⟨bytes "flags", ?_⟩
    rw [addToBuList, if_neg hb0]
    simp only [mkEntry, hlg, List.filterMap_nil, List.append_nil, Int.add_sub_cancel, hfl, hnu, hti]
  · rw [if_neg hlg]
    have hcont : contentToks asked b.lines = [] := by
      rcases hlines with rfl | hn | hn
      · rfl
      · rw [hn]; cases asked <;> rfl
      · exact absurd hn hlg
    rw [hcont, List.append_nil, List.append_assoc]
    rw [feed_backup_list (by exact hb) (by exact hf) (by exact hcn) (by exact hl) h]
    rw [List.singleton_append, feed_endMap' (by exact hb) (by exact hf) (by exact hcn) (by exact hl)]
    rw [addToBuList, if_neg hb0]
    rw [List.singleton_append, feed_endMap' (by exact hb) (by exact hf) (by exact hcn) (by exact hl)]
    refine ⟨bytes "list", ?_⟩
    rw [addToBuList, if_pos rfl]
    simp only [mkEntry, Int.add_sub_cancel, hfl, hnu, hti]

/-- The backups, in the order in which they come. -/
def mkEntries : Nat → List BackupInfo → List Entry
  | _, [] => []
  | n, b :: bs => mkEntry n b :: mkEntries (n + 1) bs

theorem feed_backups {now : UInt64} {field : Cmd → Str} {asked : Option Log} {ts} {c : Client} :
    ∀ (bs : List BackupInfo) (s : St),
    s.inBackups = true → s.inFlags = false → s.inCounters = false → s.inList = false →
    s.cl.cur = some c → s.flags = [] → s.number = 0 → s.timestamp = none → (∀ b ∈ bs, Sane b) →
    (∀ b ∈ bs, asked = none ∨ b.lines = none ∨ b.logs = []) →
    ∃ lk, feed now s ((bs.map (backupToks field asked)).flatten ++ ts) = feed now { s with
      lastkey := lk
      bus := s.bus ++ mkEntries s.next bs
      next := s.next + bs.length } ts
  | [], s, _, _, _, _, _, _, _, _, _, _ => ⟨s.lastkey, by simp [mkEntries]⟩
  | b :: bs, s, hb, hf, hcn, hl, hc, hfl, hnu, hti, hs, hlines => by
    rw [List.map_cons, List.flatten_cons, List.append_assoc]
    obtain ⟨lk, h⟩ := feed_backup (now := now) (field := field) (asked := asked)
      (ts := (bs.map (backupToks field asked)).flatten ++ ts) hb hf hcn hl hc hfl hnu hti (hs b (by simp))
      (hlines b (by simp))
    rw [h]
    obtain ⟨lk2, h2⟩ := feed_backups (now := now) (field := field) (asked := asked) (ts := ts) (c := c) bs { s with
      lastkey := lk
      bus := s.bus ++ [mkEntry s.next b]
      next := s.next + 1 } hb hf hcn hl hc hfl hnu hti (fun x hx => hs x (by simp [hx]))
      (fun x hx => hlines x (by simp [hx]))
    rw [h2]
    refine ⟨lk2, ?_⟩
    simp only [mkEntries, List.append_assoc, List.singleton_append, List.length_cons]
    rw [show s.next + 1 + bs.length = s.next + (bs.length + 1) by omega]

/-! ### Clients -/

/-- `current` after the name. -/
def opened (l : List Client) (n : Str) : Clients :=
  match l.findIdx? (fun c => decide (c.name = n)) with
  | some i => ⟨none, .old i, l⟩
  | none => ⟨some ⟨n, .unset, [], []⟩, .new, l⟩

/-- What is known about the client when its name has come. -/
def known (l : List Client) (n : Str) : Client := (lookup l n).getD ⟨n, .unset, [], []⟩

/-- The list when the client has been dealt with. -/
def putClient (l : List Client) (c : Client) : List Client :=
  match l.findIdx? (fun x => decide (x.name = c.name)) with
  | some i => l.modify i (fun _ => c)
  | none => addToList c l

theorem findIdx?_lookup (l : List Client) (n : Str) :
    (l.findIdx? (fun c => decide (c.name = n)) = none ∧ lookup l n = none) ∨
    ∃ i c, l.findIdx? (fun c => decide (c.name = n)) = some i ∧ l[i]? = some c ∧ lookup l n = some c := by
  unfold lookup
  induction l with
  | nil => exact .inl ⟨rfl, rfl⟩
  | cons x l ih =>
    rw [List.findIdx?_cons, List.find?_cons]
    by_cases h : x.name = n
    · exact .inr ⟨0, x, by simp [h]⟩
    · simp only [decide_eq_false h]
      rcases ih with ⟨h1, h2⟩ | ⟨i, c, h1, h2, h3⟩
      · exact .inl ⟨by rw [h1]; rfl, h2⟩
      · exact .inr ⟨i + 1, c, by rw [h1]; rfl, by simpa using h2, h3⟩

theorem opened_cur (l : List Client) (n : Str) : (opened l n).cur = some (known l n) := by
  unfold opened known
  rcases findIdx?_lookup l n with ⟨h1, h2⟩ | ⟨i, c, h1, h2, h3⟩
  · rw [h1, h2]; rfl
  · rw [h1, h3]; exact h2

theorem opened_close (l : List Client) (c : Client) :
    ((opened l c.name).withCur c).close = ⟨none, .null, putClient l c⟩ := by
  unfold opened putClient
  cases l.findIdx? (fun x => decide (x.name = c.name)) <;> rfl

theorem lookup_name {l : List Client} {n c} (h : lookup l n = some c) : c.name = n := by
  have := List.find?_some h
  simpa using this

theorem known_name (l : List Client) (n : Str) : (known l n).name = n := by
  unfold known
  cases h : lookup l n with
  | none => rfl
  | some c => exact lookup_name h

theorem runOf_runStr (r : Run) : runOf (runStr r) = r := by cases r <;> decide

theorem runStr_ok (r : Run) : NoNul (runStr r) := by cases r <;> decide

/-- What the server says about a client, in the terms of the client. -/
structure SaneInfo (i : Info) : Prop where
  name : NoNul i.name
  phase : i.phase = none
  kids : (i.children.map (·.pid)).Nodup
  rows : ∀ k ∈ i.children, ∀ r ∈ k.counters, ∃ f, (r.1, f) ∈ Cntr.table
  backups : ∀ b ∈ i.backups, Sane b

/-- The client before the backups. -/
def upTo (now : UInt64) (s : St) (i : Info) : Client :=
  { known s.cl.list i.name with run := i.run, kids := addKids now s.next [] i.children }

theorem feed_labels {now : UInt64} {ts} : ∀ (l : List Str) (s : St), s.lastkey = bytes "labels" →
    s.inCounters = false → s.cl.current ≠ .null → feed now s (l.map .str ++ ts) = feed now s ts
  | [], s, _, _, _ => rfl
  | n :: l, s, hk, hcn, hn => by
    rw [List.map_cons, List.cons_append]
    rw [feed_str (s' := s)
      (by simp only [string, hcn, hk, show keyOf (bytes "labels") = .labels by decide, hn]; rfl)]
    exact feed_labels l s hk hcn hn

theorem feed_other {now s ts} {t : Tok} (ht : t = .startArr ∨ t = .endArr) (hk : keyOf s.lastkey = .labels ∨ keyOf s.lastkey = .other)
    (hb : s.inBackups = false) (hf : s.inFlags = false)
    (hcn : s.inCounters = false) (hl : s.inList = false) (hcon : s.inContent = false) :
    feed now s (t :: ts) = feed now s ts := by
  rcases ht with rfl | rfl
  · refine feed_cons ts ?_
    rcases hk with hk | hk <;> (simp only [step, startArr, hk]; rfl)
  · refine feed_cons ts ?_
    simp [step, endArr, hb, hf, hcn, hl, hcon]

theorem feed_end {now s ts} (hb : s.inBackups = false) (hf : s.inFlags = false)
    (hcn : s.inCounters = false) (hl : s.inList = false) (hcon : s.inContent = false) :
    feed now s (.endArr :: ts) = feed now s ts := by
  refine feed_cons ts ?_
  simp [step, endArr, hb, hf, hcn, hl, hcon]

theorem keyOf_labels : keyOf (bytes "labels") = .labels := by decide
theorem keyOf_children : keyOf (bytes "children") = .other := by decide

/-- The beginning of a client. -/
theorem feed_head {now : UInt64} {field : Cmd → Str} {s : St} {i : Info} {ts} (h : Ready s) (hi : SaneInfo i) :
    ∃ en p b f, feed now s ([.startMap] ++ strPair "name" i.name ++
      (if i.labels = [] then [] else [.key (bytes "labels"), .startArr] ++ i.labels.map .str ++ [.endArr]) ++
      strPair "run_status" (runStr i.run) ++ intPair "protocol" 1 ++
      (if i.children = [] then [] else
        [.key (bytes "children"), .startArr] ++ (i.children.map (childToks field)).flatten ++ [.endArr]) ++
      [.key (bytes "backups"), .startArr] ++ ts) = feed now { s with
        depth := s.depth + 1
        lastkey := bytes "backups"
        ent := en
        pid := p
        bno := b
        phase := f
        inBackups := true
        next := s.next + i.children.length
        cl := (opened s.cl.list i.name).withCur (upTo now s i) } ts := by
  obtain ⟨h1, h2, h3, h4, h5, hb, hf, hcn, hl, hcon, h11, h12⟩ := h
  simp only [strPair, intPair, List.cons_append, List.nil_append, List.append_assoc]
  rw [feed_startMap, feed_key]
  have hop := opened_cur s.cl.list i.name
  let c0 : Client := { known s.cl.list i.name with kids := [] }
  rw [feed_str (s' := { s with
      depth := s.depth + 1
      lastkey := bytes "name"
      cl := (opened s.cl.list i.name).withCur c0 })
    (by
      simp only [string, hcn, show keyOf (bytes "name") = .name by decide, h4, Sbuf.cstr_noNul hi.name]
      unfold opened at hop ⊢
      show (match s.cl.list.findIdx? (fun c => decide (c.name = i.name)) with
        | some j => _
        | none => _) = _
      rcases findIdx?_lookup s.cl.list i.name with ⟨e1, e2⟩ | ⟨j, c, e1, e2, e3⟩
      · rw [e1]
        have : c0 = ⟨i.name, .unset, [], []⟩ := by simp only [c0, known, e2, Option.getD_none]
        rw [this]
        rfl
      · rw [e1] at hop ⊢
        dsimp only at hop ⊢
        rw [modCur_eq hop])]
  have hn0 : (opened s.cl.list i.name).current ≠ .null := current_ne hop
  have hlab : ∀ ts, feed now { s with
      depth := s.depth + 1
      lastkey := bytes "name"
      cl := (opened s.cl.list i.name).withCur c0 }
      ((if i.labels = [] then [] else Tok.key (bytes "labels") :: .startArr :: (i.labels.map .str ++ [.endArr])) ++
        Tok.key (bytes "run_status") :: ts) =
      feed now { s with
        depth := s.depth + 1
        lastkey := bytes "run_status"
        cl := (opened s.cl.list i.name).withCur c0 } ts := by
    intro ts
    by_cases hlb : i.labels = []
    · rw [if_pos hlb, List.nil_append, feed_key]
    · rw [if_neg hlb]
      simp only [List.cons_append, List.append_assoc, List.nil_append]
      rw [feed_key, feed_other (.inl rfl) (by exact .inl keyOf_labels) (by exact hb) (by exact hf) (by exact hcn) (by exact hl) (by exact hcon)]
      rw [feed_labels _ _ (by rfl) (by exact hcn) (by
        show ((opened s.cl.list i.name).withCur c0).current ≠ _
        rw [withCur_current]; exact hn0)]
      rw [feed_other (.inr rfl) (by exact .inl keyOf_labels) (by exact hb) (by exact hf) (by exact hcn) (by exact hl) (by exact hcon), feed_key]
  rw [hlab]
  rw [feed_str (s' := { s with
      depth := s.depth + 1
      lastkey := bytes "run_status"
      cl := (opened s.cl.list i.name).withCur { c0 with run := i.run } })
    (by
      simp only [string, hcn, show keyOf (bytes "run_status") = .runStatus by decide, withCur_current, hn0,
        Sbuf.cstr_noNul (runStr_ok i.run), runOf_runStr, modCur_eq (cur_withCur hop _), withCur_withCur]
      rfl)]
  rw [feed_key]
  rw [feed_int (s' := { s with
      depth := s.depth + 1
      lastkey := bytes "protocol"
      cl := (opened s.cl.list i.name).withCur { c0 with run := i.run } })
    (by simp only [integer, show keyOf (bytes "protocol") = .protocol by decide, hb, hcn]; rfl)]
  have hstart : ∀ en p b f n lk cl, feed now { s with
        depth := s.depth + 1
        lastkey := lk
        ent := en
        pid := p
        bno := b
        phase := f
        next := n
        cl := cl } (Tok.key (bytes "backups") :: .startArr :: ts) = feed now { s with
        depth := s.depth + 1
        lastkey := bytes "backups"
        ent := en
        pid := p
        bno := b
        phase := f
        inBackups := true
        next := n
        cl := cl } ts := by
    intro en p b f n lk cl
    rw [feed_key]
    exact feed_cons ts (by simp only [step, startArr, show keyOf (bytes "backups") = .backups by decide])
  by_cases hch : i.children = []
  · rw [if_pos hch, List.nil_append]
    refine ⟨s.ent, s.pid, s.bno, s.phase, ?_⟩
    rw [hstart]
    simp only [upTo, hch, addKids, List.length_nil, Nat.add_zero, c0]
  · rw [if_neg hch]
    simp only [List.cons_append, List.append_assoc, List.nil_append]
    rw [feed_key, feed_other (.inl rfl) (by exact .inr keyOf_children) (by exact hb) (by exact hf) (by exact hcn) (by exact hl) (by exact hcon)]
    obtain ⟨lk, en, p, b, f, hk⟩ := feed_children (now := now) (field := field)
      (ts := .endArr :: .key (bytes "backups") :: .startArr :: ts) i.children { s with
        depth := s.depth + 1
        lastkey := bytes "children"
        cl := (opened s.cl.list i.name).withCur { c0 with run := i.run } } { c0 with run := i.run } hb hf hcn
      (cur_withCur hop _) (by simp [c0]) (by simp [c0]) hi.kids hi.rows
    rw [hk, feed_end (by exact hb) (by exact hf) (by exact hcn) (by exact hl) (by exact hcon)]
    refine ⟨en, p, b, f, ?_⟩
    rw [hstart]
    simp only [withCur_withCur, upTo, c0]

/-- The client in the end. -/
def told (now : UInt64) (s : St) (i : Info) : Client :=
  updateLive { upTo now s i with
    bus := (mergeBuLists s.sel (known s.cl.list i.name).bus (mkEntries (s.next + i.children.length) i.backups)).1 }

/-- What is selected in the end. -/
def toldSel (s : St) (i : Info) : Option Nat :=
  (mergeBuLists s.sel (known s.cl.list i.name).bus (mkEntries (s.next + i.children.length) i.backups)).2

theorem feed_merge {now s s0 ts} {c : Client} (hb : s.inBackups = true) (hf : s.inFlags = false)
    (hcn : s.inCounters = false) (hl : s.inList = false) (hs : addToBuList { s with inBackups := false } = s0)
    (hc : s0.cl.cur = some c) :
    feed now s (.endArr :: ts) = feed now { s0 with
      sel := (mergeBuLists s0.sel c.bus s0.bus).2
      bus := []
      cl := (s0.cl.withCur (updateLive { c with bus := (mergeBuLists s0.sel c.bus s0.bus).1 })).close } ts := by
  refine feed_cons ts ?_
  have hcond : (s.inBackups && !s.inFlags && !s.inCounters && !s.inList) = true := by rw [hb, hf, hcn, hl]; rfl
  unfold step endArr
  dsimp only
  rw [if_pos hcond, hs, hc]
  dsimp only
  rw [modCur_eq hc]

theorem feed_client {now : UInt64} {field : Cmd → Str} {asked : Option Log} {s : St} {i : Info} {ts} (h : Ready s)
    (hi : SaneInfo i) (hlines : ∀ b ∈ i.backups, asked = none ∨ b.lines = none ∨ b.logs = []) :
    ∃ lk en p b f, feed now s (clientToks field asked i ++ ts) = feed now { s with
      lastkey := lk
      ent := en
      pid := p
      bno := b
      phase := f
      next := s.next + i.children.length + i.backups.length
      sel := toldSel s i
      cl := ⟨none, .null, putClient s.cl.list (told now s i)⟩ } ts := by
  have h' := h
  obtain ⟨h1, h2, h3, h4, h5, hb, hf, hcn, hl, hcon, h11, h12⟩ := h'
  unfold clientToks
  rw [hi.phase]
  simp only [List.append_assoc, List.nil_append]
  obtain ⟨en, p, b, f, hh⟩ := feed_head (now := now) (field := field)
    (ts := (i.backups.map (backupToks field asked)).flatten ++ ([.endArr, .endMap] ++ ts)) h hi
  simp only [List.append_assoc] at hh
  rw [hh]
  have hop := opened_cur s.cl.list i.name
  obtain ⟨lk, hbs⟩ := feed_backups (now := now) (field := field) (asked := asked) (ts := [.endArr, .endMap] ++ ts)
    (c := upTo now s i) i.backups { s with
        depth := s.depth + 1
        lastkey := bytes "backups"
        ent := en
        pid := p
        bno := b
        phase := f
        inBackups := true
        next := s.next + i.children.length
        cl := (opened s.cl.list i.name).withCur (upTo now s i) } rfl hf hcn hl (cur_withCur hop _) h2 h1 h3 hi.backups hlines
  rw [hbs]
  simp only [List.cons_append, List.nil_append]
  have hname : (told now s i).name = i.name := known_name s.cl.list i.name
  rw [feed_merge (c := upTo now s i) (by rfl) (by exact hf) (by exact hcn) (by exact hl) (if_pos (by exact h1))
    (cur_withCur hop _)]
  rw [feed_endMap (by rfl)]
  refine ⟨lk, en, p, b, f, ?_⟩
  simp only [Int.add_sub_cancel, withCur_withCur, h12, List.nil_append, hb]
  rw [show opened s.cl.list i.name = opened s.cl.list (told now s i).name by rw [hname]]
  rw [← opened_close]
  rfl

theorem keyOf_name_start {now s ts} {g : Log} (hk : s.lastkey = g.name) :
    feed now s (.startArr :: ts) = feed now { s with inContent := true } ts := by
  refine feed_cons ts ?_
  unfold step startArr
  dsimp only
  rw [hk]
  cases g <;>
    first
      | (rw [show keyOf (Log.name .backup) = .backup by decide]; rfl)
      | (rw [show keyOf (Log.name .restore) = .log .restore by decide]; rfl)
      | (rw [show keyOf (Log.name .verify) = .log .verify by decide]; rfl)
      | (rw [show keyOf (Log.name .backupStats) = .log .backupStats by decide]; rfl)
      | (rw [show keyOf (Log.name .restoreStats) = .log .restoreStats by decide]; rfl)
      | (rw [show keyOf (Log.name .verifyStats) = .log .verifyStats by decide]; rfl)

theorem feed_content {now s ts} (hb : s.inBackups = false) (hf : s.inFlags = false) (hcn : s.inCounters = false)
    (hl : s.inList = false) (hcon : s.inContent = true) :
    feed now s (.endArr :: ts) = feed now { s with inContent := false, lines := s.coming, coming := [] } ts := by
  refine feed_cons ts ?_
  simp only [step, endArr, hb, hf, hcn, hl, hcon, Bool.false_and, if_true, Bool.false_eq_true, if_false]

theorem told_single {now : UInt64} {s : St} {i : Info} {bk : BackupInfo} (h : i.backups = [bk]) :
    updateLive { upTo now s i with bus := (mergeBuLists s.sel (upTo now s i).bus
      [⟨s.next + i.children.length, bk.bno, bk.flags.filterMap flagOf ++ bk.logs.filterMap logOf,
        some bk.timestamp, none⟩]).1 } = told now s i ∧
    (mergeBuLists s.sel (upTo now s i).bus
      [⟨s.next + i.children.length, bk.bno, bk.flags.filterMap flagOf ++ bk.logs.filterMap logOf,
        some bk.timestamp, none⟩]).2 = toldSel s i := by
  unfold told toldSel
  rw [h]
  exact ⟨rfl, rfl⟩

theorem feed_client_log {now : UInt64} {field : Cmd → Str} {g : Log} {s : St} {i : Info} {bk : BackupInfo}
    {l : List Str} {ts} (h : Ready s) (hi : SaneInfo i) (hbk : i.backups = [bk]) (hl1 : bk.lines = some l)
    (hl2 : bk.logs ≠ []) (hl3 : ∀ n ∈ l, NoNul n) :
    ∃ lk en p b f, feed now s (clientToks field (some g) i ++ ts) = feed now { s with
      lastkey := lk
      ent := en
      pid := p
      bno := b
      phase := f
      next := s.next + i.children.length + i.backups.length
      sel := toldSel s i
      lines := l
      cl := ⟨none, .null, putClient s.cl.list (told now s i)⟩ } ts := by
  have h' := h
  obtain ⟨h1, h2, h3, h4, h5, hb, hf, hcn, hl, hcon, h11, h12⟩ := h'
  have hs : Sane bk := hi.backups bk (by rw [hbk]; simp)
  have hb0 : bk.bno ≠ 0 := by have := hs.bno.1; omega
  unfold clientToks
  rw [hi.phase]
  simp only [List.append_assoc, List.nil_append]
  obtain ⟨en, p, b, f, hh⟩ := feed_head (now := now) (field := field)
    (ts := (i.backups.map (backupToks field (some g))).flatten ++ ([.endArr, .endMap] ++ ts)) h hi
  simp only [List.append_assoc] at hh
  rw [hh]
  have hop := opened_cur s.cl.list i.name
  have hname : (told now s i).name = i.name := known_name s.cl.list i.name
  rw [hbk, List.map_singleton, List.flatten_singleton]
  unfold backupToks
  rw [hs.counters, hs.entries]
  dsimp only
  rw [List.append_nil, List.append_nil, List.append_assoc, List.append_assoc,
    feed_backup_flags (by rfl) (by exact hf) (by exact hcn) (by exact hl) (cur_withCur hop _) (by exact h2) hs]
  unfold logToks
  rw [if_neg hl2, hl1, List.append_assoc, List.append_assoc,
    feed_backup_list (by rfl) (by exact hf) (by exact hcn) (by exact hl) hs]
  unfold contentToks
  simp only [List.cons_append, List.nil_append, List.append_assoc]
  rw [feed_cons (t := .key g.name) _ (step_key (logName_ok g).1 (logName_ok g).2)]
  rw [keyOf_name_start (g := g) (by rfl)]
  rw [feed_lines (g := g) l _ (by rfl) (by exact hcn) hl3]
  rw [feed_merge (c := upTo now s i) (by rfl) (by exact hf) (by exact hcn) (by exact hl) (if_neg (by exact hb0))
    (cur_withCur hop _)]
  rw [feed_endMap (by rfl), feed_endMap (by rfl)]
  rw [feed_content (by rfl) (by exact hf) (by exact hcn) (by exact hl) (by rfl), feed_endMap (by rfl)]
  refine ⟨g.name, en, p, b, f, ?_⟩
  have ht := told_single (now := now) (s := s) hbk
  simp only [h12, h11, List.nil_append, withCur_withCur, ht.1, ht.2, Int.add_sub_cancel, List.length_singleton]
  have hcl := opened_close s.cl.list (told now s i)
  rw [hname] at hcl
  rw [hcl, h1, h2, h3, hb, hcon]

end Verif.JsonInput
