import Verif.Lemmas.Iobuf
import Verif.Props.PathCmp
import Verif.Spec.Manifest

namespace Verif.Sbuf
open Verif Verif.Iobuf

theorem fillFile_enc {r : Rec} (h : r.Ok) (sb : Sbuf) (rest : Str) :
    fillFile sb (enc r ++ rest) =
      match parse sb r with
      | (sb', .needMore) => fillFile sb' rest
      | (sb', .complete) => (.entry sb', rest)
      | (_, .finished) => (.finished, rest)
      | (_, .error) => (.error, rest) := by
  rw [fillFile]
  have := fill_enc h rest
  split
  · rename_i h'; rw [this] at h'; simp at h'
  · rename_i h'; rw [this] at h'; simp at h'
  · rename_i r' rest' h'
    rw [this] at h'
    simp only [Fill.ok.injEq] at h'
    obtain ⟨rfl, rfl⟩ := h'
    rfl

theorem cstr_noNul {s : Str} (h : NoNul s) : cstr s = s := by
  unfold cstr
  have h2 := List.takeWhile_append_of_pos (p := fun c : Byte => decide (c ≠ 0)) (l₁ := s) (l₂ := [])
    (by intro c hc; simp only [decide_eq_true_eq]; intro e; subst e; exact h hc)
  simpa using h2

theorem no_attack {b : Byte} {p : Str} (h : NoNul p) (hd : DotFree p) :
    relativePathAttack ⟨b, p⟩ = false := by
  unfold relativePathAttack
  rw [cstr_noNul h]
  have := C07_has_dot_component p
  cases hp : PathCmp.hasDotComponent p with
  | false => rfl
  | true =>
    rcases this.1 hp with h | h
    · exact absurd h hd.1
    · exact absurd h hd.2

theorem toByte_ne_zero (c : Cmd) : c.toByte ≠ 0 := by cases c <;> decide

theorem rec_ok (c : Cmd) {s : Str} (h : Fits s) : Rec.Ok ⟨c.toByte, s⟩ :=
  ⟨toByte_ne_zero c, h⟩

theorem parse_attribs_plain (sb : Sbuf) (a : Str) (h : sb.datapth = none) :
    parse sb ⟨Cmd.attribs.toByte, a⟩ = ({ empty with attr := some a }, .needMore) := by
  simp [parse, ofByte_toByte, h]

theorem parse_attribs_data (sb : Sbuf) (a d : Str) (h : sb.datapth = some d) :
    parse sb ⟨Cmd.attribs.toByte, a⟩ = ({ sb with attr := some a }, .needMore) := by
  simp [parse, ofByte_toByte, h]

theorem parse_path (sb : Sbuf) {c : Cmd} (hc : c ∈ pathKinds ∨ c = .softLink ∨ c = .hardLink)
    (p : Str) : parse sb ⟨c.toByte, p⟩ = parsePath sb c ⟨c.toByte, p⟩ := by
  unfold parse
  simp only [ofByte_toByte]
  cases c <;> simp [pathKinds] at hc <;> rfl

theorem parse_datapth (sb : Sbuf) {d : Str} (h : NoNul d) (hd : DotFree d) :
    parse sb ⟨Cmd.datapth.toByte, d⟩ =
      ({ empty with hack := sb.hack, datapth := some d }, .needMore) := by
  simp [parse, ofByte_toByte, no_attack h hd]

theorem isLink_pathKinds {c : Cmd} (h : c ∈ pathKinds) : c.isLink = false := by
  cases c <;> simp [pathKinds] at h <;> rfl

theorem dataKinds_pathKinds {c : Cmd} (h : c ∈ dataKinds) : c ∈ pathKinds := by
  cases c <;> simp [dataKinds] at h <;> simp [pathKinds]

theorem dataKinds_data {c : Cmd} (h : c ∈ dataKinds) :
    c.isFiledata = true ∨ c.isVssdata = true := by
  cases c <;> simp [dataKinds] at h <;> simp [Cmd.isFiledata, Cmd.isVssdata]

/-- The bytes of an entry in a manifest. -/
def encEntry (e : Entry) : Str := ((toRecords e.toSbuf).map enc).flatten

theorem entry_records_ok {e : Entry} (h : e.Ok) : ∀ r ∈ toRecords e.toSbuf, r.Ok := by
  cases e with
  | plain k a p =>
    obtain ⟨_, ha, hp, _⟩ := h
    intro r hr
    simp [toRecords, Entry.toSbuf] at hr
    rcases hr with rfl | rfl
    · exact rec_ok _ ha
    · exact rec_ok _ hp
  | link k a p t =>
    obtain ⟨_, ha, hp, ht, _⟩ := h
    intro r hr
    simp [toRecords, Entry.toSbuf] at hr
    rcases hr with rfl | rfl | rfl
    · exact rec_ok _ ha
    · exact rec_ok _ hp
    · exact rec_ok _ ht
  | stored k d a p e =>
    obtain ⟨_, hd, ha, hp, he, _⟩ := h
    intro r hr
    simp [toRecords, Entry.toSbuf] at hr
    rcases hr with rfl | rfl | rfl | rfl
    · exact rec_ok _ hd
    · exact rec_ok _ ha
    · exact rec_ok _ hp
    · exact rec_ok _ he

theorem writeEntries_ok {es : List Entry} (h : ∀ e ∈ es, e.Ok) (out : Str) :
    writeEntries out (es.map Entry.toSbuf) = (out ++ (es.map encEntry).flatten, true) := by
  induction es generalizing out with
  | nil => simp [writeEntries]
  | cons e es ih =>
    simp only [List.map_cons, writeEntries, toManifest]
    rw [writeAll_ok (fun r hr => (entry_records_ok (h e (by simp)) r hr).2)]
    simp only
    rw [ih (fun x hx => h x (by simp [hx]))]
    simp [encEntry]

theorem fillFile_entry {e : Entry} (h : e.Ok) (rest : Str) :
    fillFile empty (encEntry e ++ rest) = (.entry e.toSbuf, rest) := by
  cases e with
  | plain k a p =>
    obtain ⟨hk, ha, hp, hn, hd⟩ := h
    simp only [encEntry, toRecords, Entry.toSbuf, List.nil_append, List.append_nil, List.map_cons,
      List.map_nil, List.flatten_cons, List.flatten_nil, List.append_assoc]
    rw [fillFile_enc (rec_ok _ ha), parse_attribs_plain _ _ rfl]
    simp only
    rw [fillFile_enc (rec_ok _ hp), parse_path _ (Or.inl hk)]
    simp [parsePath, no_attack hn hd, isLink_pathKinds hk, empty]
  | link k a p t =>
    obtain ⟨hk, ha, hp, ht, hn, hd⟩ := h
    have hl : k.isLink = true := by rcases hk with rfl | rfl <;> rfl
    simp only [encEntry, toRecords, Entry.toSbuf, List.nil_append, List.append_nil, List.map_cons,
      List.map_nil, List.flatten_cons, List.flatten_nil, List.append_assoc, List.cons_append]
    rw [fillFile_enc (rec_ok _ ha), parse_attribs_plain _ _ rfl]
    simp only
    rw [fillFile_enc (rec_ok _ hp), parse_path _ (Or.inr hk)]
    simp only [parsePath, no_attack hn hd, hl, empty]
    simp only [reduceCtorEq, if_false, Bool.false_eq_true, if_true]
    rw [fillFile_enc (rec_ok _ ht), parse_path _ (Or.inr hk)]
    simp [parsePath, hl]
  | stored k d a p e =>
    obtain ⟨hk, hd, ha, hp, he, hpn, hpd, hdn, hdd⟩ := h
    simp only [encEntry, toRecords, Entry.toSbuf, List.nil_append, List.append_nil, List.map_cons,
      List.map_nil, List.flatten_cons, List.flatten_nil, List.append_assoc, List.cons_append]
    rw [fillFile_enc (rec_ok _ hd), parse_datapth _ hdn hdd]
    simp only
    rw [fillFile_enc (rec_ok _ ha), parse_attribs_data _ _ d rfl]
    simp only
    rw [fillFile_enc (rec_ok _ hp), parse_path _ (Or.inl (dataKinds_pathKinds hk))]
    simp only [parsePath, no_attack hpn hpd, isLink_pathKinds (dataKinds_pathKinds hk), empty]
    simp only [reduceCtorEq, if_false, Bool.false_eq_true, if_true, Option.isSome_some]
    rw [fillFile_enc (rec_ok _ he)]
    simp [parse, ofByte_toByte, pathCmd, dataKinds_data hk]

theorem readEntries_entry {e : Entry} (h : e.Ok) (rest : Str) :
    readEntries (encEntry e ++ rest) =
      (e.toSbuf :: (readEntries rest).1, (readEntries rest).2) := by
  rw [readEntries]
  have := fillFile_entry h rest
  split
  · rename_i h'; rw [this] at h'; simp at h'
  · rename_i h'; rw [this] at h'; simp at h'
  · rename_i r' rest' h'
    rw [this] at h'
    simp only [Prod.mk.injEq, FillRet.entry.injEq] at h'
    obtain ⟨rfl, rfl⟩ := h'
    rfl

theorem readEntries_entries {es : List Entry} (h : ∀ e ∈ es, e.Ok) (rest : Str) :
    readEntries ((es.map encEntry).flatten ++ rest) =
      (es.map Entry.toSbuf ++ (readEntries rest).1, (readEntries rest).2) := by
  induction es with
  | nil => simp
  | cons e es ih =>
    simp only [List.map_cons, List.flatten_cons, List.append_assoc]
    rw [readEntries_entry (h e (by simp)), ih (fun x hx => h x (by simp [hx]))]
    simp

theorem fillFile_cut {r : Rec} (h : r.Ok) {k : Nat} (hk : k < (enc r).length) (sb : Sbuf) :
    (fillFile sb ((enc r).take k)).1 = if k = 0 ∨ k = 5 then .finished else .error := by
  have := fill_cut h hk
  rw [fillFile]
  split
  · rename_i h'; rw [this] at h'; split at h' <;> simp_all
  · rename_i h'; rw [this] at h'; split at h' <;> simp_all
  · rename_i h'; rw [this] at h'; split at h' <;> simp_all

theorem readEntries_none {f : Str} (h : (fillFile empty f).1 = .finished) :
    readEntries f = ([], true) := by
  rw [readEntries]
  split
  · rfl
  · rename_i h'; rw [h'] at h; simp at h
  · rename_i h'; rw [h'] at h; simp at h

theorem readEntries_err {f : Str} (h : (fillFile empty f).1 = .error) :
    readEntries f = ([], false) := by
  rw [readEntries]
  split
  · rename_i h'; rw [h'] at h; simp at h
  · rfl
  · rename_i h'; rw [h'] at h; simp at h

/-- Where the end of a cut entry looks like the end of a manifest: at the end of one of its records
or just after the lead of one. -/
def CleanCut (rs : List Rec) (j : Nat) : Prop :=
  ∃ pre r post, rs = pre ++ r :: post ∧
    (j = ((pre.map enc).flatten).length ∨ j = ((pre.map enc).flatten).length + 5)

/-- Feeding records that each ask for more, then a cut one. -/
theorem fillFile_pre (pre : List Rec) (hpre : ∀ r ∈ pre, r.Ok) (sb : Sbuf) (rest : Str)
    (hm : ∀ pre' r post, pre = pre' ++ r :: post →
      (parse (pre'.foldl (fun s x => (parse s x).1) sb) r).2 = .needMore) :
    fillFile sb ((pre.map enc).flatten ++ rest) =
      fillFile (pre.foldl (fun s x => (parse s x).1) sb) rest := by
  induction pre generalizing sb with
  | nil => simp
  | cons r pre ih =>
    simp only [List.map_cons, List.flatten_cons, List.append_assoc]
    rw [fillFile_enc (hpre r (by simp))]
    have h1 := hm [] r pre rfl
    simp only [List.foldl_nil] at h1
    rcases hp : parse sb r with ⟨sb', ret⟩
    rw [hp] at h1
    simp only at h1
    subst h1
    simp only [List.foldl_cons, hp]
    apply ih (fun x hx => hpre x (by simp [hx]))
    intro pre' r' post e
    have := hm (r :: pre') r' post (by rw [e]; rfl)
    simpa [hp] using this

/-- Every record of an entry but the last asks for more. -/
theorem entry_needMore {e : Entry} (h : e.Ok) (pre' : List Rec) (r r2 : Rec) (post : List Rec)
    (he : toRecords e.toSbuf = pre' ++ r :: r2 :: post) :
    (parse (pre'.foldl (fun s x => (parse s x).1) empty) r).2 = .needMore := by
  cases e with
  | plain k a p =>
    obtain ⟨hk, ha, hp, hn, hd⟩ := h
    simp [toRecords, Entry.toSbuf] at he
    match pre', he with
    | [], he =>
      simp at he; rw [← he.1]
      simp [parse_attribs_plain empty a rfl]
    | [_], he => simp at he
    | _ :: _ :: _, he => simp at he
  | link k a p t =>
    obtain ⟨hk, ha, hp, ht, hn, hd⟩ := h
    have hl : k.isLink = true := by rcases hk with rfl | rfl <;> rfl
    simp [toRecords, Entry.toSbuf] at he
    match pre', he with
    | [], he =>
      simp at he; rw [← he.1]
      simp [parse_attribs_plain empty a rfl]
    | [_], he =>
      simp at he
      rw [← he.1, ← he.2.1]
      simp only [List.foldl_cons, List.foldl_nil]
      rw [parse_attribs_plain empty a rfl, parse_path _ (Or.inr hk)]
      simp [parsePath, no_attack hn hd, hl, empty]
    | [_, _], he => simp at he
    | _ :: _ :: _ :: _, he => simp at he
  | stored k d a p x =>
    obtain ⟨hk, hd, ha, hp, hx, hpn, hpd, hdn, hdd⟩ := h
    simp [toRecords, Entry.toSbuf] at he
    match pre', he with
    | [], he =>
      simp at he; rw [← he.1]
      simp [parse_datapth empty hdn hdd]
    | [_], he =>
      simp at he
      rw [← he.1, ← he.2.1]
      simp [parse_datapth empty hdn hdd, parse_attribs_data _ a d]
    | [_, _], he =>
      simp at he
      rw [← he.1, ← he.2.1, ← he.2.2.1]
      simp only [List.foldl_cons, List.foldl_nil]
      rw [parse_datapth empty hdn hdd, parse_attribs_data _ a d rfl,
        parse_path _ (Or.inl (dataKinds_pathKinds hk))]
      simp [parsePath, no_attack hpn hpd, isLink_pathKinds (dataKinds_pathKinds hk), empty]
    | [_, _, _], he => simp at he
    | _ :: _ :: _ :: _ :: _, he => simp at he

/-- Reading an entry that is cut anywhere yields no entry. -/
theorem readEntries_cutEntry {e : Entry} (h : e.Ok) {j : Nat} (hj : j < (encEntry e).length) :
    ∃ b, readEntries ((encEntry e).take j) = ([], b) ∧
      (b = true ↔ CleanCut (toRecords e.toSbuf) j) := by
  rcases cut_split enc (rs := toRecords e.toSbuf) j with h1 | ⟨pre, r, post, i, h1, h2, h3, h4⟩
  · exact absurd h1 (by unfold encEntry at hj; omega)
  · have hok := entry_records_ok h
    have hr : r.Ok := hok r (by rw [h1]; simp)
    have hpre : ∀ x ∈ pre, x.Ok := fun x hx => hok x (by rw [h1]; simp [hx])
    have key : fillFile empty ((encEntry e).take j) =
        fillFile (pre.foldl (fun s x => (parse s x).1) empty) ((enc r).take i) := by
      unfold encEntry
      rw [h3]
      apply fillFile_pre pre hpre
      intro pre' r' post' e'
      rw [e'] at h1
      cases post' with
      | nil => exact entry_needMore h pre' r' r post (by rw [h1]; simp)
      | cons r2 post' => exact entry_needMore h pre' r' r2 (post' ++ r :: post) (by rw [h1]; simp)
    have hclean : CleanCut (toRecords e.toSbuf) j ↔ (i = 0 ∨ i = 5) := by
      constructor
      · rintro ⟨pre2, r2, post2, e2, hj2⟩
        -- the piece that contains a position is unique
        have hcmp : ∀ (l1 l2 : List Rec) (a b : Rec) (q1 q2 : List Rec) (x y : Nat),
            l1 ++ a :: q1 = l2 ++ b :: q2 → x < (enc a).length → y < (enc b).length →
            ((l1.map enc).flatten).length + x = ((l2.map enc).flatten).length + y → x = y := by
          intro l1
          induction l1 with
          | nil =>
            intro l2 a b q1 q2 x y e hx hy hxy
            cases l2 with
            | nil => simpa using hxy
            | cons c l2 =>
              simp at e
              obtain ⟨rfl, _⟩ := e
              simp at hxy
              omega
          | cons c l1 ih =>
            intro l2 a b q1 q2 x y e hx hy hxy
            cases l2 with
            | nil =>
              simp at e
              obtain ⟨rfl, _⟩ := e
              simp at hxy
              omega
            | cons c' l2 =>
              simp at e
              obtain ⟨rfl, e⟩ := e
              apply ih l2 a b q1 q2 x y e hx hy
              simp at hxy ⊢; omega
        have hr2 : r2.Ok := hok r2 (by rw [e2]; simp)
        have hlen : 5 < (enc r2).length := by
          have := (hex04_length r2.buf.length).2 (by have := hr2.2; omega)
          simp [enc, this]; omega
        rw [e2] at h1
        rcases hj2 with hj2 | hj2
        · left
          exact (hcmp pre2 pre r2 r post2 post 0 i h1 (by omega) h2 (by omega)).symm
        · right
          exact (hcmp pre2 pre r2 r post2 post 5 i h1 (by omega) h2 (by omega)).symm
      · intro hi
        refine ⟨pre, r, post, h1, ?_⟩
        rcases hi with hi | hi <;> subst hi
        · left; omega
        · right; omega
    have hf := fillFile_cut hr h2 (pre.foldl (fun s x => (parse s x).1) empty)
    rw [← key] at hf
    by_cases hi : i = 0 ∨ i = 5
    · rw [if_pos hi] at hf
      exact ⟨true, readEntries_none hf, by simp [hclean, hi]⟩
    · rw [if_neg hi] at hf
      exact ⟨false, readEntries_err hf, by simp [hclean, hi]⟩

/-! ### Nothing with a dot component is accepted -/

/-- Paths in an entry under construction are free of dot components. -/
def Safe (sb : Sbuf) : Prop :=
  (∀ p, sb.path = some p → DotFree (cstr p.buf)) ∧
  (∀ d, sb.datapth = some d → DotFree (cstr d))

theorem dotFree_of_no_attack {r : Rec} (h : relativePathAttack r = false) :
    DotFree (cstr r.buf) := by
  unfold relativePathAttack at h
  have := C07_has_dot_component (cstr r.buf)
  constructor
  · intro hc; rw [this.2 (Or.inl hc)] at h; simp at h
  · intro hc; rw [this.2 (Or.inr hc)] at h; simp at h

theorem safe_empty : Safe empty := by constructor <;> intro _ h <;> simp [empty] at h

theorem safe_parsePath {sb : Sbuf} (h : Safe sb) (c : Cmd) (r : Rec) :
    Safe (parsePath sb c r).1 := by
  unfold parsePath
  split
  · exact h
  · split
    · split
      · exact h
      · exact h
    · split
      · exact h
      · rename_i ha
        have hd := dotFree_of_no_attack (by simpa using ha)
        have hs : Safe { sb with path := some r } :=
          ⟨fun p hp => by simp at hp; rw [← hp]; exact hd, h.2⟩
        dsimp only
        split
        · exact hs
        · split
          · split <;> exact hs
          · exact hs

theorem safe_parse {sb : Sbuf} (h : Safe sb) (r : Rec) : Safe (parse sb r).1 := by
  unfold parse
  split
  · split
    · exact h
    · constructor <;> intro _ h <;> simp [empty] at h
  any_goals exact safe_parsePath h _ _
  any_goals exact h
  · split <;> exact h
  · split
    · exact h
    · rename_i ha
      have hd := dotFree_of_no_attack (r := r) (by simpa using ha)
      exact ⟨fun p hp => by simp at hp; rw [← hp]; exact hd, h.2⟩
  · split
    · exact h
    · rename_i ha
      have hd := dotFree_of_no_attack (r := r) (by simpa using ha)
      exact ⟨fun p hp => by simp [empty] at hp, fun d hd' => by simp at hd'; rw [← hd']; exact hd⟩
  · dsimp only
    split <;> exact h

theorem safe_fillFile {sb sb' : Sbuf} {f rest : Str} (h : Safe sb)
    (hf : fillFile sb f = (.entry sb', rest)) : Safe sb' := by
  induction f using WellFounded.induction
    (measure (fun (f : Str) => f.length)).wf generalizing sb with
  | _ f ih =>
    rw [fillFile] at hf
    split at hf
    · simp at hf
    · simp at hf
    · rename_i r rest1 h1
      have hl := fill_lt h1
      have hs := safe_parse h r
      split at hf
      · rename_i heq; rw [heq] at hs; exact ih rest1 hl hs hf
      · rename_i heq
        rw [heq] at hs
        simp only [Prod.mk.injEq, FillRet.entry.injEq] at hf
        rw [← hf.1]; exact hs
      · simp at hf
      · simp at hf

theorem safe_fillNet {sb sb' : Sbuf} {rs rest : List Rec} (h : Safe sb)
    (hf : fillNet sb rs = (.entry sb', rest)) : Safe sb' := by
  induction rs generalizing sb with
  | nil => simp [fillNet] at hf
  | cons r rs ih =>
    rw [fillNet] at hf
    have hs := safe_parse h r
    split at hf
    · rename_i heq; rw [heq] at hs; exact ih hs hf
    · rename_i heq
      rw [heq] at hs
      simp only [Prod.mk.injEq, FillRet.entry.injEq] at hf
      rw [← hf.1]; exact hs
    · simp at hf
    · simp at hf

end Verif.Sbuf
