import Verif.Spec.MainLoop

/-!
# Lemmas about the main process of the server
-/

namespace Verif.MainLoop
open Verif Verif.Iobuf Verif.Asfd

/-! ### Reading when the sender has stopped -/

theorem doRead_extend (s : Rx) (net x : Str) (n : Nat) :
    (doRead s (net ++ x) (min n net.length)).1 = (doRead s net n).1 ∧
    (doRead s (net ++ x) (min n net.length)).2 = (doRead s net n).2 ++ x := by
  unfold doRead
  split
  · exact ⟨rfl, rfl⟩
  · simp only
    have hmin : min (min n net.length) (bufMax - s.readbuf.length) ≤ net.length := by omega
    constructor
    · congr 2
      rw [List.take_append_of_le_length hmin]
      by_cases hle : min n (bufMax - s.readbuf.length) ≤ net.length
      · congr 1; omega
      · rw [List.take_of_length_le (by omega), List.take_of_length_le (by omega)]
    · rw [List.drop_append_of_le_length hmin]
      congr 1
      by_cases hle : min n (bufMax - s.readbuf.length) ≤ net.length
      · congr 1; omega
      · rw [List.drop_of_length_le (by omega), List.drop_of_length_le (by omega)]

theorem io_extend (s : Rx) (net x : Str) (n : Nat) (s1 s2 : Str) :
    (io s (net ++ x) (min n net.length) s1 s2).1 = (io s net n s1 s2).1 ∧
    (io s (net ++ x) (min n net.length) s1 s2).2 = (io s net n s1 s2).2 ++ x := by
  unfold io
  dsimp only
  obtain ⟨d1, d2⟩ := doRead_extend (parseReadbuf s s1) net x n
  split
  · exact ⟨rfl, rfl⟩
  · split
    · exact ⟨rfl, rfl⟩
    · split
      · exact ⟨rfl, rfl⟩
      · rw [d1]
        split
        · exact ⟨d1, d2⟩
        · exact ⟨rfl, d2⟩

/-- The connection is that of an honest child that may stop at any place. -/
def PInv (ms : List Rec) (c : Conn) : Prop := ∃ x, Inv ms { c with net := c.net ++ x }

theorem pinv_io {ms : List Rec} {c : Conn} (h : PInv ms c) (n : Nat) (s1 s2 : Str) :
    PInv ms (step c (.io n s1 s2)) := by
  obtain ⟨x, h⟩ := h
  refine ⟨x, ?_⟩
  have := inv_step h (.io (min n c.net.length) s1 s2)
  obtain ⟨e1, e2⟩ := io_extend c.rx c.net x n s1 s2
  simp only [step] at this ⊢
  rw [e1, e2] at this
  exact this

theorem pinv_take {ms : List Rec} {c : Conn} (h : PInv ms c) : PInv ms (step c .take) := by
  obtain ⟨x, h⟩ := h
  refine ⟨x, ?_⟩
  have := inv_step h .take
  simp only [step] at this ⊢
  cases hr : c.rx.rbuf with
  | none => rw [hr] at this; exact this
  | some r => rw [hr] at this; exact this

theorem pinv_start {ms : List Rec} {net : Str} (h : Writes net ms) : PInv ms { net := net } := by
  obtain ⟨h1, x, h2⟩ := h
  refine ⟨x, ?_⟩
  have : net ++ x = frames ms := h2
  simp only
  rw [this]
  exact ⟨rfl, by simp, ms, by simp, by simp, h1⟩

theorem pinv_prefix {ms : List Rec} {c : Conn} (h : PInv ms c) :
    c.delivered ++ c.rx.rbuf.toList <+: ms ∧ c.rx.err = false := by
  obtain ⟨x, h1, _, rest, h2, _⟩ := h
  exact ⟨⟨rest, h2.symm⟩, h1⟩

/-! ### The pieces of a turn -/

/-- What is taken from a pipe. -/
def takeOne (d : Reader) : Reader :=
  match d.conn.rx.rbuf with
  | none => d
  | some r => { d with conn := Asfd.step d.conn .take, client := clientIn d.client r.buf }

/-- What is passed on from a pipe. -/
def saidBy (d : Reader) : Option Said := d.conn.rx.rbuf.map (.status d.pid)

/-- Messages that are appended one after the other. -/
def tellAll (w : Writer) (ms : List Rec) : Writer := { w with tx := txRun w.tx (ms.map .append) }

theorem tellAll_nil (w : Writer) : tellAll w [] = w := rfl

theorem tellAll_cons (w : Writer) (m : Rec) (ms : List Rec) :
    tellAll { w with tx := txStep w.tx (.append m) } ms = tellAll w (m :: ms) := rfl

theorem tellAll_append (w : Writer) (a b : List Rec) : tellAll (tellAll w a) b = tellAll w (a ++ b) := by
  simp [tellAll, txRun, List.foldl_append]

theorem forward_eq (ds : List Reader) (ws : List Writer) :
    forward ds ws = (ds.map takeOne, ws.map (fun w => tellAll w ((ds.filterMap saidBy).map (·.msg))),
      ds.filterMap saidBy) := by
  induction ds generalizing ws with
  | nil => simp [forward, tellAll_nil]
  | cons d ds ih =>
    unfold forward
    cases hr : d.conn.rx.rbuf with
    | none =>
      simp only
      rw [ih]
      have e1 : takeOne d = d := by simp [takeOne, hr]
      have e2 : saidBy d = none := by simp [saidBy, hr]
      simp [e1, e2]
    | some r =>
      simp only
      rw [ih]
      have e1 : takeOne d = { d with conn := Asfd.step d.conn .take, client := clientIn d.client r.buf } := by
        simp [takeOne, hr]
      have e2 : saidBy d = some (.status d.pid r) := by simp [saidBy, hr]
      simp only [List.map_cons, e1, List.filterMap_cons, e2, tell, List.map_map]
      rfl

/-- Whether a list of clients is due. -/
def due (now : Int) (s : St) : Bool := !s.writers.isEmpty && decide (¬ now - s.lastTime < 5)

theorem maybeList_eq (now : Int) (s : St) :
    (maybeList now s).2 = (if due now s then [.list (listMsg s.readers)] else []) ∧
    (maybeList now s).1.readers = s.readers ∧ (maybeList now s).1.procs = s.procs ∧
    (maybeList now s).1.hup = s.hup ∧ (maybeList now s).1.gentle = s.gentle ∧
    (maybeList now s).1.writers = s.writers.map (fun w => tellAll w ((maybeList now s).2.map (·.msg))) := by
  unfold maybeList due
  by_cases h : s.writers.isEmpty = true
  · simp [h, tellAll_nil]
  · simp only [h, Bool.false_eq_true, if_false, Bool.not_false, Bool.true_and]
    by_cases h5 : now - s.lastTime < 5
    · by_cases h0 : now - s.lastTime < 0 <;> simp [h5, h0, tellAll_nil]
    · simp [h5, tell, Said.msg, tellAll, txRun]

/-- The state when the signals have been noticed. -/
def signalled (s : St) (t : Turn) : St := { s with hup := s.hup || t.hup, gentle := s.gentle || t.usr2 }

/-- The state when messages have been passed on. -/
def passed (s : St) : St :=
  { s with readers := (forward s.readers s.writers).1, writers := (forward s.readers s.writers).2.1 }

/-- What is passed on in a turn. -/
def toldIn (t : Turn) (s : St) : List Said := (forward s.readers s.writers).2.2 ++ (maybeList t.now (passed s)).2

/-- The state at the end of a turn. -/
def after (t : Turn) (s : St) : St := reap t.ended (maybeList t.now (passed s)).1

/-- The child of that number has been waited for. -/
def gone (t : Turn) (s : St) (p : Nat) : Bool := t.ended.contains p && s.procs.contains p

theorem turn_none {s : St} {t : Turn} (h : readWrite t (signalled s t) = none) :
    turn s t = ⟨signalled s t, some false, []⟩ := by
  unfold turn
  unfold signalled at h
  simp only [h]
  rfl

theorem turn_some {s s1 : St} {t : Turn} (h : readWrite t (signalled s t) = some s1) :
    turn s t =
      (if (after t s1).gentle && ((after t s1).readers.isEmpty && (after t s1).writers.isEmpty) then
        ⟨after t s1, some true, toldIn t s1⟩
      else if !(after t s1).hup then ⟨after t s1, none, toldIn t s1⟩
      else if (after t s1).gentle then
        ⟨{ after t s1 with readers := [], writers := [] }, some true, toldIn t s1⟩
      else if t.reloadOk then
        ⟨{ after t s1 with readers := [], writers := [], hup := false }, none, toldIn t s1⟩
      else ⟨{ after t s1 with readers := [], writers := [] }, some false, toldIn t s1⟩) := by
  unfold turn
  unfold signalled at h
  simp only [h]
  rfl

theorem turn_told {s s1 : St} {t : Turn} (h : readWrite t (signalled s t) = some s1) :
    (turn s t).told = toldIn t s1 := by
  rw [turn_some h]
  repeat' split
  all_goals rfl

/-- What is in the process after a turn is what was there at its end, perhaps without the pipes. -/
theorem turn_st {s s1 : St} {t : Turn} (h : readWrite t (signalled s t) = some s1) :
    ((turn s t).st.readers = (after t s1).readers ∧ (turn s t).st.writers = (after t s1).writers ∨
      (turn s t).st.readers = [] ∧ (turn s t).st.writers = []) ∧
    (turn s t).st.procs = (after t s1).procs ∧ (turn s t).st.lastTime = (after t s1).lastTime ∧
    (turn s t).st.gentle = (after t s1).gentle := by
  rw [turn_some h]
  repeat' split
  all_goals simp

theorem readWrite_eq {t : Turn} {s s1 : St} (h : readWrite t s = some s1) :
    t.fatal = false ∧ ∃ new : List Incoming, (new = [] ∨ new = t.incoming ∧ Incoming.error ∉ t.incoming ∧
      problem t s = false) ∧
      s1 = new.foldl accept { s with readers := s.readers.filterMap (readOne t), writers := s.writers.filterMap (writeOne t) } := by
  unfold readWrite at h
  split at h
  · cases h
  · rename_i hf
    refine ⟨by simpa using hf, ?_⟩
    simp only at h
    split at h
    · exact ⟨[], .inl rfl, by simpa using h.symm⟩
    · rename_i hp
      split at h
      · cases h
      · rename_i he
        refine ⟨t.incoming, .inr ⟨rfl, ?_, by simpa using hp⟩, by simpa using h.symm⟩
        intro hm
        apply he
        rw [List.any_eq_true]
        exact ⟨_, hm, rfl⟩

/-- The pipe that is made for a connection. -/
def Incoming.reader? : Incoming → Option Reader
  | .client pid net => some ⟨pid, { net := net }, none⟩
  | _ => none

/-- The pipe that is made for a connection. -/
def Incoming.writer? : Incoming → Option Writer
  | .monitor pid => some ⟨pid, {}⟩
  | _ => none

theorem accept_fold (l : List Incoming) (s : St) :
    l.foldl accept s = { s with readers := s.readers ++ l.filterMap Incoming.reader?
                                writers := s.writers ++ l.filterMap Incoming.writer?
                                procs := s.procs ++ l.filterMap Incoming.pid? } := by
  induction l generalizing s with
  | nil => simp
  | cons i l ih =>
    rw [List.foldl_cons, ih]
    cases i <;> simp [accept, Incoming.reader?, Incoming.writer?, Incoming.pid?, List.filterMap_cons]

theorem after_readers (t : Turn) (s : St) :
    (after t s).readers = (s.readers.map takeOne).filter (fun d => !gone t s d.pid) := by
  unfold after reap gone
  obtain ⟨-, h2, h3, -⟩ := maybeList_eq t.now (passed s)
  simp only
  rw [h2, h3]
  simp only [passed, forward_eq]

theorem toldIn_eq (t : Turn) (s : St) :
    toldIn t s = s.readers.filterMap saidBy ++
      (if due t.now (passed s) then [.list (listMsg (s.readers.map takeOne))] else []) := by
  unfold toldIn
  rw [(maybeList_eq t.now (passed s)).1]
  simp only [passed, forward_eq]

theorem after_writers (t : Turn) (s : St) :
    (after t s).writers =
      (s.writers.map (fun w => tellAll w ((toldIn t s).map (·.msg)))).filter (fun w => !gone t s w.pid) := by
  unfold after reap gone
  obtain ⟨-, h2, h3, -, -, h6⟩ := maybeList_eq t.now (passed s)
  simp only
  rw [h6, h3]
  simp only [passed, forward_eq, List.map_map, toldIn, List.map_append, Function.comp_def, tellAll_append]

theorem after_procs (t : Turn) (s : St) : (after t s).procs = s.procs.filter (fun p => !gone t s p) := by
  unfold after reap gone
  obtain ⟨-, -, h3, -⟩ := maybeList_eq t.now (passed s)
  simp only
  rw [h3]
  rfl

theorem after_flags (t : Turn) (s : St) : (after t s).hup = s.hup ∧ (after t s).gentle = s.gentle := by
  unfold after reap
  obtain ⟨-, -, -, h4, h5, -⟩ := maybeList_eq t.now (passed s)
  exact ⟨h4, h5⟩

/-! ### Induction over the turns -/

theorem run_append (a b : List Turn) : run (a ++ b) = b.foldl next (run a) := by
  unfold run; rw [List.foldl_append]

theorem next_over {r : Run} {t : Turn} {b : Bool} (h : r.over = some b) : next r t = r := by
  unfold next; rw [h]

theorem next_none {r : Run} {t : Turn} (h : r.over = none) :
    next r t = { turn r.st t with told := r.told ++ (turn r.st t).told } := by
  unfold next; rw [h]

/-- A property of the turns so far and of what has become of the server holds of all runs if it holds at
the start, and is kept by a turn of a server that has not ended. -/
theorem run_induct (P : List Turn → Run → Prop) (h0 : P [] {})
    (hover : ∀ ts t r b, r.over = some b → P ts r → P (ts ++ [t]) r)
    (hs : ∀ ts t r, r.over = none → P ts r → P (ts ++ [t]) { turn r.st t with told := r.told ++ (turn r.st t).told })
    (ts : List Turn) : P ts (run ts) := by
  have : ∀ (l done : List Turn) (r : Run), P done r → P (done ++ l) (l.foldl next r) := by
    intro l
    induction l with
    | nil => intro done r h; simpa using h
    | cons t l ih =>
      intro done r h
      have e : done ++ t :: l = (done ++ [t]) ++ l := by simp
      rw [e, List.foldl_cons]
      apply ih
      cases ho : r.over with
      | none => rw [next_none ho]; exact hs _ _ _ ho h
      | some b => rw [next_over ho]; exact hover _ _ _ b ho h
  have := this ts [] {} h0
  unfold run
  simpa using this

/-! ### What the children say -/

theorem fromChild_append (p : Nat) (a b : List Said) : fromChild p (a ++ b) = fromChild p a ++ fromChild p b := by
  simp [fromChild]

theorem takeOne_pid (d : Reader) : (takeOne d).pid = d.pid := by
  unfold takeOne; split <;> rfl

theorem readOne_some {t : Turn} {d d' : Reader} (h : readOne t d = some d') :
    d'.pid = d.pid ∧ d'.client = d.client ∧ ∃ n s1 s2, t.reads d.pid = .io n s1 s2 ∧
      d'.conn = Asfd.step d.conn (.io n s1 s2) ∧ d'.conn.rx.err = false := by
  unfold readOne at h
  cases hr : t.reads d.pid with
  | fail => rw [hr] at h; cases h
  | io n s1 s2 =>
    rw [hr] at h
    simp only at h
    split at h
    · cases h
    · rename_i he
      cases h
      exact ⟨rfl, rfl, n, s1, s2, rfl, rfl, by simpa using he⟩

theorem fromChild_said (ds : List Reader) (p : Nat) (hn : (ds.map (·.pid)).Nodup) :
    (∀ d ∈ ds, d.pid = p → fromChild p (ds.filterMap saidBy) = d.conn.rx.rbuf.toList) ∧
    (p ∉ ds.map (·.pid) → fromChild p (ds.filterMap saidBy) = []) := by
  induction ds with
  | nil => simp [fromChild]
  | cons d ds ih =>
    rw [List.map_cons, List.nodup_cons] at hn
    obtain ⟨i1, i2⟩ := ih hn.2
    have e : fromChild p ((d :: ds).filterMap saidBy) =
        (if d.pid = p then d.conn.rx.rbuf.toList else []) ++ fromChild p (ds.filterMap saidBy) := by
      rw [List.filterMap_cons]
      unfold saidBy
      cases hr : d.conn.rx.rbuf with
      | none => simp
      | some r =>
        by_cases hp : d.pid = p <;> simp [fromChild, hp]
    rw [e]
    constructor
    · intro d' hd' hp
      rw [List.mem_cons] at hd'
      rcases hd' with rfl | hd'
      · rw [if_pos hp, i2 (by rw [← hp]; exact hn.1)]; simp
      · rw [if_neg, i1 d' hd' hp]; simp
        intro h
        apply hn.1
        rw [h, ← hp]
        exact List.mem_map_of_mem hd'
    · intro hp
      rw [List.map_cons, List.mem_cons, not_or] at hp
      rw [if_neg (fun h => hp.1 h.symm), i2 hp.2]; rfl

/-- The client that a child has named. -/
def nameOf (l : List Rec) : Option Str := l.foldl (fun c r => clientIn c r.buf) none

theorem forked_append (a b : List Turn) : forked (a ++ b) = forked a ++ forked b := by
  simp [forked]

theorem forked_one (t : Turn) : forked [t] = t.incoming.filterMap Incoming.pid? := by
  simp [forked]

/-- What is true of the pipes from the children at the end of each turn. -/
structure Track (ts : List Turn) (r : Run) : Prop where
  nodup : (r.st.readers.map (·.pid)).Nodup
  sub : ∀ d ∈ r.st.readers, d.pid ∈ forked ts
  old : ∀ p, p ∉ forked ts → fromChild p r.told = []
  conn : ∀ d ∈ r.st.readers, d.conn.delivered = fromChild d.pid r.told ∧ d.conn.rx.rbuf = none ∧
    d.client = nameOf (fromChild d.pid r.told)

/-- The same, after `async_io` and with the new children. -/
structure Track1 (ts : List Turn) (told : List Said) (s : St) : Prop where
  nodup : (s.readers.map (·.pid)).Nodup
  sub : ∀ d ∈ s.readers, d.pid ∈ forked ts
  old : ∀ p, p ∉ forked ts → fromChild p told = []
  conn : ∀ d ∈ s.readers, d.conn.delivered = fromChild d.pid told ∧ d.client = nameOf (fromChild d.pid told)

theorem reader?_pid {i : Incoming} {d : Reader} (h : i.reader? = some d) :
    i.pid? = some d.pid ∧ ∃ net, i = .client d.pid net ∧ d.conn = { net := net } ∧ d.client = none := by
  cases i with
  | client pid net => cases h; exact ⟨rfl, net, rfl, rfl, rfl⟩
  | _ => cases h

theorem reader?_sublist (l : List Incoming) :
    ((l.filterMap Incoming.reader?).map (·.pid)).Sublist (l.filterMap Incoming.pid?) := by
  induction l with
  | nil => simp
  | cons i l ih =>
    cases i with
    | client pid net => simpa [List.filterMap_cons, Incoming.reader?, Incoming.pid?] using ih
    | monitor pid =>
      simp only [List.filterMap_cons, Incoming.reader?, Incoming.pid?]
      exact ih.cons _
    | _ => simpa [List.filterMap_cons, Incoming.reader?, Incoming.pid?] using ih

theorem readOne_sublist (t : Turn) (ds : List Reader) :
    ((ds.filterMap (readOne t)).map (·.pid)).Sublist (ds.map (·.pid)) := by
  induction ds with
  | nil => simp
  | cons d ds ih =>
    rw [List.filterMap_cons]
    cases h : readOne t d with
    | none => exact ih.cons _
    | some d' =>
      simp only [List.map_cons]
      rw [(readOne_some h).1]
      exact ih.cons_cons _

theorem step_io_delivered (c : Conn) (n : Nat) (s1 s2 : Str) : (Asfd.step c (.io n s1 s2)).delivered = c.delivered := rfl

theorem track_readWrite {ts : List Turn} {t : Turn} {r : Run} {s1 : St} (h : Track ts r)
    (hd : Distinct (ts ++ [t])) (hr : readWrite t (signalled r.st t) = some s1) : Track1 (ts ++ [t]) r.told s1 := by
  obtain ⟨-, new, hnew, rfl⟩ := readWrite_eq hr
  have hsub : ∀ i ∈ new, i ∈ t.incoming := by
    rcases hnew with rfl | ⟨rfl, -⟩
    · simp
    · exact fun i hi => hi
  have hpids : (new.filterMap Incoming.pid?).Sublist (forked [t]) := by
    rw [forked_one]
    rcases hnew with rfl | ⟨rfl, -⟩
    · simp
    · exact List.Sublist.refl _
  unfold Distinct at hd
  rw [forked_append, List.nodup_append] at hd
  rw [accept_fold]
  have hmem : ∀ d ∈ new.filterMap Incoming.reader?, d.pid ∈ forked [t] ∧ d.pid ∉ forked ts ∧
      ∃ net, d.conn = { net := net } ∧ d.client = none := by
    intro d hd'
    have hp : d.pid ∈ forked [t] :=
      hpids.subset ((reader?_sublist new).subset (List.mem_map_of_mem hd'))
    obtain ⟨i, hi, hid⟩ := List.mem_filterMap.1 hd'
    obtain ⟨-, net, -, e1, e2⟩ := reader?_pid hid
    exact ⟨hp, fun hx => hd.2.2 _ hx _ hp rfl, net, e1, e2⟩
  constructor
  · simp only [List.map_append]
    rw [List.nodup_append]
    refine ⟨h.nodup.sublist (readOne_sublist t _), (hd.2.1.sublist hpids).sublist (reader?_sublist new), ?_⟩
    intro a ha b hb hab
    obtain ⟨d, hd1, rfl⟩ := List.mem_map.1 hb
    have := (readOne_sublist t _).subset ha
    obtain ⟨d0, hd0, rfl⟩ := List.mem_map.1 this
    apply (hmem d hd1).2.1
    rw [← hab]
    exact h.sub d0 hd0
  · intro d hd'
    simp only [List.mem_append] at hd'
    rw [forked_append, List.mem_append]
    rcases hd' with hd' | hd'
    · obtain ⟨d0, h0, h1⟩ := List.mem_filterMap.1 hd'
      rw [(readOne_some h1).1]
      exact .inl (h.sub d0 h0)
    · exact .inr (hmem d hd').1
  · intro p hp
    rw [forked_append, List.mem_append, not_or] at hp
    exact h.old p hp.1
  · intro d hd'
    simp only [List.mem_append] at hd'
    rcases hd' with hd' | hd'
    · obtain ⟨d0, h0, h1⟩ := List.mem_filterMap.1 hd'
      obtain ⟨e1, e2, n, s1, s2, -, e3, -⟩ := readOne_some h1
      obtain ⟨c1, -, c3⟩ := h.conn d0 h0
      rw [e1, e2, e3]
      exact ⟨c1, c3⟩
    · obtain ⟨-, h2, net, h3, h4⟩ := hmem d hd'
      rw [h.old d.pid h2, h3, h4]
      exact ⟨rfl, rfl⟩

theorem fromChild_list (p : Nat) (b : Bool) (m : Rec) :
    fromChild p (if b then [Said.list m] else []) = [] := by
  cases b <;> rfl

theorem fromChild_toldIn (t : Turn) (s : St) (p : Nat) :
    fromChild p (toldIn t s) = fromChild p (s.readers.filterMap saidBy) := by
  rw [toldIn_eq, fromChild_append, fromChild_list]; simp

/-- What a child has said up to the end of the turn. -/
theorem track1_said {ts : List Turn} {told : List Said} {s : St} (h : Track1 ts told s) (t : Turn)
    {d : Reader} (hd : d ∈ s.readers) :
    (takeOne d).conn.delivered = fromChild d.pid (told ++ toldIn t s) ∧ (takeOne d).conn.rx.rbuf = none ∧
    (takeOne d).client = nameOf (fromChild d.pid (told ++ toldIn t s)) := by
  obtain ⟨c1, c2⟩ := h.conn d hd
  have e := (fromChild_said s.readers d.pid h.nodup).1 d hd rfl
  rw [fromChild_append, fromChild_toldIn, e, ← c1]
  unfold takeOne
  cases hr : d.conn.rx.rbuf with
  | none =>
    simp only [Option.toList_none, List.append_nil]
    exact ⟨trivial, hr, by rw [c2, c1]⟩
  | some r =>
    simp only [Option.toList_some]
    refine ⟨by simp [Asfd.step, hr], by simp [Asfd.step, hr], ?_⟩
    rw [c2, ← c1]
    simp [nameOf, List.foldl_append]

theorem track_end {ts : List Turn} {t : Turn} {told : List Said} {s : St} (h : Track1 ts told s) (ds : List Reader)
    (hs : ds.Sublist (s.readers.map takeOne)) (x : Run) (hx : x.st.readers = ds) (ht : x.told = told ++ toldIn t s) :
    Track ts x := by
  have hp : (s.readers.map takeOne).map (·.pid) = s.readers.map (·.pid) := by
    rw [List.map_map]; apply List.map_congr_left; intro d _; exact takeOne_pid d
  have hmem : ∀ d ∈ ds, ∃ d0 ∈ s.readers, takeOne d0 = d := fun d hd => List.mem_map.1 (hs.subset hd)
  constructor
  · rw [hx]
    have := hs.map (·.pid)
    rw [hp] at this
    exact h.nodup.sublist this
  · rw [hx]
    intro d hd
    obtain ⟨d0, h0, rfl⟩ := hmem d hd
    rw [takeOne_pid]
    exact h.sub d0 h0
  · intro p hpn
    rw [ht, fromChild_append, h.old p hpn, fromChild_toldIn]
    rw [(fromChild_said s.readers p h.nodup).2]
    · rfl
    · intro hm
      obtain ⟨d, hd, rfl⟩ := List.mem_map.1 hm
      exact hpn (h.sub d hd)
  · rw [hx, ht]
    intro d hd
    obtain ⟨d0, h0, rfl⟩ := hmem d hd
    rw [takeOne_pid]
    exact track1_said h t h0

theorem track_turn {ts : List Turn} {t : Turn} {r : Run} (h : Track ts r) (hd : Distinct (ts ++ [t])) :
    Track (ts ++ [t]) { turn r.st t with told := r.told ++ (turn r.st t).told } := by
  cases hr : readWrite t (signalled r.st t) with
  | none =>
    rw [turn_none hr]
    refine ⟨h.nodup, ?_, ?_, ?_⟩
    · intro d hd'
      rw [forked_append, List.mem_append]
      exact .inl (h.sub d hd')
    · intro p hp
      rw [forked_append, List.mem_append, not_or] at hp
      simp only [List.append_nil]
      exact h.old p hp.1
    · simp only [List.append_nil]
      exact h.conn
  | some s1 =>
    have h1 := track_readWrite h hd hr
    have hst := (turn_st hr).1
    refine track_end (t := t) h1 _ ?_ _ rfl ?_
    · rcases hst with ⟨e, -⟩ | ⟨e, -⟩
      · simp only
        rw [e, after_readers]
        exact List.filter_sublist
      · simp only
        rw [e]
        exact List.nil_sublist _
    · simp only
      rw [turn_told hr]

theorem distinct_left {a b : List Turn} (h : Distinct (a ++ b)) : Distinct a := by
  unfold Distinct at h ⊢
  rw [forked_append, List.nodup_append] at h
  exact h.1

theorem track_run (ts : List Turn) (hd : Distinct ts) : Track ts (run ts) := by
  refine run_induct (fun ts r => Distinct ts → Track ts r) ?_ ?_ ?_ ts hd
  · intro _
    exact ⟨by simp, by simp, by simp [fromChild], by simp⟩
  · intro ts t r b _ ih hd
    have h := ih (distinct_left hd)
    refine ⟨h.nodup, ?_, ?_, h.conn⟩
    · intro d hd'
      rw [forked_append, List.mem_append]
      exact .inl (h.sub d hd')
    · intro p hp
      rw [forked_append, List.mem_append, not_or] at hp
      exact h.old p hp.1
  · intro ts t r _ ih hd
    exact track_turn (ih (distinct_left hd)) hd

/-! ### What the children write -/

/-- The children of these turns write what the script says. -/
def Scripted (script : Nat → List Rec) (ts : List Turn) : Prop :=
  ∀ t ∈ ts, ∀ pid net, Incoming.client pid net ∈ t.incoming → Writes net (script pid)

theorem scripted_left {script : Nat → List Rec} {a b : List Turn} (h : Scripted script (a ++ b)) : Scripted script a :=
  fun t ht => h t (List.mem_append_left _ ht)

theorem pinv_takeOne {ms : List Rec} {d : Reader} (h : PInv ms d.conn) : PInv ms (takeOne d).conn := by
  unfold takeOne
  split
  · exact h
  · exact pinv_take h

/-- After `async_io` the pipes from the children are still what the script says. -/
theorem pinv_readWrite {script : Nat → List Rec} {t : Turn} {s s1 : St}
    (hs : ∀ pid net, Incoming.client pid net ∈ t.incoming → Writes net (script pid))
    (h : ∀ d ∈ s.readers, PInv (script d.pid) d.conn) (hr : readWrite t s = some s1) :
    ∀ d ∈ s1.readers, PInv (script d.pid) d.conn := by
  obtain ⟨-, new, hnew, rfl⟩ := readWrite_eq hr
  have hsub : ∀ i ∈ new, i ∈ t.incoming := by
    rcases hnew with rfl | ⟨rfl, -⟩
    · simp
    · exact fun i hi => hi
  rw [accept_fold]
  intro d hd
  simp only [List.mem_append] at hd
  rcases hd with hd | hd
  · obtain ⟨d0, h0, h1⟩ := List.mem_filterMap.1 hd
    obtain ⟨e1, e2, n, s1, s2, -, e3, -⟩ := readOne_some h1
    rw [e1, e3]
    exact pinv_io (h d0 h0) n s1 s2
  · obtain ⟨i, hi, hid⟩ := List.mem_filterMap.1 hd
    obtain ⟨-, net, rfl, e1, e2⟩ := reader?_pid hid
    rw [e1]
    exact pinv_start (hs d.pid net (hsub _ hi))

theorem pinv_turn {script : Nat → List Rec} {t : Turn} {s : St}
    (hs : ∀ pid net, Incoming.client pid net ∈ t.incoming → Writes net (script pid))
    (h : ∀ d ∈ s.readers, PInv (script d.pid) d.conn) : ∀ d ∈ (turn s t).st.readers, PInv (script d.pid) d.conn := by
  cases hr : readWrite t (signalled s t) with
  | none => rw [turn_none hr]; exact h
  | some s1 =>
    have h1 := pinv_readWrite hs (s := signalled s t) h hr
    rcases (turn_st hr).1 with ⟨e, -⟩ | ⟨e, -⟩
    · rw [e, after_readers]
      intro d hd
      obtain ⟨d0, h0, rfl⟩ := List.mem_map.1 (List.mem_filter.1 hd).1
      rw [takeOne_pid]
      exact pinv_takeOne (h1 d0 h0)
    · rw [e]
      simp

theorem pinv_run (script : Nat → List Rec) (ts : List Turn) (hs : Scripted script ts) :
    ∀ d ∈ (run ts).st.readers, PInv (script d.pid) d.conn := by
  refine run_induct (fun ts r => Scripted script ts → ∀ d ∈ r.st.readers, PInv (script d.pid) d.conn) ?_ ?_ ?_ ts hs
  · intro _; simp
  · intro ts t r b _ ih hs; exact ih (scripted_left hs)
  · intro ts t r _ ih hs
    exact pinv_turn (hs t (by simp)) (ih (scripted_left hs))

theorem said_run (script : Nat → List Rec) (ts : List Turn) (hs : Scripted script ts) (hd : Distinct ts) (p : Nat) :
    fromChild p (run ts).told <+: script p := by
  refine ((run_induct (fun ts r => Scripted script ts → Distinct ts → Track ts r ∧
    (∀ d ∈ r.st.readers, PInv (script d.pid) d.conn) ∧ fromChild p r.told <+: script p) ?_ ?_ ?_ ts) hs hd).2.2
  · intro _ _
    exact ⟨⟨by simp, by simp, by simp [fromChild], by simp⟩, by simp, List.nil_prefix⟩
  · intro ts t r b _ ih hs hd
    obtain ⟨h, h2, h3⟩ := ih (scripted_left hs) (distinct_left hd)
    refine ⟨⟨h.nodup, ?_, ?_, h.conn⟩, h2, h3⟩
    · intro d hd'
      rw [forked_append, List.mem_append]
      exact .inl (h.sub d hd')
    · intro p hp
      rw [forked_append, List.mem_append, not_or] at hp
      exact h.old p hp.1
  · intro ts t r _ ih hs hd
    obtain ⟨h, h2, h3⟩ := ih (scripted_left hs) (distinct_left hd)
    refine ⟨track_turn h hd, pinv_turn (hs t (by simp)) h2, ?_⟩
    simp only
    cases hr : readWrite t (signalled r.st t) with
    | none => rw [turn_none hr]; simpa using h3
    | some s1 =>
      have h1 := track_readWrite h hd hr
      have h4 := pinv_readWrite (hs t (by simp)) (s := signalled r.st t) h2 hr
      rw [turn_told hr]
      by_cases hp : p ∈ s1.readers.map (·.pid)
      · obtain ⟨d, hd', rfl⟩ := List.mem_map.1 hp
        rw [← (track1_said h1 t hd').1]
        have := (pinv_prefix (pinv_takeOne (h4 d hd'))).1
        exact (List.prefix_append _ _).trans this
      · rw [fromChild_append, fromChild_toldIn, (fromChild_said s1.readers p h1.nodup).2 hp]
        simpa using h3

/-! ### What the monitors hear -/

theorem appends_accepted (t : Tx) (ms : List Rec) :
    ∃ l : List Rec, l.Sublist ms ∧ (txRun t (ms.map .append)).accepted = t.accepted ++ l ∧
      (txRun t (ms.map .append)).sent = t.sent := by
  induction ms generalizing t with
  | nil => exact ⟨[], by simp, by simp [txRun], rfl⟩
  | cons m ms ih =>
    obtain ⟨l, h1, h2, h3⟩ := ih (txStep t (.append m))
    have e : txRun t ((m :: ms).map .append) = txRun (txStep t (.append m)) (ms.map .append) := rfl
    rw [e, h2, h3]
    cases ha : append t.writebuf m with
    | none => simp only [txStep, ha]; exact ⟨l, h1.cons _, rfl, trivial⟩
    | some wb => simp only [txStep, ha]; exact ⟨m :: l, h1.cons_cons _, by simp, trivial⟩

/-- With enough room, nothing is left out. -/
theorem appends_all (t : Tx) (ms : List Rec) (h : t.writebuf.length + room ms + 1 < bufMax) :
    (txRun t (ms.map .append)).accepted = t.accepted ++ ms := by
  induction ms generalizing t with
  | nil => simp [txRun]
  | cons m ms ih =>
    have e : txRun t ((m :: ms).map .append) = txRun (txStep t (.append m)) (ms.map .append) := rfl
    have hr : room (m :: ms) = m.buf.length + 6 + room ms := by simp [room]
    rw [hr] at h
    cases ha : append t.writebuf m with
    | none =>
      unfold append at ha
      split at ha
      · rename_i hge
        omega
      · cases ha
    | some wb =>
      have hlen : wb.length ≤ t.writebuf.length + (m.buf.length + 6) := by
        obtain ⟨e1, -, e3⟩ := append_some ha
        have : (hex04 m.buf.length).length = 4 := (hex04_length _).2 (by rw [bufMax_eq] at e3; omega)
        rw [e1]
        simp [frame, this]
        omega
      rw [e, ih]
      · simp [txStep, ha]
      · simp only [txStep, ha]
        omega

theorem writeOne_some {t : Turn} {w w' : Writer} (h : writeOne t w = some w') :
    ∃ n, t.writes w.pid = .write n ∧ w' = { w with tx := txStep w.tx (.write n) } := by
  unfold writeOne at h
  cases hw : t.writes w.pid with
  | fail => rw [hw] at h; cases h
  | write n => rw [hw] at h; cases h; exact ⟨n, rfl, rfl⟩

theorem writer?_some {i : Incoming} {w : Writer} (h : i.writer? = some w) : i = .monitor w.pid ∧ w.tx = {} := by
  cases i with
  | monitor pid => cases h; exact ⟨rfl, rfl⟩
  | _ => cases h

/-- The writers after `async_io`. -/
theorem writers_readWrite {t : Turn} {s s1 : St} (hr : readWrite t s = some s1) :
    ∀ w ∈ s1.writers, (∃ w0 ∈ s.writers, writeOne t w0 = some w) ∨
      (Incoming.monitor w.pid ∈ t.incoming ∧ w.tx = {}) := by
  obtain ⟨-, new, hnew, rfl⟩ := readWrite_eq hr
  have hsub : ∀ i ∈ new, i ∈ t.incoming := by
    rcases hnew with rfl | ⟨rfl, -⟩
    · simp
    · exact fun i hi => hi
  rw [accept_fold]
  intro w hw
  simp only [List.mem_append] at hw
  rcases hw with hw | hw
  · obtain ⟨w0, h0, h1⟩ := List.mem_filterMap.1 hw
    exact .inl ⟨w0, h0, h1⟩
  · obtain ⟨i, hi, hid⟩ := List.mem_filterMap.1 hw
    obtain ⟨rfl, e⟩ := writer?_some hid
    exact .inr ⟨hsub _ hi, e⟩

/-- What is true of the pipes to the monitors at all times. -/
def Told (r : Run) : Prop :=
  ∀ w ∈ r.st.writers, TxInv w.tx ∧ w.tx.accepted.Sublist (r.told.map (·.msg))

theorem told_turn {t : Turn} {r : Run} (h : Told r) :
    Told { turn r.st t with told := r.told ++ (turn r.st t).told } := by
  cases hr : readWrite t (signalled r.st t) with
  | none => rw [turn_none hr]; simpa [Told, signalled] using h
  | some s1 =>
    unfold Told
    simp only
    rcases (turn_st hr).1 with ⟨-, e⟩ | ⟨-, e⟩
    · rw [e, after_writers, turn_told hr]
      intro w hw
      obtain ⟨w1, h1, rfl⟩ := List.mem_map.1 (List.mem_filter.1 hw).1
      have hw1 : TxInv w1.tx ∧ w1.tx.accepted.Sublist (r.told.map (·.msg)) := by
        rcases writers_readWrite hr w1 h1 with ⟨w0, h0, h2⟩ | ⟨-, e⟩
        · obtain ⟨n, -, rfl⟩ := writeOne_some h2
          exact ⟨txInv_step (h w0 h0).1 _, (h w0 h0).2⟩
        · rw [e]
          exact ⟨txInv_init, List.nil_sublist _⟩
      refine ⟨txInv_run hw1.1 _, ?_⟩
      obtain ⟨l, g1, g2, -⟩ := appends_accepted w1.tx ((toldIn t s1).map (·.msg))
      show (txRun w1.tx _).accepted.Sublist _
      rw [g2, List.map_append]
      exact hw1.2.append g1
    · rw [e]; simp

theorem told_run (ts : List Turn) : Told (run ts) := by
  refine run_induct (fun _ r => Told r) ?_ ?_ ?_ ts
  · simp [Told]
  · intro _ _ _ _ _ h; exact h
  · intro _ _ _ _ h; exact told_turn h

theorem pinv_evs {ms : List Rec} {c : Conn} (h : PInv ms c) (evs : List Ev) : PInv ms (Asfd.run c evs) := by
  unfold Asfd.run
  induction evs generalizing c with
  | nil => exact h
  | cons e evs ih =>
    apply ih
    cases e with
    | io n s1 s2 => exact pinv_io h n s1 s2
    | take => exact pinv_take h

theorem heard_prefix {w : Writer} (h : TxInv w.tx) (hc : ∀ r ∈ w.tx.accepted, r.cmd ≠ 0) (evs : List Ev) :
    heard w evs <+: w.tx.accepted := by
  have hw : Writes w.tx.sent w.tx.accepted :=
    ⟨fun m hm => ⟨hc m hm, by have := h.2.2 m hm; omega⟩, w.tx.writebuf, h.1⟩
  have := (pinv_prefix (pinv_evs (pinv_start hw) evs)).1
  exact (List.prefix_append _ _).trans this

/-! ### The clock -/

theorem readWrite_lastTime {t : Turn} {s s1 : St} (hr : readWrite t s = some s1) :
    s1.lastTime = s.lastTime ∧ s1.hup = s.hup ∧ s1.gentle = s.gentle := by
  obtain ⟨-, new, -, rfl⟩ := readWrite_eq hr
  rw [accept_fold]
  exact ⟨rfl, rfl, rfl⟩

theorem maybeList_lastTime (now : Int) (s : St) :
    ((maybeList now s).1.lastTime = now ∨ (maybeList now s).1.lastTime = s.lastTime) ∧
    (s.lastTime ≤ now → s.lastTime ≤ (maybeList now s).1.lastTime) ∧
    (due now s = true → (maybeList now s).1.lastTime = now) := by
  unfold maybeList due
  by_cases h : s.writers.isEmpty = true
  · simp [h]
  · simp only [h, Bool.false_eq_true, if_false, Bool.not_false, Bool.true_and]
    by_cases h5 : now - s.lastTime < 5
    · by_cases h0 : now - s.lastTime < 0
      · simp [h5, h0]
      · simp [h5, h0]
    · simp [h5]

theorem turn_lastTime (s : St) (t : Turn) :
    ((turn s t).st.lastTime = t.now ∨ (turn s t).st.lastTime = s.lastTime) ∧
    (s.lastTime ≤ t.now → s.lastTime ≤ (turn s t).st.lastTime) ∧
    (∀ m, .list m ∈ (turn s t).told → (turn s t).st.lastTime = t.now ∧ 5 ≤ t.now - s.lastTime) := by
  cases hr : readWrite t (signalled s t) with
  | none => rw [turn_none hr]; simp [signalled]
  | some s1 =>
    have e1 : s1.lastTime = s.lastTime := (readWrite_lastTime hr).1
    have e2 : (passed s1).lastTime = s.lastTime := e1
    have hm := maybeList_lastTime t.now (passed s1)
    have ha : (after t s1).lastTime = (maybeList t.now (passed s1)).1.lastTime := rfl
    rw [(turn_st hr).2.2.1, turn_told hr, ha]
    rw [e2] at hm
    refine ⟨hm.1, hm.2.1, ?_⟩
    intro m hmem
    rw [toldIn_eq] at hmem
    rcases List.mem_append.1 hmem with h | h
    · obtain ⟨d, -, hd⟩ := List.mem_filterMap.1 h
      unfold saidBy at hd
      cases hb : d.conn.rx.rbuf <;> simp [hb] at hd
    · by_cases hdue : due t.now (passed s1) = true
      · refine ⟨hm.2.2 hdue, ?_⟩
        unfold due at hdue
        simp only [Bool.and_eq_true, decide_eq_true_eq, e2] at hdue
        omega
      · simp [hdue] at h

theorem over_left {a b : List Turn} (h : (run (a ++ b)).over = none) : (run a).over = none := by
  cases ho : (run a).over with
  | none => rfl
  | some x =>
    rw [run_append] at h
    have : ∀ (l : List Turn) (r : Run), r.over = some x → (l.foldl next r).over = some x := by
      intro l
      induction l with
      | nil => intro r hr; exact hr
      | cons t l ih => intro r hr; rw [List.foldl_cons, next_over hr]; exact ih r hr
    rw [this b _ ho] at h
    cases h

theorem run_snoc {ts : List Turn} {t : Turn} (h : (run ts).over = none) :
    run (ts ++ [t]) = { turn (run ts).st t with told := (run ts).told ++ (turn (run ts).st t).told } := by
  rw [run_append, List.foldl_cons, List.foldl_nil, next_none h]

theorem lastTime_run (ts : List Turn) : (run ts).st.lastTime = 0 ∨ ∃ t ∈ ts, (run ts).st.lastTime = t.now := by
  refine run_induct (fun ts r => r.st.lastTime = 0 ∨ ∃ t ∈ ts, r.st.lastTime = t.now) ?_ ?_ ?_ ts
  · exact .inl rfl
  · intro ts t r b _ ih
    rcases ih with h | ⟨t0, h0, h1⟩
    · exact .inl h
    · exact .inr ⟨t0, by simp [h0], h1⟩
  · intro ts t r _ ih
    simp only
    rcases (turn_lastTime r.st t).1 with h | h
    · exact .inr ⟨t, by simp, h⟩
    · rw [h]
      rcases ih with h | ⟨t0, h0, h1⟩
      · exact .inl h
      · exact .inr ⟨t0, by simp [h0], h1⟩

/-! ### Names -/

theorem splitFirst_eq (x : Byte) (a b : Str) (h : x ∉ a) : Cntr.splitFirst x (a ++ x :: b) = some (a, b) := by
  induction a with
  | nil => simp [Cntr.splitFirst]
  | cons c a ih =>
    rw [List.mem_cons, not_or] at h
    have hc : ¬ c = x := fun e => h.1 e.symm
    simp [Cntr.splitFirst, hc, ih h.2]

theorem clientIn_names {m : Rec} {name : Str} (h : Names m name) : clientIn none m.buf = some name := by
  obtain ⟨a, b, e, ha, hn⟩ := h
  unfold clientIn
  simp [e, splitFirst_eq _ _ _ ha, splitFirst_eq _ _ _ hn]

theorem nameOf_eq {l : List Rec} {name : Str} (h : ∀ m ∈ l, Names m name) :
    nameOf l = if l = [] then none else some name := by
  have : ∀ l : List Rec, l.foldl (fun c r => clientIn c r.buf) (some name) = some name := by
    intro l
    induction l with
    | nil => rfl
    | cons m l ih => rw [List.foldl_cons]; simpa [clientIn] using ih
  cases l with
  | nil => rfl
  | cons m l =>
    unfold nameOf
    rw [List.foldl_cons, clientIn_names (h m (by simp)), this]
    simp

/-- The lists of clients that have been passed on. -/
theorem list_of_turn {s : St} {t : Turn} {m : Rec} (h : .list m ∈ (turn s t).told) :
    ∃ s1, readWrite t (signalled s t) = some s1 ∧ m = listMsg (s1.readers.map takeOne) := by
  cases hr : readWrite t (signalled s t) with
  | none => rw [turn_none hr] at h; cases h
  | some s1 =>
    rw [turn_told hr, toldIn_eq] at h
    refine ⟨s1, rfl, ?_⟩
    rcases List.mem_append.1 h with h | h
    · obtain ⟨d, -, hd⟩ := List.mem_filterMap.1 h
      unfold saidBy at hd
      cases hb : d.conn.rx.rbuf <;> simp [hb] at hd
    · split at h
      · simpa using h
      · cases h

theorem list_cmd (ts : List Turn) (m : Rec) (h : .list m ∈ (run ts).told) : m.cmd ≠ 0 := by
  revert h
  refine run_induct (fun _ r => .list m ∈ r.told → m.cmd ≠ 0) ?_ ?_ ?_ ts
  · intro h; cases h
  · intro _ _ _ _ _ ih; exact ih
  · intro ts t r _ ih h
    rcases List.mem_append.1 h with h | h
    · exact ih h
    · obtain ⟨s1, -, rfl⟩ := list_of_turn h
      show Cmd.gen.toByte ≠ 0
      decide

/-! ### Pipes that stay -/

/-- With no two monitors of one number. -/
theorem writer?_sublist (l : List Incoming) :
    ((l.filterMap Incoming.writer?).map (·.pid)).Sublist (l.filterMap Incoming.pid?) := by
  induction l with
  | nil => simp
  | cons i l ih =>
    cases i with
    | monitor pid => simpa [List.filterMap_cons, Incoming.writer?, Incoming.pid?] using ih
    | client pid net =>
      simp only [List.filterMap_cons, Incoming.writer?, Incoming.pid?]
      exact ih.cons _
    | _ => simpa [List.filterMap_cons, Incoming.writer?, Incoming.pid?] using ih

/-- The pipes to the monitors and the children of the turns so far. -/
def WNodup (ts : List Turn) (r : Run) : Prop :=
  (r.st.writers.map (·.pid)).Nodup ∧ ∀ w ∈ r.st.writers, w.pid ∈ forked ts

theorem writeOne_sublist (t : Turn) (ws : List Writer) :
    ((ws.filterMap (writeOne t)).map (·.pid)).Sublist (ws.map (·.pid)) := by
  induction ws with
  | nil => simp
  | cons w ws ih =>
    rw [List.filterMap_cons]
    cases h : writeOne t w with
    | none => exact ih.cons _
    | some w' =>
      obtain ⟨n, -, rfl⟩ := writeOne_some h
      exact ih.cons_cons _

theorem wnodup_readWrite {ts : List Turn} {t : Turn} {r : Run} {s1 : St} (h : WNodup ts r)
    (hd : Distinct (ts ++ [t])) (hr : readWrite t (signalled r.st t) = some s1) :
    (s1.writers.map (·.pid)).Nodup ∧ ∀ w ∈ s1.writers, w.pid ∈ forked (ts ++ [t]) := by
  obtain ⟨-, new, hnew, rfl⟩ := readWrite_eq hr
  have hpids : (new.filterMap Incoming.pid?).Sublist (forked [t]) := by
    rw [forked_one]
    rcases hnew with rfl | ⟨rfl, -⟩
    · simp
    · exact List.Sublist.refl _
  unfold Distinct at hd
  rw [forked_append, List.nodup_append] at hd
  rw [accept_fold, forked_append]
  have hmem : ∀ w ∈ new.filterMap Incoming.writer?, w.pid ∈ forked [t] := fun w hw =>
    hpids.subset ((writer?_sublist new).subset (List.mem_map_of_mem hw))
  constructor
  · simp only [List.map_append]
    rw [List.nodup_append]
    refine ⟨h.1.sublist (writeOne_sublist t _), (hd.2.1.sublist hpids).sublist (writer?_sublist new), ?_⟩
    intro a ha b hb hab
    obtain ⟨d, hd1, rfl⟩ := List.mem_map.1 hb
    obtain ⟨d0, hd0, rfl⟩ := List.mem_map.1 ((writeOne_sublist t _).subset ha)
    exact hd.2.2 _ (h.2 d0 hd0) _ (hmem d hd1) hab
  · intro w hw
    simp only [List.mem_append] at hw ⊢
    rcases hw with hw | hw
    · obtain ⟨w0, h0, h1⟩ := List.mem_filterMap.1 hw
      obtain ⟨n, -, rfl⟩ := writeOne_some h1
      exact .inl (h.2 w0 h0)
    · exact .inr (hmem w hw)

theorem wnodup_run (ts : List Turn) (hd : Distinct ts) : WNodup ts (run ts) := by
  refine run_induct (fun ts r => Distinct ts → WNodup ts r) ?_ ?_ ?_ ts hd
  · intro _; exact ⟨by simp, by simp⟩
  · intro ts t r b _ ih hd
    have h := ih (distinct_left hd)
    refine ⟨h.1, fun w hw => ?_⟩
    rw [forked_append, List.mem_append]
    exact .inl (h.2 w hw)
  · intro ts t r _ ih hd
    have h := ih (distinct_left hd)
    cases hr : readWrite t (signalled r.st t) with
    | none =>
      rw [turn_none hr]
      refine ⟨h.1, fun w hw => ?_⟩
      rw [forked_append, List.mem_append]
      exact .inl (h.2 w hw)
    | some s1 =>
      obtain ⟨g1, g2⟩ := wnodup_readWrite h hd hr
      have hp : (s1.writers.map (fun w => tellAll w ((toldIn t s1).map (·.msg)))).map (·.pid) = s1.writers.map (·.pid) := by
        rw [List.map_map]; rfl
      unfold WNodup
      simp only
      rcases (turn_st hr).1 with ⟨-, e⟩ | ⟨-, e⟩
      · rw [e, after_writers]
        constructor
        · have := (List.filter_sublist (p := fun w : Writer => !gone t s1 w.pid)
            (l := s1.writers.map (fun w => tellAll w ((toldIn t s1).map (·.msg))))).map (·.pid)
          rw [hp] at this
          exact g1.sublist this
        · intro w hw
          obtain ⟨w1, h1, rfl⟩ := List.mem_map.1 (List.mem_filter.1 hw).1
          exact g2 w1 h1
      · rw [e]
        exact ⟨by simp, by simp⟩

theorem nodup_pid_eq {ws : List Writer} (h : (ws.map (·.pid)).Nodup) {a b : Writer} (ha : a ∈ ws) (hb : b ∈ ws)
    (e : a.pid = b.pid) : a = b := by
  induction ws with
  | nil => cases ha
  | cons w ws ih =>
    rw [List.map_cons, List.nodup_cons] at h
    rw [List.mem_cons] at ha hb
    rcases ha with rfl | ha <;> rcases hb with rfl | hb
    · rfl
    · exact absurd (e ▸ List.mem_map_of_mem hb) h.1
    · exact absurd (e ▸ List.mem_map_of_mem ha) h.1
    · exact ih h.2 ha hb

/-- Without a signal to load the configuration again, the pipes stay. -/
theorem turn_st_stay {s s1 : St} {t : Turn} (h : readWrite t (signalled s t) = some s1) (hh : s1.hup = false) :
    (turn s t).st = after t s1 := by
  rw [turn_some h]
  have : (after t s1).hup = false := by rw [(after_flags t s1).1, hh]
  split
  · rfl
  · simp [this]

theorem readWrite_ok {t : Turn} {s : St} (hf : t.fatal = false) (he : Incoming.error ∉ t.incoming) :
    ∃ s1, readWrite t s = some s1 := by
  unfold readWrite
  rw [hf]
  simp only [Bool.false_eq_true, if_false]
  split
  · exact ⟨_, rfl⟩
  · rw [if_neg]
    · exact ⟨_, rfl⟩
    · intro h
      obtain ⟨i, hi, h2⟩ := List.any_eq_true.1 h
      cases i with
      | error => exact he hi
      | _ => cases h2

theorem turn_hup (s : St) (t : Turn) (h : (turn s t).over = none) : (turn s t).st.hup = false := by
  cases hr : readWrite t (signalled s t) with
  | none => rw [turn_none hr] at h; cases h
  | some s1 =>
    rw [turn_some hr] at h ⊢
    split
    · rename_i h1; rw [if_pos h1] at h; cases h
    · rename_i h1
      rw [if_neg h1] at h
      split
      · rename_i h2; simpa using h2
      · rename_i h2
        rw [if_neg h2] at h
        split
        · rename_i h3; rw [if_pos h3] at h; cases h
        · rename_i h3
          rw [if_neg h3] at h
          split
          · rfl
          · rename_i h4; rw [if_neg h4] at h; cases h

theorem hup_run (ts : List Turn) : (run ts).over = none → (run ts).st.hup = false := by
  refine run_induct (fun _ r => r.over = none → r.st.hup = false) ?_ ?_ ?_ ts
  · intro _; rfl
  · intro _ _ _ _ _ ih; exact ih
  · intro ts t r _ _ h; exact turn_hup r.st t h

theorem mem_readWrite_writer {t : Turn} {s s1 : St} (hr : readWrite t s = some s1) {w w1 : Writer} (hw : w ∈ s.writers)
    (h : writeOne t w = some w1) : w1 ∈ s1.writers := by
  obtain ⟨-, new, -, rfl⟩ := readWrite_eq hr
  rw [accept_fold]
  exact List.mem_append_left _ (List.mem_filterMap.2 ⟨w, hw, h⟩)

theorem mem_readWrite_reader {t : Turn} {s s1 : St} (hr : readWrite t s = some s1) {d d1 : Reader} (hd : d ∈ s.readers)
    (h : readOne t d = some d1) : d1 ∈ s1.readers := by
  obtain ⟨-, new, -, rfl⟩ := readWrite_eq hr
  rw [accept_fold]
  exact List.mem_append_left _ (List.mem_filterMap.2 ⟨d, hd, h⟩)

/-- A monitor that takes everything, and for which there is room, in one turn. -/
theorem hears_turn {ts : List Turn} {t : Turn} {s1 : St} (ho : (run ts).over = none) {w : Writer} (hw : w ∈ (run ts).st.writers)
    {n : Nat} (hn : t.writes w.pid = .write n) (hlen : w.tx.writebuf.length ≤ n)
    (hroom : room ((turn (run ts).st t).told.map (·.msg)) + 1 < bufMax) (hg : w.pid ∉ t.ended) (hh : t.hup = false)
    (hr : readWrite t (signalled (run ts).st t) = some s1) :
    ∃ w' ∈ (turn (run ts).st t).st.writers, w'.pid = w.pid ∧
      w'.tx.accepted = w.tx.accepted ++ (turn (run ts).st t).told.map (·.msg) ∧
      w'.tx.sent = w.tx.sent ++ w.tx.writebuf := by
  have h1 : s1.hup = false := by
    rw [(readWrite_lastTime hr).2.1]
    simp [signalled, hup_run ts ho, hh]
  have hw1 : writeOne t w = some { w with tx := txStep w.tx (.write n) } := by
    unfold writeOne; rw [hn]
  have hm := mem_readWrite_writer hr (s := signalled (run ts).st t) hw hw1
  rw [turn_told hr] at hroom ⊢
  rw [turn_st_stay hr h1, after_writers]
  have hb : (txStep w.tx (.write n)).writebuf = [] := by
    simp [txStep, doWrite, hlen]
  have hs : (txStep w.tx (.write n)).sent = w.tx.sent ++ w.tx.writebuf := by
    simp [txStep, doWrite, List.take_of_length_le hlen]
  refine ⟨_, List.mem_filter.2 ⟨List.mem_map_of_mem hm, ?_⟩, rfl, ?_, ?_⟩
  · have : t.ended.contains w.pid = false := by simpa using hg
    simp [tellAll, gone, hg]
  · show (txRun _ _).accepted = _
    rw [appends_all]
    · rfl
    · simp only [hb, List.length_nil]; omega
  · obtain ⟨l, -, -, g⟩ := appends_accepted (txStep w.tx (.write n)) ((toldIn t s1).map (·.msg))
    show (txRun _ _).sent = _
    rw [g, hs]

/-! ### When the server ends -/

theorem turn_over {s : St} {t : Turn} (hf : t.fatal = false) (he : Incoming.error ∉ t.incoming)
    (hg : s.gentle = false) (hu : t.usr2 = false) (hr : t.reloadOk = true) :
    (turn s t).over = none ∧ (turn s t).st.gentle = false := by
  obtain ⟨s1, h⟩ := readWrite_ok (s := signalled s t) hf he
  have hg1 : (after t s1).gentle = false := by
    rw [(after_flags t s1).2, (readWrite_lastTime h).2.2]
    simp [signalled, hg, hu]
  rw [turn_some h]
  simp only [hg1, Bool.false_and, Bool.false_eq_true, if_false, hr, if_true]
  split
  · exact ⟨rfl, hg1⟩
  · exact ⟨rfl, rfl⟩

theorem procs_readWrite {t : Turn} {s s1 : St}
    (h : (∀ d ∈ s.readers, d.pid ∈ s.procs) ∧ ∀ w ∈ s.writers, w.pid ∈ s.procs) (hr : readWrite t s = some s1) :
    (∀ d ∈ s1.readers, d.pid ∈ s1.procs) ∧ ∀ w ∈ s1.writers, w.pid ∈ s1.procs := by
  obtain ⟨-, new, -, rfl⟩ := readWrite_eq hr
  rw [accept_fold]
  constructor
  · intro d hd
    simp only [List.mem_append] at hd ⊢
    rcases hd with hd | hd
    · obtain ⟨d0, h0, h1⟩ := List.mem_filterMap.1 hd
      rw [(readOne_some h1).1]
      exact .inl (h.1 d0 h0)
    · exact .inr ((reader?_sublist new).subset (List.mem_map_of_mem hd))
  · intro w hw
    simp only [List.mem_append] at hw ⊢
    rcases hw with hw | hw
    · obtain ⟨w0, h0, h1⟩ := List.mem_filterMap.1 hw
      obtain ⟨n, -, rfl⟩ := writeOne_some h1
      exact .inl (h.2 w0 h0)
    · exact .inr ((writer?_sublist new).subset (List.mem_map_of_mem hw))

/-- Each child that has not been waited for has its pipe, or its pipe has failed. -/
def Piped (ts : List Turn) (s : St) : Prop :=
  ∀ p ∈ s.procs, p ∈ s.readers.map (·.pid) ∨ p ∈ s.writers.map (·.pid) ∨ ∃ t ∈ ts, t.reads p = .fail ∨ t.writes p = .fail

theorem piped_readWrite {script : Nat → List Rec} {ts : List Turn} {t : Turn} {s s1 : St} (h : Piped ts s)
    (hp : ∀ d ∈ s.readers, PInv (script d.pid) d.conn) (hr : readWrite t s = some s1) : Piped (ts ++ [t]) s1 := by
  obtain ⟨-, new, -, rfl⟩ := readWrite_eq hr
  rw [accept_fold]
  intro p hpm
  simp only [List.mem_append] at hpm
  simp only [List.map_append, List.mem_append]
  rcases hpm with hpm | hpm
  · rcases h p hpm with h1 | h1 | ⟨t0, h0, h1⟩
    · obtain ⟨d, hd, rfl⟩ := List.mem_map.1 h1
      cases hio : t.reads d.pid with
      | fail => exact .inr (.inr ⟨t, by simp, .inl hio⟩)
      | io n s1 s2 =>
        have : readOne t d = some { d with conn := Asfd.step d.conn (.io n s1 s2) } := by
          unfold readOne
          rw [hio]
          simp only
          rw [if_neg]
          rw [(pinv_prefix (pinv_io (hp d hd) n s1 s2)).2]
          simp
        exact .inl (.inl (List.mem_map.2 ⟨_, List.mem_filterMap.2 ⟨d, hd, this⟩, rfl⟩))
    · obtain ⟨w, hw, rfl⟩ := List.mem_map.1 h1
      cases hio : t.writes w.pid with
      | fail => exact .inr (.inr ⟨t, by simp, .inr hio⟩)
      | write n =>
        have : writeOne t w = some { w with tx := txStep w.tx (.write n) } := by
          unfold writeOne; rw [hio]
        exact .inr (.inl (.inl (List.mem_map.2 ⟨_, List.mem_filterMap.2 ⟨w, hw, this⟩, rfl⟩)))
    · exact .inr (.inr ⟨t0, .inl h0, h1⟩)
  · obtain ⟨i, hi, he⟩ := List.mem_filterMap.1 hpm
    cases i with
    | client pid net =>
      cases he
      exact .inl (.inr (List.mem_map.2 ⟨_, List.mem_filterMap.2 ⟨_, hi, rfl⟩, rfl⟩))
    | monitor pid =>
      cases he
      exact .inr (.inl (.inr (List.mem_map.2 ⟨_, List.mem_filterMap.2 ⟨_, hi, rfl⟩, rfl⟩)))
    | _ => cases he

theorem piped_after {ts : List Turn} {t : Turn} {s : St} (h : Piped ts s) : Piped ts (after t s) := by
  intro p hp
  rw [after_procs] at hp
  obtain ⟨hp, hg⟩ := List.mem_filter.1 hp
  rw [after_readers, after_writers]
  rcases h p hp with h1 | h1 | h1
  · obtain ⟨d, hd, rfl⟩ := List.mem_map.1 h1
    refine .inl (List.mem_map.2 ⟨takeOne d, List.mem_filter.2 ⟨List.mem_map_of_mem hd, ?_⟩, takeOne_pid d⟩)
    rw [takeOne_pid]; exact hg
  · obtain ⟨w, hw, rfl⟩ := List.mem_map.1 h1
    exact .inr (.inl (List.mem_map.2 ⟨_, List.mem_filter.2 ⟨List.mem_map_of_mem hw, hg⟩, rfl⟩))
  · exact .inr (.inr h1)

theorem piped_run (script : Nat → List Rec) (ts : List Turn) (hs : Scripted script ts) (hh : ∀ t ∈ ts, t.hup = false) :
    Piped ts (run ts).st ∧ ((run ts).over = some true → (run ts).st.readers = [] ∧ (run ts).st.writers = []) := by
  refine (run_induct (fun ts r => Scripted script ts → (∀ t ∈ ts, t.hup = false) →
    (∀ d ∈ r.st.readers, PInv (script d.pid) d.conn) ∧ r.st.hup = false ∧
    Piped ts r.st ∧ (r.over = some true → r.st.readers = [] ∧ r.st.writers = [])) ?_ ?_ ?_ ts hs hh).2.2
  · intro _ _
    exact ⟨by simp, rfl, by simp [Piped], by simp⟩
  · intro ts t r b _ ih hs hh
    obtain ⟨g0, g1, g2, g3⟩ := ih (scripted_left hs) (fun x hx => hh x (by simp [hx]))
    refine ⟨g0, g1, ?_, g3⟩
    intro p hp
    rcases g2 p hp with h | h | ⟨t0, h0, h1⟩
    · exact .inl h
    · exact .inr (.inl h)
    · exact .inr (.inr ⟨t0, by simp [h0], h1⟩)
  · intro ts t r _ ih hs hh
    obtain ⟨g0, g1, g2, g3⟩ := ih (scripted_left hs) (fun x hx => hh x (by simp [hx]))
    have hsh : (signalled r.st t).hup = false := by simp [signalled, g1, hh t (by simp)]
    refine ⟨pinv_turn (hs t (by simp)) g0, ?_⟩
    cases hr : readWrite t (signalled r.st t) with
    | none =>
      rw [turn_none hr]
      refine ⟨hsh, ?_, by simp⟩
      intro p hp
      rcases g2 p hp with h | h | ⟨t0, h0, h1⟩
      · exact .inl h
      · exact .inr (.inl h)
      · exact .inr (.inr ⟨t0, by simp [h0], h1⟩)
    | some s1 =>
      have h1 : s1.hup = false := (readWrite_lastTime hr).2.1.trans hsh
      have ha : (after t s1).hup = false := (after_flags t s1).1.trans h1
      simp only
      rw [turn_st_stay hr h1]
      refine ⟨ha, piped_after (piped_readWrite (script := script) (s := signalled r.st t) g2 g0 hr), ?_⟩
      rw [turn_some hr]
      split
      · rename_i hc
        intro _
        simp only [Bool.and_eq_true, List.isEmpty_iff] at hc
        exact ⟨hc.2.1, hc.2.2⟩
      · simp [ha]

theorem readers_procs (ts : List Turn) :
    (∀ d ∈ (run ts).st.readers, d.pid ∈ (run ts).st.procs) ∧ ∀ w ∈ (run ts).st.writers, w.pid ∈ (run ts).st.procs := by
  refine run_induct (fun _ r => (∀ d ∈ r.st.readers, d.pid ∈ r.st.procs) ∧ ∀ w ∈ r.st.writers, w.pid ∈ r.st.procs)
    ?_ ?_ ?_ ts
  · simp
  · intro _ _ _ _ _ ih; exact ih
  · intro ts t r _ ih
    cases hr : readWrite t (signalled r.st t) with
    | none => rw [turn_none hr]; exact ih
    | some s1 =>
      have h1 := procs_readWrite (s := signalled r.st t) ih hr
      simp only
      rw [(turn_st hr).2.1, after_procs]
      rcases (turn_st hr).1 with ⟨e1, e2⟩ | ⟨e1, e2⟩
      · rw [e1, e2, after_readers, after_writers]
        constructor
        · intro d hd
          obtain ⟨hm, hg⟩ := List.mem_filter.1 hd
          obtain ⟨d0, h0, rfl⟩ := List.mem_map.1 hm
          rw [takeOne_pid] at hg ⊢
          exact List.mem_filter.2 ⟨h1.1 d0 h0, hg⟩
        · intro w hw
          obtain ⟨hm, hg⟩ := List.mem_filter.1 hw
          obtain ⟨w0, h0, rfl⟩ := List.mem_map.1 hm
          exact List.mem_filter.2 ⟨h1.2 w0 h0, hg⟩
      · rw [e1, e2]; simp

/-- A monitor that is there when the list is due is told it. -/
theorem list_when_due {s : St} {t : Turn} {w : Writer} (hw : w ∈ s.writers)
    (hio : t.writes w.pid ≠ .fail) (hf : t.fatal = false) (he : Incoming.error ∉ t.incoming)
    (h5 : s.lastTime + 5 ≤ t.now) : ∃ m, Said.list m ∈ (turn s t).told := by
  obtain ⟨s1, hr⟩ := readWrite_ok (s := signalled s t) hf he
  cases hx : t.writes w.pid with
  | fail => exact absurd hx hio
  | write n =>
    have hw1 : writeOne t w = some { w with tx := txStep w.tx (.write n) } := by
      unfold writeOne; rw [hx]
    have hm := mem_readWrite_writer hr (s := signalled s t) hw hw1
    have hl : s1.lastTime + 5 ≤ t.now := by
      rw [(readWrite_lastTime hr).1]
      exact h5
    refine ⟨listMsg (s1.readers.map takeOne), ?_⟩
    rw [turn_told hr, toldIn_eq, if_pos]
    · simp
    · unfold due
      have hp : (passed s1).lastTime = s1.lastTime := rfl
      have hne : (passed s1).writers ≠ [] := by
        simp only [passed, forward_eq]
        intro h
        rw [List.map_eq_nil_iff] at h
        rw [h] at hm
        cases hm
      have hne' : (passed s1).writers.isEmpty = false := by
        cases hc : (passed s1).writers with
        | nil => exact absurd hc hne
        | cons _ _ => rfl
      simp only [hne', Bool.not_false, Bool.true_and, decide_eq_true_eq, hp]
      omega

/-- After a turn with a monitor, the time of the last list is not after the clock. -/
theorem lastTime_turn {s : St} {t : Turn} {w : Writer} (hw : w ∈ (turn s t).st.writers) (ho : (turn s t).over = none) :
    (turn s t).st.lastTime ≤ t.now := by
  cases hr : readWrite t (signalled s t) with
  | none => rw [turn_none hr] at ho; cases ho
  | some s1 =>
    rw [(turn_st hr).2.2.1]
    have hne : s1.writers ≠ [] := by
      intro hc
      have ha : (after t s1).writers = [] := by rw [after_writers, hc]; rfl
      rw [turn_some hr] at hw
      split at hw
      · rw [ha] at hw; cases hw
      · split at hw
        · rw [ha] at hw; cases hw
        · split at hw
          · cases hw
          · split at hw <;> cases hw
    show (maybeList t.now (passed s1)).1.lastTime ≤ t.now
    have hne' : (passed s1).writers.isEmpty = false := by
      cases hc : (passed s1).writers with
      | nil =>
        simp only [passed, forward_eq] at hc
        rw [List.map_eq_nil_iff] at hc
        exact absurd hc hne
      | cons _ _ => rfl
    unfold maybeList
    simp only [hne', Bool.false_eq_true, if_false]
    split
    · split
      · exact Int.le_refl _
      · simp only; omega
    · exact Int.le_refl _

end Verif.MainLoop
