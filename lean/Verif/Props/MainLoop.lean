import Verif.Lemmas.MainLoop
import Verif.Props.CntrStr
import Verif.Model.Monitor

/-!
# C109: the main process of the server
-/

namespace Verif
open Verif.Iobuf Verif.Asfd Verif.MainLoop

/-- C109: what the main process passes on from a child is what the child has written, message by message, in
order and without gaps, however the bytes are split into reads, and wherever the child stops. -/
theorem C109_order (script : Nat → List Rec) (ts : List Turn) (hd : Distinct ts)
    (hs : ∀ t ∈ ts, ∀ pid net, Incoming.client pid net ∈ t.incoming → Writes net (script pid)) (pid : Nat) :
    fromChild pid (MainLoop.run ts).told <+: script pid :=
  said_run script ts hs hd pid

/-- C109: what the child of a monitor reads from its pipe are whole messages that were passed on, in that order,
each at most once; there may be gaps. -/
theorem C109_heard (script : Nat → List Rec) (ts : List Turn) (hd : Distinct ts)
    (hs : ∀ t ∈ ts, ∀ pid net, Incoming.client pid net ∈ t.incoming → Writes net (script pid))
    (hsc : ∀ pid, ∀ m ∈ script pid, m.cmd ≠ 0) (w : Writer) (hw : w ∈ (MainLoop.run ts).st.writers) (evs : List Ev) :
    (heard w evs).Sublist ((MainLoop.run ts).told.map (·.msg)) := by
  obtain ⟨h1, h2⟩ := told_run ts w hw
  refine (heard_prefix h1 ?_ evs).sublist.trans h2
  intro r hr
  obtain ⟨x, hx, rfl⟩ := List.mem_map.1 (h2.subset hr)
  cases x with
  | status p r =>
    have : r ∈ fromChild p (MainLoop.run ts).told :=
      List.mem_filterMap.2 ⟨_, hx, by simp⟩
    exact hsc p r ((said_run script ts hs hd p).subset this)
  | list m => exact list_cmd ts m hx

/-- C109: a monitor whose child takes from the pipe what there is, and for which the messages of a turn are
not too long together, is told all that is passed on while it is there; and all of it but what was said
in the last turn is already in its pipe. -/
theorem C109_all_heard (ts us : List Turn) (ho : (MainLoop.run (ts ++ us)).over = none)
    (w : Writer) (hw : w ∈ (MainLoop.run ts).st.writers)
    (hus : ∀ a t b, us = a ++ t :: b → (∃ n, t.writes w.pid = .write n ∧ 32032 ≤ n) ∧ w.pid ∉ t.ended ∧ t.hup = false ∧
      (turn (MainLoop.run (ts ++ a)).st t).told.length * 6 +
        ((turn (MainLoop.run (ts ++ a)).st t).told.map (·.msg.buf.length)).sum < 32000) :
    ∃ w' ∈ (MainLoop.run (ts ++ us)).st.writers, ∃ l, w'.pid = w.pid ∧
      (MainLoop.run (ts ++ us)).told = (MainLoop.run ts).told ++ l ∧ w'.tx.accepted = w.tx.accepted ++ l.map (·.msg) ∧
      ∀ a t, us = a ++ [t] → ∃ l', (MainLoop.run (ts ++ a)).told = (MainLoop.run ts).told ++ l' ∧
        w'.tx.sent = ((w.tx.accepted ++ l'.map (·.msg)).map (fun r => r.cmd :: hex04 r.buf.length ++ r.buf)).flatten := by
  have key : ∀ (n : Nat) (us : List Turn), us.length = n → (MainLoop.run (ts ++ us)).over = none →
      (∀ a t b, us = a ++ t :: b → (∃ n, t.writes w.pid = .write n ∧ 32032 ≤ n) ∧ w.pid ∉ t.ended ∧ t.hup = false ∧
        (turn (MainLoop.run (ts ++ a)).st t).told.length * 6 +
          ((turn (MainLoop.run (ts ++ a)).st t).told.map (·.msg.buf.length)).sum < 32000) →
      ∃ w' ∈ (MainLoop.run (ts ++ us)).st.writers, ∃ l, w'.pid = w.pid ∧
        (MainLoop.run (ts ++ us)).told = (MainLoop.run ts).told ++ l ∧ w'.tx.accepted = w.tx.accepted ++ l.map (·.msg) ∧
        ∀ a t, us = a ++ [t] → ∃ l', (MainLoop.run (ts ++ a)).told = (MainLoop.run ts).told ++ l' ∧
          w'.tx.sent = ((w.tx.accepted ++ l'.map (·.msg)).map (fun r => r.cmd :: hex04 r.buf.length ++ r.buf)).flatten := by
    intro n
    induction n with
    | zero =>
      intro us hl ho _
      have : us = [] := List.eq_nil_of_length_eq_zero hl
      subst this
      refine ⟨w, by simpa using hw, [], rfl, by simp, by simp, ?_⟩
      intro a t h
      simp at h
    | succ n ih =>
      intro us hl ho hus
      have hne : us ≠ [] := by intro h; simp [h] at hl
      obtain ⟨a, t, rfl⟩ : ∃ a t, us = a ++ [t] := ⟨us.dropLast, us.getLast hne, (List.dropLast_concat_getLast hne).symm⟩
      have ho1 : (MainLoop.run (ts ++ a)).over = none := by
        rw [← List.append_assoc] at ho
        exact over_left ho
      obtain ⟨w1, hw1, l, e1, e2, e3, -⟩ := ih a (by simpa using hl) ho1 (fun b x c hx =>
        hus b x (c ++ [t]) (by simp [hx]))
      obtain ⟨⟨n', hn, hn2⟩, hg, hh, hroom⟩ := hus a t [] rfl
      have hinv := told_run (ts ++ a) w1 hw1
      have hsnoc : MainLoop.run (ts ++ (a ++ [t])) = { turn (MainLoop.run (ts ++ a)).st t with
          told := (MainLoop.run (ts ++ a)).told ++ (turn (MainLoop.run (ts ++ a)).st t).told } := by
        rw [← List.append_assoc]; exact run_snoc (t := t) ho1
      have hrw : ∃ s1, readWrite t (signalled (MainLoop.run (ts ++ a)).st t) = some s1 := by
        cases hr : readWrite t (signalled (MainLoop.run (ts ++ a)).st t) with
        | some s1 => exact ⟨s1, rfl⟩
        | none => rw [hsnoc, turn_none hr] at ho; cases ho
      have hroom' : room ((turn (MainLoop.run (ts ++ a)).st t).told.map (·.msg)) + 1 < bufMax := by
        have : ∀ l : List Said, room (l.map (·.msg)) = l.length * 6 + (l.map (·.msg.buf.length)).sum := by
          intro l
          induction l with
          | nil => rfl
          | cons x l ih =>
            simp only [room, List.map_cons, List.sum_cons, List.length_cons] at ih ⊢
            rw [ih]; omega
        rw [this, bufMax_eq]; omega
      have hb := hinv.1.2.1
      rw [bufMax_eq] at hb
      obtain ⟨s1, hr⟩ := hrw
      obtain ⟨w', h1, h2, h3, h4⟩ := hears_turn ho1 hw1 (e1 ▸ hn) (by omega) hroom' (e1 ▸ hg) hh hr
      rw [hsnoc]
      refine ⟨w', h1, l ++ (turn (MainLoop.run (ts ++ a)).st t).told, h2.trans e1, ?_, ?_, ?_⟩
      · simp only [e2, List.append_assoc]
      · rw [h3, e3]; simp
      · intro a' t' ha
        obtain ⟨rfl, -⟩ := List.append_inj' ha rfl
        exact ⟨l, e2, by rw [h4, hinv.1.1, e3]; rfl⟩
  exact key _ us rfl ho hus

/-- C109: the main process goes on, whatever clients, children and monitors do: as long as the operating system
does what it is asked (`select`, `accept`, `pipe`, `fork`), the configuration can be loaded when that is asked
for, and nobody asks for the end. -/
theorem C109_goes_on (ts : List Turn) (h : ∀ t ∈ ts, t.fatal = false ∧ Incoming.error ∉ t.incoming ∧ t.usr2 = false ∧
    t.reloadOk = true) : (MainLoop.run ts).over = none := by
  refine (run_induct (fun ts r => (∀ t ∈ ts, t.fatal = false ∧ Incoming.error ∉ t.incoming ∧ t.usr2 = false ∧
    t.reloadOk = true) → r.over = none ∧ r.st.gentle = false) ?_ ?_ ?_ ts h).1
  · intro _; exact ⟨rfl, rfl⟩
  · intro ts t r b _ ih h
    exact ih (fun x hx => h x (by simp [hx]))
  · intro ts t r _ ih h
    obtain ⟨-, hg⟩ := ih (fun x hx => h x (by simp [hx]))
    obtain ⟨h1, h2, h3, h4⟩ := h t (by simp)
    exact turn_over h1 h2 hg h3 h4

/-- C109 (partial: without `SIGHUP`): when the server has ended well, then each of its children has been waited
for, or the pipe to it was closed at the other end or failed. With `SIGHUP` this is not so: see
`C109_reload_then_end_violated` and `C109_end_then_reload_violated`. -/
theorem C109_gentle_partial (script : Nat → List Rec) (ts : List Turn)
    (hs : ∀ t ∈ ts, ∀ pid net, Incoming.client pid net ∈ t.incoming → Writes net (script pid))
    (hh : ∀ t ∈ ts, t.hup = false) (ho : (MainLoop.run ts).over = some true) :
    ∀ p ∈ (MainLoop.run ts).st.procs, ∃ t ∈ ts, t.reads p = .fail ∨ t.writes p = .fail := by
  obtain ⟨h1, h2⟩ := piped_run script ts hs hh
  obtain ⟨e1, e2⟩ := h2 ho
  intro p hp
  rcases h1 p hp with h | h | h
  · rw [e1] at h; cases h
  · rw [e2] at h; cases h
  · exact h

/-- C109: once `SIGUSR2` has come, the server ends well in the turn in which the last children are waited for,
if no new connection is accepted in it. -/
theorem C109_gentle_ends (ts : List Turn) (t : Turn) (ho : (MainLoop.run ts).over = none)
    (hu : t.usr2 = true ∨ (MainLoop.run ts).st.gentle = true) (hf : t.fatal = false) (hi : t.incoming = [])
    (he : ∀ p ∈ (MainLoop.run ts).st.procs, p ∈ t.ended) :
    (MainLoop.run (ts ++ [t])).over = some true ∧ (MainLoop.run (ts ++ [t])).st.procs = [] := by
  rw [run_snoc ho]
  simp only
  obtain ⟨s1, hr⟩ := readWrite_ok (s := signalled (MainLoop.run ts).st t) hf (by rw [hi]; simp)
  have hsub := procs_readWrite (s := signalled (MainLoop.run ts).st t) (readers_procs ts) hr
  have hpr : s1.procs = (MainLoop.run ts).st.procs := by
    obtain ⟨-, new, hnew, rfl⟩ := readWrite_eq hr
    have : new = [] := by rcases hnew with h | h; exact h; rw [h.1, hi]
    subst this
    rfl
  have hall : ∀ p ∈ s1.procs, gone t s1 p = true := by
    intro p hp
    unfold gone
    simp only [Bool.and_eq_true, List.contains_iff_mem]
    exact ⟨he p (hpr ▸ hp), hp⟩
  have e1 : (after t s1).readers = [] := by
    rw [after_readers, List.filter_eq_nil_iff]
    intro d hd
    obtain ⟨d0, h0, rfl⟩ := List.mem_map.1 hd
    simp [takeOne_pid, hall _ (hsub.1 d0 h0)]
  have e2 : (after t s1).writers = [] := by
    rw [after_writers, List.filter_eq_nil_iff]
    intro w hw
    obtain ⟨w0, h0, rfl⟩ := List.mem_map.1 hw
    simp [tellAll, hall _ (hsub.2 w0 h0)]
  have e3 : (after t s1).procs = [] := by
    rw [after_procs, List.filter_eq_nil_iff]
    intro p hp
    simp [hall p hp]
  have e4 : (after t s1).gentle = true := by
    rw [(after_flags t s1).2, (readWrite_lastTime hr).2.2]
    rcases hu with h | h <;> simp [signalled, h]
  rw [(turn_st hr).2.1, turn_some hr]
  simp [e1, e2, e3, e4]

/-- C109: the pipe from a child that writes messages stays as long as it does not fail, the child has not ended
and no `SIGHUP` comes, whatever the other children and the monitors do. -/
theorem C109_stays (script : Nat → List Rec) (ts : List Turn) (t : Turn)
    (hs : ∀ t ∈ ts, ∀ pid net, Incoming.client pid net ∈ t.incoming → Writes net (script pid))
    (d : Reader) (hd : d ∈ (MainLoop.run ts).st.readers) (hio : t.reads d.pid ≠ .fail) (hg : d.pid ∉ t.ended)
    (hh : t.hup = false) (ho : (MainLoop.run (ts ++ [t])).over = none) :
    ∃ d' ∈ (MainLoop.run (ts ++ [t])).st.readers, d'.pid = d.pid := by
  have ho1 := over_left ho
  rw [run_snoc ho1] at ho ⊢
  simp only at ho ⊢
  cases hr : readWrite t (signalled (MainLoop.run ts).st t) with
  | none => rw [turn_none hr] at ho; cases ho
  | some s1 =>
    have h1 : s1.hup = false := by
      rw [(readWrite_lastTime hr).2.1]
      simp [signalled, hup_run ts ho1, hh]
    cases hx : t.reads d.pid with
    | fail => exact absurd hx hio
    | io n a b =>
      have hone : readOne t d = some { d with conn := Asfd.step d.conn (.io n a b) } := by
        unfold readOne
        rw [hx]
        simp only
        rw [if_neg]
        rw [(pinv_prefix (pinv_io (pinv_run script ts hs d hd) n a b)).2]
        simp
      have hm := mem_readWrite_reader hr (s := signalled (MainLoop.run ts).st t) hd hone
      rw [turn_st_stay hr h1, after_readers]
      refine ⟨_, List.mem_filter.2 ⟨List.mem_map_of_mem hm, ?_⟩, takeOne_pid _⟩
      rw [takeOne_pid]
      simp [gone, hg]

/-- C109: the list of the clients that a monitor is told names those children of which there is a pipe and which
have said something, each by the name that is in its messages, in the order in which they were forked. -/
theorem C109_list (ts : List Turn) (t : Turn) (hd : Distinct (ts ++ [t])) (ho : (MainLoop.run ts).over = none)
    (who : Nat → Str) (hw : ∀ p r, Said.status p r ∈ (MainLoop.run (ts ++ [t])).told → Names r (who p))
    (m : Rec) (hm : Said.list m ∈ (turn (MainLoop.run ts).st t).told) :
    ∃ (s1 : St) (l : List Nat), readWrite t (signalled (MainLoop.run ts).st t) = some s1 ∧
      m = ⟨Cmd.gen.toByte, bytes "clients" ++ l.flatMap (fun p => Cntr.tab :: who p)⟩ ∧ l.Nodup ∧
      ∀ p, p ∈ l ↔ (∃ d ∈ s1.readers, d.pid = p) ∧ fromChild p (MainLoop.run (ts ++ [t])).told ≠ [] := by
  obtain ⟨s1, hr, rfl⟩ := list_of_turn hm
  have h1 := track_readWrite (track_run ts (distinct_left hd)) hd hr
  have htold : (MainLoop.run (ts ++ [t])).told = (MainLoop.run ts).told ++ toldIn t s1 := by
    rw [run_snoc ho]; simp only; rw [turn_told hr]
  let said : Reader → Bool := fun d => !(fromChild d.pid (MainLoop.run (ts ++ [t])).told).isEmpty
  have hclient : ∀ d ∈ s1.readers, (takeOne d).client = if said d then some (who d.pid) else none := by
    intro d hd'
    rw [(track1_said h1 t hd').2.2, ← htold, nameOf_eq (name := who d.pid)]
    · simp only [said]
      by_cases h : fromChild d.pid (MainLoop.run (ts ++ [t])).told = []
      · simp [h]
      · simp [h]
    · intro r hr'
      obtain ⟨x, hx, hx2⟩ := List.mem_filterMap.1 hr'
      cases x with
      | list _ => cases hx2
      | status p r0 =>
        simp only at hx2
        split at hx2
        · rename_i hp; cases hx2; rw [← hp]; exact hw p _ hx
        · cases hx2
  refine ⟨s1, (s1.readers.filter said).map (·.pid), hr, ?_, ?_, ?_⟩
  · unfold listMsg
    congr 2
    have : ∀ ds : List Reader, (∀ d ∈ ds, (takeOne d).client = if said d then some (who d.pid) else none) →
        ((ds.map takeOne).filterMap (·.client)).flatMap (fun c => Cntr.tab :: c)
          = ((ds.filter said).map (·.pid)).flatMap (fun p => Cntr.tab :: who p) := by
      intro ds
      induction ds with
      | nil => intro _; rfl
      | cons d ds ih =>
        intro h
        have hc := h d (by simp)
        have i := ih (fun x hx => h x (by simp [hx]))
        rw [List.map_cons, List.filterMap_cons, hc, List.filter_cons]
        by_cases hsd : said d = true
        · simp only [hsd, if_true, List.flatMap_cons, List.map_cons]
          rw [i]
        · simp only [hsd, Bool.false_eq_true, if_false]
          exact i
    exact this _ hclient
  · exact h1.nodup.sublist (List.filter_sublist.map _)
  · intro p
    constructor
    · intro hp
      obtain ⟨d, hd', rfl⟩ := List.mem_map.1 hp
      obtain ⟨g1, g2⟩ := List.mem_filter.1 hd'
      refine ⟨⟨d, g1, rfl⟩, ?_⟩
      simpa [said] using g2
    · rintro ⟨⟨d, g1, rfl⟩, g2⟩
      exact List.mem_map.2 ⟨d, List.mem_filter.2 ⟨g1, by simpa [said] using g2⟩, rfl⟩

/-- C109: a status line carries the name of the client, the process and the backup between its first two tabs. -/
theorem C109_names (k : Byte) (c : Cntr.Cntr) (cname : Str) (pid bno status : Nat) (path : Str)
    (hc : Cntr.tab ∉ cname ∧ NoNul cname) (hp : pid < 2 ^ 31) (hb : bno < 2 ^ 31) (hs : status < 10) :
    Names ⟨k, Cntr.toStr c cname pid bno status path⟩
      (cname ++ [dot] ++ BackupNumber.decimal pid ++ [dot] ++ BackupNumber.decimal bno) := by
  have hl := Cntr.header_length cname pid bno status hp hb hs
  have hm := Cntr.maxStrLen_eq cname
  unfold Names Cntr.toStr
  rw [List.take_of_length_le (by omega)]
  simp only
  have hdig := fun n => (Cntr.digits_plain n).1
  have hz : ∀ n, (0 : Byte) ∉ BackupNumber.decimal n := by
    intro n h
    have := (decimal_digits n).1 _ h
    exact absurd this (by decide)
  generalize hrest : (Cntr.table.map (Cntr.entStr c)).flatten ++ Cntr.pathStr path = rest
  have e : Cntr.header cname pid bno status ++ (Cntr.table.map (Cntr.entStr c)).flatten ++ Cntr.pathStr path
      = (bytes "cntr" ++ Cntr.tab :: ((cname ++ [dot] ++ BackupNumber.decimal pid ++ [dot] ++ BackupNumber.decimal bno)
        ++ [Cntr.tab])) ++ (bytes "3" ++ Cntr.tab :: (BackupNumber.decimal status ++ Cntr.tab :: rest)) := by
    rw [List.append_assoc, hrest]
    unfold Cntr.header
    rw [show bytes "cntr\t" = bytes "cntr" ++ [Cntr.tab] by decide,
      show bytes "\t3\t" = [Cntr.tab] ++ bytes "3" ++ [Cntr.tab] by decide]
    simp
  rw [e]
  have hcs : ∀ a b : Str, (0 : Byte) ∉ a → cstr (a ++ b) = a ++ cstr b := by
    intro a b h
    induction a with
    | nil => rfl
    | cons y ys ih =>
      rw [List.mem_cons, not_or] at h
      have hy : y ≠ 0 := fun e => h.1 e.symm
      have := ih h.2
      unfold cstr at this ⊢
      rw [List.cons_append, List.takeWhile_cons, if_pos (by simpa using hy), this]
      rfl
  have h1 : ¬ Cntr.tab = dot := by decide
  have h2 : ¬ (0 : Byte) = dot := by decide
  have h3 : ¬ (0 : Byte) = Cntr.tab := by decide
  have h4 : (0 : Byte) ∉ bytes "cntr" := by decide
  have h5 : (0 : Byte) ∉ cname := hc.2
  rw [hcs]
  · refine ⟨bytes "cntr", cstr (bytes "3" ++ Cntr.tab :: (BackupNumber.decimal status ++ Cntr.tab :: rest)), ?_, by decide, ?_⟩
    · simp only [List.append_assoc, List.cons_append, List.nil_append]
    simp [List.mem_append, hc.1, hdig, h1]
  · simp [List.mem_append, h4, h3, h5, hz, h2]

/-- C109: when the children send status lines, the list is the line that a monitor takes apart (C79). -/
theorem C109_list_line (ts : List Turn) (t : Turn) (hd : Distinct (ts ++ [t])) (ho : (MainLoop.run ts).over = none)
    (who : Nat → Str × Nat × Nat)
    (hwho : ∀ p, Cntr.tab ∉ (who p).1 ∧ NoNul (who p).1 ∧ (who p).2.1 < 2 ^ 31 ∧ (who p).2.2 < 2 ^ 31)
    (hw : ∀ p r, Said.status p r ∈ (MainLoop.run (ts ++ [t])).told → ∃ c status path, status < 10 ∧
      r.buf = Cntr.toStr c (who p).1 (who p).2.1 (who p).2.2 status path)
    (m : Rec) (hm : Said.list m ∈ (turn (MainLoop.run ts).st t).told) :
    ∃ l : List Nat, m.buf = Monitor.clientsLine (l.map who) ∧ l.Nodup ∧
      ∀ p ∈ l, fromChild p (MainLoop.run (ts ++ [t])).told ≠ [] := by
  obtain ⟨s1, l, -, e, hn, hl⟩ := C109_list ts t hd ho
    (fun p => (who p).1 ++ [dot] ++ BackupNumber.decimal (who p).2.1 ++ [dot] ++ BackupNumber.decimal (who p).2.2)
    (by
      intro p r hr
      obtain ⟨c, status, path, h1, h2⟩ := hw p r hr
      obtain ⟨g1, g2, g3, g4⟩ := hwho p
      have := C109_names r.cmd c (who p).1 (who p).2.1 (who p).2.2 status path ⟨g1, g2⟩ g3 g4 h1
      rw [← h2] at this
      exact this) m hm
  refine ⟨l, ?_, hn, fun p hp => ((hl p).1 hp).2⟩
  rw [e]
  unfold Monitor.clientsLine
  simp only
  congr 1
  rw [List.map_map, List.flatMap_def]
  rfl

/-- C109: a monitor that is there is told the clients, at the latest when five seconds have gone by since the
last turn. -/
theorem C109_list_due (ts : List Turn) (t : Turn) (w : Writer) (hw : w ∈ (MainLoop.run ts).st.writers)
    (hio : t.writes w.pid ≠ .fail) (hf : t.fatal = false) (he : Incoming.error ∉ t.incoming)
    (h5 : ∀ t0 ∈ ts, t0.now + 5 ≤ t.now) (h0 : 5 ≤ t.now) : ∃ m, Said.list m ∈ (turn (MainLoop.run ts).st t).told := by
  refine list_when_due hw hio hf he ?_
  rcases lastTime_run ts with h | ⟨t0, g0, g1⟩
  · omega
  · have := h5 t0 g0; omega

/-- C109: and so it is when the clock was put back: however far it had gone, five seconds after a turn by the
clock of that turn the monitor is told the clients. -/
theorem C109_list_clock (ts : List Turn) (t1 t2 : Turn) (w : Writer)
    (hw : w ∈ (MainLoop.run (ts ++ [t1])).st.writers) (ho : (MainLoop.run (ts ++ [t1])).over = none)
    (hio : t2.writes w.pid ≠ .fail) (hf : t2.fatal = false) (he : Incoming.error ∉ t2.incoming)
    (h5 : t1.now + 5 ≤ t2.now) :
    ∃ m, Said.list m ∈ (turn (MainLoop.run (ts ++ [t1])).st t2).told := by
  refine list_when_due hw hio hf he ?_
  have ho1 : (MainLoop.run ts).over = none := over_left ho
  rw [run_snoc ho1] at hw ho ⊢
  have : (turn (MainLoop.run ts).st t1).st.lastTime ≤ t1.now := lastTime_turn hw ho
  simp only
  omega

/-- C109: a message without two tabs names no client. -/
theorem C109_no_name (buf : Str) (h : (cstr buf).count Cntr.tab < 2) : clientIn none buf = none := by
  have hsp : ∀ (s a b : Str), Cntr.splitFirst Cntr.tab s = some (a, b) → s.count Cntr.tab = b.count Cntr.tab + 1 := by
    intro s
    induction s with
    | nil => intro a b h; simp [Cntr.splitFirst] at h
    | cons c s ih =>
      intro a b h
      unfold Cntr.splitFirst at h
      split at h
      · rename_i hc
        injection h with h
        injection h with h1 h2
        subst h2
        rw [hc, List.count_cons_self]
      · rename_i hc
        cases hx : Cntr.splitFirst Cntr.tab s with
        | none => simp [hx] at h
        | some p =>
          simp only [hx, Option.map_some, Option.some.injEq, Prod.mk.injEq] at h
          rw [List.count_cons_of_ne (fun hcc => hc hcc), ih p.1 p.2 hx, h.2]
  unfold clientIn
  simp only [Option.isSome_none, Bool.false_eq_true, if_false]
  split
  · rfl
  · rename_i h1
    split
    · rfl
    · rename_i h2
      have a := hsp _ _ _ h1
      have b := hsp _ _ _ h2
      omega

/-- C109: two lists of the clients are at least five seconds apart, if the clock does not go back. -/
theorem C109_list_apart (ts us : List Turn) (t u : Turn)
    (hc : (ts ++ t :: us ++ [u]).Pairwise (fun a b => a.now ≤ b.now))
    (ho : (MainLoop.run (ts ++ t :: us)).over = none) (m m' : Rec)
    (h1 : Said.list m ∈ (turn (MainLoop.run ts).st t).told)
    (h2 : Said.list m' ∈ (turn (MainLoop.run (ts ++ t :: us)).st u).told) : t.now + 5 ≤ u.now := by
  have key : ∀ us : List Turn, (∀ x ∈ us, t.now ≤ x.now) → (us.Pairwise (fun a b => a.now ≤ b.now)) →
      (MainLoop.run (ts ++ t :: us)).over = none → t.now ≤ (MainLoop.run (ts ++ t :: us)).st.lastTime := by
    intro us h hp ho
    have hn : ∀ n, ∀ us : List Turn, us.length = n → (∀ x ∈ us, t.now ≤ x.now) →
        (MainLoop.run (ts ++ t :: us)).over = none → t.now ≤ (MainLoop.run (ts ++ t :: us)).st.lastTime := by
      intro n
      induction n with
      | zero =>
        intro us hl _ ho
        have : us = [] := List.eq_nil_of_length_eq_zero hl
        subst this
        have ho1 := over_left ho
        rw [run_snoc ho1]
        simp only
        rw [((turn_lastTime (MainLoop.run ts).st t).2.2 m h1).1]
        exact Int.le_refl _
      | succ n ih =>
        intro us hl h ho
        have hne : us ≠ [] := by intro h; simp [h] at hl
        obtain ⟨a, x, rfl⟩ : ∃ a x, us = a ++ [x] :=
          ⟨us.dropLast, us.getLast hne, (List.dropLast_concat_getLast hne).symm⟩
        have e : ts ++ t :: (a ++ [x]) = (ts ++ t :: a) ++ [x] := by simp
        rw [e] at ho ⊢
        have ho1 := over_left ho
        have i := ih a (by simpa using hl) (fun y hy => h y (by simp [hy])) ho1
        rw [run_snoc ho1]
        simp only
        rcases (turn_lastTime (MainLoop.run (ts ++ t :: a)).st x).1 with g | g
        · rw [g]; exact h x (by simp)
        · rw [g]; exact i
    exact hn _ us rfl h ho
  have hpw := hc
  rw [List.append_assoc, List.pairwise_append] at hpw
  have hpw2 := hpw.2.1
  rw [List.cons_append, List.pairwise_cons, List.pairwise_append] at hpw2
  have hk := key us (fun x hx => hpw2.1 x (by simp [hx])) hpw2.2.1 ho
  have := ((turn_lastTime _ u).2.2 m' h2).2
  omega

/-! ### A small history -/

/-- A turn in which nothing happens. -/
def quiet : Turn := { reads := fun _ => .io 0 [] [], writes := fun _ => .write 0, now := 100 }

/-- What a child says. -/
def childLine : Rec := ⟨99, bytes "cntr\ta.7.1\t3\t"⟩

/-- A client and a monitor come; the child writes a line in two parts; the pipe to the monitor is slow, then
takes what there is. -/
def shortDay : List Turn :=
  [{ quiet with incoming := [.client 7 (bytes "c000Dcntr\ta.7.1\t3\tc000D"), .monitor 8, .refused] },
   { quiet with reads := fun _ => .io 9 [] [], now := 101 },
   { quiet with reads := fun _ => .io 100 [] [], writes := fun _ => .write 5, now := 102 },
   { quiet with reads := fun p => if p = 7 then .io 100 [] [] else .fail, writes := fun _ => .write 40000, now := 106 }]

/-- The next turn of the day: the child ends. -/
def evening : Turn := { quiet with writes := fun _ => .write 40000, now := 120, ended := [7] }

theorem shortDay_distinct : Distinct (shortDay ++ [evening]) := by
  unfold Distinct; decide

theorem shortDay_scripted : ∀ t ∈ shortDay ++ [evening], ∀ pid net, Incoming.client pid net ∈ t.incoming →
    Writes net ((fun _ => [childLine, childLine]) pid) := by
  intro t ht pid net hi
  simp only [shortDay, evening, List.cons_append, List.nil_append, List.mem_cons, List.not_mem_nil, or_false] at ht
  rcases ht with rfl | rfl | rfl | rfl | rfl <;> simp [quiet] at hi
  obtain ⟨-, rfl⟩ := hi
  refine ⟨?_, ?_⟩
  · intro m hm
    have : m = childLine := by simpa using hm
    subst this
    decide
  · have e : hex04 childLine.buf.length = bytes "000D" := by
      rw [hex04_small (by decide)]; decide
    simp only [List.map_cons, List.map_nil, e]
    decide

/-- The child has said one line, and the list is told twice. -/
example : (MainLoop.run shortDay).told.map (·.msg) =
    [⟨Cmd.gen.toByte, bytes "clients"⟩, childLine, ⟨Cmd.gen.toByte, bytes "clients\ta.7.1"⟩] := by
  decide +kernel

example : fromChild 7 (MainLoop.run shortDay).told = [childLine] := by decide +kernel

example : (MainLoop.run shortDay).over = none ∧ (MainLoop.run shortDay).st.writers.map (·.pid) = [8] ∧
    (MainLoop.run shortDay).st.readers.map (·.pid) = [7] := by
  decide +kernel

example : Names childLine (bytes "a.7.1") :=
  ⟨bytes "cntr", bytes "3\t", by decide, by decide, by decide⟩

/-- The monitor has been told everything when the day is over. -/
example : (MainLoop.run (shortDay ++ [evening])).st.writers.map (·.tx.accepted) =
    [(MainLoop.run (shortDay ++ [evening])).told.map (·.msg)] := by
  decide +kernel

/-- What the monitor hears is what `C109_heard` says, and it is not nothing. -/
example : ∀ w ∈ (MainLoop.run (shortDay ++ [evening])).st.writers, ∀ evs,
    (heard w evs).Sublist ((MainLoop.run (shortDay ++ [evening])).told.map (·.msg)) := fun w hw evs =>
  C109_heard (fun _ => [childLine, childLine]) _ shortDay_distinct shortDay_scripted (by simp [childLine]) w hw evs

example : (MainLoop.run (shortDay ++ [evening])).st.writers.map (fun w => (heard w
    [.io 1000 [] [], .take, .io 0 [] [], .take, .io 0 [] [], .take]).length) = [3] := by
  decide +kernel

/-- It ends when it has been asked to and the children have ended. -/
example : (MainLoop.run (shortDay ++ [{ evening with usr2 := true, ended := [8, 7] }])).over = some true ∧
    (MainLoop.run (shortDay ++ [{ evening with usr2 := true }])).over = none := by
  decide +kernel

/-! ### Where it falls short -/

/-- C109 fails when a system call fails for a moment: if `accept`, `pipe` or `fork` fails for one connection, for
instance because there are too many processes just then, the whole server ends with an error while its
children run on, and no later connection is served. -/
theorem C109_fork_violated (script : Nat → List Rec) (ts : List Turn) (t : Turn)
    (hs : ∀ t ∈ ts, ∀ pid net, Incoming.client pid net ∈ t.incoming → Writes net (script pid)) (ho : (MainLoop.run ts).over = none) (hf : t.fatal = false)
    (he : Incoming.error ∈ t.incoming) (hp : ∀ p, t.reads p ≠ .fail ∧ t.writes p ≠ .fail)
    (us : List Turn) :
    (MainLoop.run (ts ++ t :: us)).over = some false ∧
    (MainLoop.run (ts ++ t :: us)).st.procs = (MainLoop.run ts).st.procs := by
  have hprob : problem t (signalled (MainLoop.run ts).st t) = false := by
    unfold problem
    rw [Bool.or_eq_false_iff]
    constructor
    · rw [List.any_eq_false]
      intro d hd'
      have hms := pinv_run script ts hs d hd'
      unfold readOne
      cases hx : t.reads d.pid with
      | fail => exact absurd hx (hp _).1
      | io n a b =>
        simp only
        rw [if_neg]
        · simp
        · rw [(pinv_prefix (pinv_io hms n a b)).2]; simp
    · rw [List.any_eq_false]
      intro w _
      unfold writeOne
      cases hx : t.writes w.pid with
      | fail => exact absurd hx (hp _).2
      | write n => simp
  have hr : readWrite t (signalled (MainLoop.run ts).st t) = none := by
    unfold readWrite
    simp only [hf, Bool.false_eq_true, if_false, hprob]
    rw [if_pos]
    rw [List.any_eq_true]
    exact ⟨_, he, rfl⟩
  have h1 : next (MainLoop.run ts) t = ⟨signalled (MainLoop.run ts).st t, some false, (MainLoop.run ts).told⟩ := by
    rw [next_none ho, turn_none hr]; simp
  rw [MainLoop.run_append, List.foldl_cons, h1]
  have : ∀ (l : List Turn) (r : Run), r.over = some false → l.foldl next r = r := by
    intro l
    induction l with
    | nil => intro r _; rfl
    | cons x l ih => intro r h; rw [List.foldl_cons, next_over h]; exact ih r h
  rw [this us _ rfl]
  exact ⟨rfl, rfl⟩

example : (MainLoop.run [{ quiet with incoming := [.client 7 []] }, { quiet with incoming := [.error] }]).over = some false ∧
    (MainLoop.run [{ quiet with incoming := [.client 7 []] }, { quiet with incoming := [.error] }]).st.procs = [7] := by
  decide

/-- C109 fails after the configuration has been loaded again: the server then no longer knows the children that
it had before. A later `SIGUSR2` ends it at once, although a child is still at work with its pipe
in order. -/
theorem C109_reload_then_end_violated :
    ∃ ts : List Turn, (MainLoop.run ts).over = some true ∧ (MainLoop.run ts).st.procs = [7] ∧
      ∀ t ∈ ts, t.reads 7 ≠ .fail ∧ t.writes 7 ≠ .fail ∧ t.ended = [] := by
  refine ⟨[{ quiet with incoming := [.client 7 []] }, { quiet with hup := true }, { quiet with usr2 := true }],
    by decide, by decide, ?_⟩
  intro t ht
  simp only [List.mem_cons, List.not_mem_nil, or_false] at ht
  rcases ht with rfl | rfl | rfl <;> simp [quiet]

/-- C109 fails when `SIGHUP` comes while the server waits for its children after `SIGUSR2`: it ends at once, although
a child is still at work. -/
theorem C109_end_then_reload_violated :
    ∃ ts : List Turn, (MainLoop.run ts).over = some true ∧ (MainLoop.run ts).st.procs = [7] ∧
      ∀ t ∈ ts, t.reads 7 ≠ .fail ∧ t.writes 7 ≠ .fail ∧ t.ended = [] := by
  refine ⟨[{ quiet with incoming := [.client 7 []] }, { quiet with usr2 := true }, { quiet with hup := true }],
    by decide, by decide, ?_⟩
  intro t ht
  simp only [List.mem_cons, List.not_mem_nil, or_false] at ht
  rcases ht with rfl | rfl | rfl <;> simp [quiet]

/-- A turn in which the child of the turn before ends and a new client comes. -/
def busy (n : Nat) : Turn := { quiet with incoming := [.client (n + 1) []], ended := [n], usr2 := true }

theorem busy_run (n : Nat) : (MainLoop.run ((List.range (n + 1)).map busy)).over = none ∧
    (MainLoop.run ((List.range (n + 1)).map busy)).st.readers = [⟨n + 1, { net := [] }, none⟩] ∧
    (MainLoop.run ((List.range (n + 1)).map busy)).st.writers = [] ∧
    (MainLoop.run ((List.range (n + 1)).map busy)).st.procs = [n + 1] ∧
    (MainLoop.run ((List.range (n + 1)).map busy)).st.hup = false := by
  have step : ∀ (s : St) (n : Nat), s.hup = false → s.writers = [] →
      (s.readers = [] ∧ s.procs = [] ∨ s.readers = [⟨n, { net := [] }, none⟩] ∧ s.procs = [n]) →
      (turn s (busy n)).over = none ∧ (turn s (busy n)).st.readers = [⟨n + 1, { net := [] }, none⟩] ∧
      (turn s (busy n)).st.writers = [] ∧ (turn s (busy n)).st.procs = [n + 1] ∧ (turn s (busy n)).st.hup = false := by
    intro s n hh hw hc
    have hio : ∀ x : Nat, readOne (busy n) ⟨x, { net := [] }, none⟩ = some ⟨x, { net := [] }, none⟩ := by
      intro x; simp [readOne, busy, quiet, Asfd.step, Asfd.io, parseReadbuf, parseStandard, doRead, bufMax_eq]
    have hrw : readWrite (busy n) (signalled s (busy n)) = some { signalled s (busy n) with
        readers := s.readers ++ [⟨n + 1, { net := [] }, none⟩], writers := [], procs := s.procs ++ [n + 1] } := by
      have hp : problem (busy n) (signalled s (busy n)) = false := by
        rcases hc with ⟨e, -⟩ | ⟨e, -⟩ <;> simp [problem, signalled, hw, e, hio]
      have hfm : s.readers.filterMap (readOne (busy n)) = s.readers := by
        rcases hc with ⟨e, -⟩ | ⟨e, -⟩ <;> simp [e, hio]
      unfold readWrite
      rw [if_neg (by simp [busy, quiet])]
      simp only [hp, Bool.false_eq_true, if_false]
      rw [if_neg (by simp [busy])]
      rw [accept_fold]
      have hsr : (signalled s (busy n)).readers = s.readers := rfl
      have hsw : (signalled s (busy n)).writers = [] := hw
      have hsp : (signalled s (busy n)).procs = s.procs := rfl
      simp only [hsr, hsw, hsp, hfm]
      simp [busy, Incoming.reader?, Incoming.writer?, Incoming.pid?]
    have er : (after (busy n) { signalled s (busy n) with
        readers := s.readers ++ [⟨n + 1, { net := [] }, none⟩], writers := [], procs := s.procs ++ [n + 1] }).readers
        = [⟨n + 1, { net := [] }, none⟩] := by
      rw [after_readers]
      rcases hc with ⟨e, e'⟩ | ⟨e, e'⟩ <;> simp [e, e', gone, busy, takeOne]
    have ew : (after (busy n) { signalled s (busy n) with
        readers := s.readers ++ [⟨n + 1, { net := [] }, none⟩], writers := [], procs := s.procs ++ [n + 1] }).writers
        = [] := by
      rw [after_writers]; rfl
    have ep : (after (busy n) { signalled s (busy n) with
        readers := s.readers ++ [⟨n + 1, { net := [] }, none⟩], writers := [], procs := s.procs ++ [n + 1] }).procs
        = [n + 1] := by
      rw [after_procs]
      rcases hc with ⟨e, e'⟩ | ⟨e, e'⟩ <;> simp [e', gone, busy]
    have eh : (after (busy n) { signalled s (busy n) with
        readers := s.readers ++ [⟨n + 1, { net := [] }, none⟩], writers := [], procs := s.procs ++ [n + 1] }).hup
        = false := by
      rw [(after_flags _ _).1]; simp [signalled, hh, busy, quiet]
    rw [turn_some hrw]
    simp [er, ew, ep, eh]
  induction n with
  | zero =>
    have := step {} 0 rfl rfl (.inl ⟨rfl, rfl⟩)
    simpa [List.range_succ, MainLoop.run, next] using this
  | succ n ih =>
    obtain ⟨h1, h2, h3, h4, h5⟩ := ih
    have e : (List.range (n + 1 + 1)).map busy = (List.range (n + 1)).map busy ++ [busy (n + 1)] := by
      rw [List.range_succ, List.map_append]; rfl
    rw [e, run_snoc h1]
    exact step _ (n + 1) h5 h3 (.inr ⟨h2, h4⟩)

/-- C109 fails to end while clients keep coming: after `SIGUSR2` the server goes on to accept new connections, so
that even if each child works for one turn only, it has not ended after any number of turns. -/
theorem C109_gentle_accepts_violated (n : Nat) :
    ∃ ts : List Turn, ts.length = n + 1 ∧ (∀ t ∈ ts, t.usr2 = true ∧ t.fatal = false) ∧ Distinct ts ∧
      (∀ k, k < n → ∃ t ∈ ts, k + 1 ∈ t.ended) ∧ (MainLoop.run ts).over = none := by
  refine ⟨(List.range (n + 1)).map busy, by simp, ?_, ?_, ?_, (busy_run n).1⟩
  · intro t ht
    obtain ⟨k, -, rfl⟩ := List.mem_map.1 ht
    exact ⟨rfl, rfl⟩
  · unfold Distinct
    have : ∀ l : List Nat, forked (l.map busy) = l.map (· + 1) := by
      intro l
      induction l with
      | nil => rfl
      | cons x l ih =>
        have e : forked ((x :: l).map busy) = forked [busy x] ++ forked (l.map busy) := by
          rw [← forked_append]; rfl
        rw [e, ih]
        rfl
    rw [this]
    rw [List.nodup_iff_pairwise_ne, List.pairwise_map]
    exact (List.nodup_iff_pairwise_ne.1 List.nodup_range).imp (fun h e => h (by omega))
  · intro k hk
    exact ⟨busy (k + 1), List.mem_map_of_mem (List.mem_range.2 (by omega)), by simp [busy]⟩

end Verif
