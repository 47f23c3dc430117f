import Verif.Model.Interrupt
import Verif.Props.Transfer

/-!
# C50: interrupting a file keeps client and server in step
-/

namespace Verif
open Verif.Transfer Verif.Interrupt

/-! ### The messages of an interrupted file -/

/-- Contents, none of it empty. -/
def Contents (ms : List Msg) : Prop := ∀ m ∈ ms, m.cmd = .append ∧ m.buf ≠ []

theorem Interrupt.contents_emit {E : Type} (t : Tx E) (b : Str) (h : Contents t.out) : Contents (emit t b).out := by
  unfold emit
  cases b with
  | nil => simpa using h
  | cons x b =>
    intro m hm
    simp only [List.isEmpty_cons, Bool.false_eq_true, if_false, List.mem_append, List.mem_singleton] at hm
    rcases hm with hm | hm
    · exact h m hm
    · rw [hm]; exact ⟨rfl, by simp⟩

theorem Interrupt.contents_quickRead {E : Type} (qr : Option (Nat → Qr)) (t : Tx E) (h : Contents t.out) :
    Contents (quickRead qr t).out := by
  unfold quickRead
  cases qr <;> exact h

theorem Interrupt.contents_sendPiece (c : Crypt) (enc : Bool) (qr : Option (Nat → Qr)) (t : Tx c.E) (p : Str)
    (h : Contents t.out) : Contents (sendPiece c enc qr t p).out := by
  unfold sendPiece
  apply contents_quickRead
  cases enc with
  | false => exact contents_emit t p h
  | true =>
    cases p with
    | nil => exact h
    | cons x p => exact contents_emit t _ h

theorem Interrupt.contents_sendPieces (c : Crypt) (enc : Bool) (qr : Option (Nat → Qr)) (ps : List Str) (t : Tx c.E)
    (h : Contents t.out) : Contents (sendPieces c enc qr t ps).out := by
  induction ps generalizing t with
  | nil => exact h
  | cons p ps ih =>
    rw [sendPieces]
    have := contents_sendPiece c enc qr t p h
    split
    · exact ih _ this
    · exact this

theorem Interrupt.contents_gzChunks (z : Zlib) (c : Crypt) (comp enc : Bool) (qr : Option (Nat → Qr))
    (chunks : List Str) (d : z.D) (t : Tx c.E) (h : Contents t.out) :
    Contents (gzChunks z c comp enc qr d t chunks).2.out := by
  induction chunks generalizing d t with
  | nil => exact h
  | cons ch chs ih =>
    rw [gzChunks]
    have := contents_sendPieces c enc qr (if comp then z.deflate d ch else (d, [ch])).2
      { t with bytes := t.bytes + ch.length, sum := if enc then t.sum else t.sum ++ ch } h
    generalize sendPieces c enc qr _ _ = u at this ⊢
    by_cases hu : u.flow = .go
    · rw [if_pos hu]
      exact ih _ _ this
    · rw [if_neg hu]
      exact this

theorem Interrupt.contents_gzEnd (c : Crypt) (enc : Bool) (md5 : Str → Str) (t : Tx c.E) (h : Contents t.out)
    (hr : (gzEnd c enc md5 t).2 ≠ .fatal) :
    ∃ pre e, (gzEnd c enc md5 t).1 = pre ++ [e] ∧ Contents pre ∧ e.cmd = .endFile ∧ e.buf ≠ [] := by
  unfold gzEnd at hr ⊢
  cases hf : t.flow with
  | fatal => simp [hf] at hr
  | interrupt => exact ⟨t.out, endMsg md5 t, rfl, h, rfl, by simp [endMsg]⟩
  | go =>
    cases enc with
    | false => exact ⟨t.out, endMsg md5 t, rfl, h, rfl, by simp [endMsg]⟩
    | true => exact ⟨_, _, rfl, contents_emit t _ h, rfl, by simp [endMsg]⟩

theorem Interrupt.contents_rawChunks (qr : Option (Nat → Qr)) (chunks : List Str) (t : Tx Unit)
    (h : Contents t.out) : Contents (rawChunks qr t chunks).out := by
  induction chunks generalizing t with
  | nil => exact h
  | cons ch chs ih =>
    rw [rawChunks]
    have := contents_quickRead qr _ (contents_emit { t with bytes := t.bytes + ch.length, sum := t.sum ++ ch } ch h)
    split
    · exact ih _ this
    · exact this

theorem Interrupt.skip_contents (pre : List Msg) (e : Msg) (rest : List Msg) (h : Contents pre)
    (he : e.cmd = .endFile ∧ e.buf ≠ []) : skipToEnd (pre ++ e :: rest) = some rest := by
  induction pre with
  | nil =>
    rw [List.nil_append, skipToEnd, if_neg (by simpa using he.2), he.1]
  | cons m pre ih =>
    have hm := h m (by simp)
    rw [List.cons_append, skipToEnd, if_neg (by simpa using hm.2), hm.1]
    exact ih (fun x hx => h x (by simp [hx]))

/-- C50: whatever file the server is sending, in whichever way, and wherever it learns of the interruption
(or if it does not), the client that wants no more of it reads up to the end marker of this file and no
further. -/
theorem C50_discard (z : Zlib) (c : Crypt) (comp enc : Bool) (md5 : Str → Str) (qr : Option (Nat → Qr))
    (chunks : List Str) (rest : List Msg) (cmd : Cmd) (d : Str) (hcmd : cmd.isFiledata ∨ cmd.isVssdata) :
    ((sendGz z c comp enc md5 qr chunks .eof).2 ≠ .fatal →
      restoreInterrupt cmd (some d) ((sendGz z c comp enc md5 qr chunks .eof).1 ++ rest) =
        ([⟨.interrupt, d⟩], some rest)) ∧
    ((sendRaw md5 qr chunks .eof).2 ≠ .fatal →
      restoreInterrupt cmd (some d) ((sendRaw md5 qr chunks .eof).1 ++ rest) = ([⟨.interrupt, d⟩], some rest)) := by
  have hk : (!cmd.isFiledata && !cmd.isVssdata) = false := by
    rcases hcmd with h | h <;> simp [h]
  constructor
  · intro hr
    obtain ⟨t, ht, hs⟩ : ∃ t : Tx c.E, Contents t.out ∧ sendGz z c comp enc md5 qr chunks .eof = gzEnd c enc md5 t := by
      have h0 := contents_gzChunks z c comp enc qr chunks z.dinit { enc := c.einit } (by simp [Contents])
      unfold sendGz
      simp only
      split
      · exact ⟨_, contents_sendPieces c enc qr _ _ h0, rfl⟩
      · exact ⟨_, h0, rfl⟩
    rw [hs] at hr ⊢
    obtain ⟨pre, e, h1, h2, h3⟩ := contents_gzEnd c enc md5 t ht hr
    unfold restoreInterrupt
    simp only [hk, Bool.false_eq_true, if_false]
    rw [h1, List.append_assoc, List.singleton_append, skip_contents pre e rest h2 h3]
  · intro hr
    have h0 := contents_rawChunks qr chunks { enc := () } (by simp [Contents])
    unfold restoreInterrupt
    simp only [hk, Bool.false_eq_true, if_false]
    have hx : ∃ t : Tx Unit, Contents t.out ∧ (sendRaw md5 qr chunks .eof).1 = t.out ++ [endMsg md5 t] := by
      refine ⟨_, h0, ?_⟩
      unfold sendRaw at hr ⊢
      cases hf : (rawChunks qr { enc := () } chunks).flow with
      | fatal => simp [hf] at hr
      | interrupt => simp only [hf]
      | go => simp only [hf]
    obtain ⟨t, h1, h2⟩ := hx
    rw [h2, List.append_assoc, List.singleton_append, skip_contents t.out _ rest h1 ⟨rfl, by simp [endMsg]⟩]

/-- An instance: the server learns of the interruption after the first of three pieces. -/
example : (sendRaw id (some (fun n => if n = 0 then .interrupt else .go)) [bytes "ab", bytes "cd", bytes "ef"] .eof) =
    ([⟨.append, bytes "ab"⟩, ⟨.endFile, bytes "2:ab"⟩], .ok) := by decide +kernel

/-! ### Both sides together -/

namespace Interrupt

/-- All the messages for a file. -/
def fileMsgs (f : File) : List Down := .hdr f :: (f.pieces.map .data ++ [.fin])

/-- What the server will still send, if it is not interrupted. -/
def future (s : Sys) : List Down :=
  (match s.cur with
    | none => []
    | some (_, ps) => ps.map .data ++ [.fin]) ++ s.todo.flatMap fileMsgs

/-- Files the client is done with, the one it is at, and those still to come. -/
structure View where
  done : List File
  now : List File
  rem : List File

/-- What should become of a file. -/
def outcome (wants : File → Bool) (f : File) : File × Option (List Str) :=
  (f, if wants f then some f.pieces else none)

/-- The client's position in the stream. -/
def ClientAt (wants : File → Bool) (c : Client) (stream : List Down) (v : View) : Prop :=
  c.log = v.done.map (outcome wants) ∧
  match c.mode with
  | .idle => v.now = [] ∧ stream = v.rem.flatMap fileMsgs
  | .taking f got => v.now = [f] ∧ wants f = true ∧
      ∃ qs, got ++ qs = f.pieces ∧ stream = qs.map .data ++ .fin :: v.rem.flatMap fileMsgs
  | .skipping f => v.now = [f] ∧ wants f = false ∧ ∃ qs : List Str, stream = qs.map .data ++ .fin :: v.rem.flatMap fileMsgs
  | .failed => False

/-- The file the server is at. -/
def curFile (s : Sys) : List File := match s.cur with
  | none => []
  | some (f, _) => [f]

/-- The invariant. -/
structure Inv (wants : File → Bool) (files : List File) (s : Sys) : Prop where
  server : ∃ x, files = x ++ curFile s ++ s.todo
  client : ∃ v : View, files = v.done ++ v.now ++ v.rem ∧
    ClientAt wants s.client (s.down ++ future s) v ∧
    (∀ i ∈ s.up, ∃ f ∈ v.done ++ v.now, f.datapth = i)
  pending : ∀ g ps, s.cur = some (g, ps) → g.datapth ∈ s.up →
    s.client.mode = .skipping g ∧ ∃ qs : List Str, s.down = qs.map .data

theorem data_split {as bs : List Str} {x y : List Down}
    (h : as.map Down.data ++ Down.fin :: x = bs.map Down.data ++ Down.fin :: y) : as = bs ∧ x = y := by
  induction as generalizing bs with
  | nil =>
    cases bs with
    | nil => simpa using h
    | cons b bs => simp at h
  | cons a as ih =>
    cases bs with
    | nil => simp at h
    | cons b bs =>
      simp only [List.map_cons, List.cons_append, List.cons.injEq, Down.data.injEq] at h
      obtain ⟨h1, h2⟩ := ih h.2
      exact ⟨by rw [h.1, h1], h2⟩

/-- The files announced in a stream. -/
def hdrs (l : List Down) : List File := l.filterMap (fun m => match m with | .hdr f => some f | _ => none)

theorem hdrs_append (a b : List Down) : hdrs (a ++ b) = hdrs a ++ hdrs b := by simp [hdrs]

theorem hdrs_data (qs : List Str) : hdrs (qs.map .data) = [] := by
  induction qs with
  | nil => rfl
  | cons q qs ih => exact ih

theorem hdrs_flat (l : List File) : hdrs (l.flatMap fileMsgs) = l := by
  induction l with
  | nil => rfl
  | cons f l ih =>
    rw [List.flatMap_cons, hdrs_append, ih]
    have h1 : hdrs (fileMsgs f) = f :: hdrs (f.pieces.map .data ++ [.fin]) := rfl
    rw [h1, hdrs_append, hdrs_data]
    rfl

/-- What the client has not read yet announces exactly the files to come. -/
theorem client_hdrs (wants : File → Bool) (c : Client) (stream : List Down) (v : View)
    (h : ClientAt wants c stream v) : hdrs stream = v.rem := by
  obtain ⟨_, h⟩ := h
  cases hm : c.mode with
  | idle => rw [hm] at h; rw [h.2, hdrs_flat]
  | taking f got =>
    rw [hm] at h
    obtain ⟨_, _, qs, _, h⟩ := h
    rw [h, hdrs_append, hdrs_data]
    exact hdrs_flat v.rem
  | skipping f =>
    rw [hm] at h
    obtain ⟨_, _, qs, h⟩ := h
    rw [h, hdrs_append, hdrs_data]
    exact hdrs_flat v.rem
  | failed => rw [hm] at h; exact absurd h (by simp)

theorem nodup_split {l a b c d : List File} {x y : File} (hn : (l.map (·.datapth)).Nodup)
    (h1 : l = a ++ x :: b) (h2 : l = c ++ y :: d) (hxy : x.datapth = y.datapth) : a = c ∧ x = y ∧ b = d := by
  induction a generalizing l c with
  | nil =>
    cases c with
    | nil =>
      rw [h1] at h2
      simp only [List.nil_append, List.cons.injEq] at h2
      exact ⟨rfl, h2.1, h2.2⟩
    | cons z c =>
      exfalso
      rw [h1] at h2 hn
      simp only [List.nil_append, List.cons_append, List.cons.injEq] at h2
      simp only [List.nil_append, List.map_cons, List.nodup_cons] at hn
      apply hn.1
      rw [h2.2, hxy]
      simp
  | cons w a ih =>
    cases c with
    | nil =>
      exfalso
      rw [h2] at h1 hn
      simp only [List.nil_append, List.cons_append, List.cons.injEq] at h1
      simp only [List.nil_append, List.map_cons, List.nodup_cons] at hn
      apply hn.1
      rw [h1.2, ← hxy]
      simp
    | cons z c =>
      rw [h1] at h2 hn
      simp only [List.cons_append, List.cons.injEq] at h2
      simp only [List.cons_append, List.map_cons, List.nodup_cons] at hn
      obtain ⟨e1, e2, e3⟩ := ih hn.2 rfl h2.2
      exact ⟨by rw [h2.1, e1], e2, e3⟩

/-- A file that is still to be announced has not been interrupted. -/
theorem fresh (wants : File → Bool) (files : List File) (s : Sys) (hi : Inv wants files s)
    (hn : (files.map (·.datapth)).Nodup) (f : File) (hf : f ∈ hdrs (s.down ++ future s)) : f.datapth ∉ s.up := by
  obtain ⟨v, h1, h2, h3⟩ := hi.client
  rw [client_hdrs wants _ _ v h2] at hf
  intro hu
  obtain ⟨g, hg, hd⟩ := h3 _ hu
  rw [h1, List.map_append, List.nodup_append] at hn
  exact hn.2.2 g.datapth (List.mem_map.2 ⟨g, hg, rfl⟩) f.datapth (List.mem_map.2 ⟨f, hf, rfl⟩) hd

theorem inv_step (wants : File → Bool) (files : List File) (hn : (files.map (·.datapth)).Nodup) {s t : Sys}
    (hs : Step wants s t) (hi : Inv wants files s) : Inv wants files t := by
  obtain ⟨v, h1, h2, h3⟩ := hi.client
  cases hs with
  | start f fs hc ht =>
    refine ⟨?_, ?_, ?_⟩
    · obtain ⟨x, hx⟩ := hi.server
      refine ⟨x, ?_⟩
      rw [hx, ht]
      simp [curFile, hc]
    · refine ⟨v, h1, ?_, h3⟩
      have : (s.down ++ [.hdr f]) ++ future { s with todo := fs, cur := some (f, f.pieces), down := s.down ++ [.hdr f] }
          = s.down ++ future s := by
        simp [future, hc, ht, fileMsgs]
      rw [this]
      exact h2
    · intro g ps hg hup
      exfalso
      simp only [Option.some.injEq, Prod.mk.injEq] at hg
      obtain ⟨rfl, _⟩ := hg
      refine fresh wants files s hi hn f ?_ hup
      rw [hdrs_append]
      apply List.mem_append_right
      rw [future, hc, ht, List.flatMap_cons]
      simp [hdrs, fileMsgs]
  | ignore i is hc hu =>
    refine ⟨hi.server, ⟨v, h1, h2, ?_⟩, ?_⟩
    · intro j hj
      exact h3 j (by rw [hu]; exact List.mem_cons_of_mem _ hj)
    · intro g ps hg
      rw [hc] at hg
      exact absurd hg (by simp)
  | send f p ps hc =>
    refine ⟨?_, ⟨v, h1, ?_, h3⟩, ?_⟩
    · obtain ⟨x, hx⟩ := hi.server
      exact ⟨x, by rw [hx]; simp [curFile, hc]⟩
    · have : (s.down ++ [.data p]) ++ future { s with cur := some (f, ps), down := s.down ++ [.data p] }
          = s.down ++ future s := by
        simp [future, hc]
      rw [this]
      exact h2
    · intro g qs hg hup
      simp only [Option.some.injEq, Prod.mk.injEq] at hg
      obtain ⟨rfl, _⟩ := hg
      obtain ⟨k1, ds, k2⟩ := hi.pending f _ hc hup
      exact ⟨k1, ds ++ [p], by simp [k2]⟩
  | sendRead f p ps i is hc hu =>
    have hcond : doQuickRead f.datapth (some ⟨.interrupt, i⟩) = .interrupt ↔ i = f.datapth := by
      unfold doQuickRead
      by_cases hx : i = f.datapth <;> simp [hx]
    by_cases hx : i = f.datapth
    · rw [if_pos (hcond.2 hx)]
      obtain ⟨k1, ds, k2⟩ := hi.pending f _ hc (by rw [hu, hx]; simp)
      refine ⟨?_, ⟨v, h1, ?_, ?_⟩, ?_⟩
      · obtain ⟨x, hxx⟩ := hi.server
        exact ⟨x ++ [f], by rw [hxx]; simp [curFile, hc]⟩
      · obtain ⟨l1, l2⟩ := h2
        refine ⟨l1, ?_⟩
        rw [k1] at l2
        simp only [k1]
        obtain ⟨m1, m2, qs, m3⟩ := l2
        refine ⟨m1, m2, ds ++ [p], ?_⟩
        have hfut : s.down ++ future s = (ds ++ p :: ps).map Down.data ++ Down.fin :: s.todo.flatMap fileMsgs := by
          simp [future, hc, k2]
        rw [hfut] at m3
        obtain ⟨_, e⟩ := data_split m3
        rw [← e]
        simp [future, k2]
      · intro j hj
        exact h3 j (by rw [hu]; exact List.mem_cons_of_mem _ hj)
      · intro g qs hg
        exact absurd hg (by simp)
    · rw [if_neg (fun h => hx (hcond.1 h))]
      refine ⟨?_, ⟨v, h1, ?_, ?_⟩, ?_⟩
      · obtain ⟨x, hxx⟩ := hi.server
        exact ⟨x, by rw [hxx]; simp [curFile, hc]⟩
      · have : (s.down ++ [.data p]) ++ future { s with cur := some (f, ps), up := is, down := s.down ++ [.data p] }
            = s.down ++ future s := by
          simp [future, hc]
        rw [this]
        exact h2
      · intro j hj
        exact h3 j (by rw [hu]; exact List.mem_cons_of_mem _ hj)
      · intro g qs hg hup
        simp only [Option.some.injEq, Prod.mk.injEq] at hg
        obtain ⟨rfl, _⟩ := hg
        obtain ⟨k1, ds, k2⟩ := hi.pending f _ hc (by rw [hu]; exact List.mem_cons_of_mem _ hup)
        exact ⟨k1, ds ++ [p], by simp [k2]⟩
  | finish f hc =>
    refine ⟨?_, ⟨v, h1, ?_, h3⟩, ?_⟩
    · obtain ⟨x, hx⟩ := hi.server
      exact ⟨x ++ [f], by rw [hx]; simp [curFile, hc]⟩
    · have : (s.down ++ [.fin]) ++ future { s with cur := none, down := s.down ++ [.fin] } = s.down ++ future s := by
        simp [future, hc]
      rw [this]
      exact h2
    · intro g qs hg
      exact absurd hg (by simp)
  | read m ms hd =>
    obtain ⟨fut, hfut⟩ : ∃ fut, fut = future s := ⟨_, rfl⟩
    have hfut' : future { s with down := ms, client := (clientRead wants s.client m).1,
                                 up := s.up ++ (clientRead wants s.client m).2 } = fut := by rw [hfut]; rfl
    rw [← hfut, hd, List.cons_append] at h2
    have srv : ∃ x, files = x ++ curFile s ++ s.todo := hi.server
    obtain ⟨l1, l2⟩ := h2
    -- the client's step, case by case
    cases hm : s.client.mode with
    | failed => rw [hm] at l2; exact absurd l2 (by simp)
    | idle =>
      rw [hm] at l2
      obtain ⟨m1, m2⟩ := l2
      cases hr : v.rem with
      | nil => rw [hr] at m2; simp at m2
      | cons f rem =>
        rw [hr, List.flatMap_cons, fileMsgs, List.cons_append, List.cons.injEq] at m2
        obtain ⟨rfl, m2⟩ := m2
        have files' : files = v.done ++ f :: rem := by rw [h1, m1, hr]; simp
        by_cases hw : wants f = true
        · have hc : clientRead wants s.client (.hdr f) = ({ s.client with mode := .taking f [] }, []) := by
            simp [clientRead, hm, hw]
          rw [hc] at hfut' ⊢
          refine ⟨srv, ⟨⟨v.done, [f], rem⟩, by simp [files'], ⟨l1, rfl, hw, f.pieces, rfl, ?_⟩, ?_⟩, ?_⟩
          · rw [hfut', m2]; simp
          · intro i hi'
            obtain ⟨g, hg, hgd⟩ := h3 i (by simpa using hi')
            rw [m1, List.append_nil] at hg
            exact ⟨g, List.mem_append_left _ hg, hgd⟩
          · intro g ps hg hup
            obtain ⟨k1, _⟩ := hi.pending g ps hg (by simpa using hup)
            rw [hm] at k1
            exact absurd k1 (by simp)
        · have hw' : wants f = false := by simpa using hw
          have hc : clientRead wants s.client (.hdr f) = ({ s.client with mode := .skipping f }, [f.datapth]) := by
            simp [clientRead, hm, hw']
          rw [hc] at hfut' ⊢
          refine ⟨srv, ⟨⟨v.done, [f], rem⟩, by simp [files'], ⟨l1, rfl, hw', f.pieces, ?_⟩, ?_⟩, ?_⟩
          · rw [hfut', m2]; simp
          · intro i hi'
            simp only [List.mem_append, List.mem_singleton] at hi'
            rcases hi' with hi' | hi'
            · obtain ⟨g, hg, hgd⟩ := h3 i hi'
              rw [m1, List.append_nil] at hg
              exact ⟨g, List.mem_append_left _ hg, hgd⟩
            · exact ⟨f, by simp, hi'.symm⟩
          · intro g ps hg hup
            simp only [List.mem_append, List.mem_singleton] at hup
            simp only at hg
            rcases hup with hup | hup
            · obtain ⟨k1, _⟩ := hi.pending g ps hg hup
              rw [hm] at k1
              exact absurd k1 (by simp)
            · obtain ⟨x, hx⟩ := srv
              have hx' : files = x ++ g :: s.todo := by rw [hx]; simp [curFile, hg]
              obtain ⟨e1, e2, e3⟩ := nodup_split hn hx' files' hup
              refine ⟨by rw [e2], ?_⟩
              -- nothing of the end of this file has been sent
              have hf2 : fut = ps.map .data ++ .fin :: s.todo.flatMap fileMsgs := by
                rw [hfut]; simp [future, hg]
              rw [hf2, e3] at m2
              rw [List.append_assoc, ← List.append_assoc ms] at m2
              simp only [List.singleton_append] at m2
              have hcancel := List.append_cancel_right
                (show (ms ++ ps.map Down.data) ++ (Down.fin :: rem.flatMap fileMsgs) =
                  f.pieces.map Down.data ++ (Down.fin :: rem.flatMap fileMsgs) from m2)
              obtain ⟨a, b, hab, ha, hb⟩ := List.map_eq_append_iff.1 hcancel.symm
              exact ⟨a, ha.symm⟩
    | taking f got =>
      rw [hm] at l2
      obtain ⟨m1, m2, qs, m3, m4⟩ := l2
      have nopend : ∀ g ps, s.cur = some (g, ps) → g.datapth ∉ s.up := by
        intro g ps hg hup
        obtain ⟨k1, _⟩ := hi.pending g ps hg hup
        rw [hm] at k1
        exact absurd k1 (by simp)
      cases qs with
      | nil =>
        simp only [List.map_nil, List.nil_append, List.cons.injEq] at m4
        obtain ⟨rfl, m4⟩ := m4
        have hc : clientRead wants s.client .fin = (⟨.idle, s.client.log ++ [(f, some got)]⟩, []) := by
          simp [clientRead, hm]
        rw [hc] at hfut' ⊢
        refine ⟨srv, ⟨⟨v.done ++ [f], [], v.rem⟩, by simp [h1, m1], ⟨?_, rfl, ?_⟩, ?_⟩, ?_⟩
        · rw [List.append_nil] at m3
          simp [l1, outcome, m2, m3]
        · rw [hfut', m4]
        · intro i hi'
          rw [List.append_nil] at hi'
          simpa [m1] using h3 i hi'
        · intro g ps hg hup
          exact absurd (by simpa using hup) (nopend g ps hg)
      | cons q qs =>
        simp only [List.map_cons, List.cons_append, List.cons.injEq] at m4
        obtain ⟨rfl, m4⟩ := m4
        have hc : clientRead wants s.client (.data q) = ({ s.client with mode := .taking f (got ++ [q]) }, []) := by
          simp [clientRead, hm]
        rw [hc] at hfut' ⊢
        refine ⟨srv, ⟨v, h1, ⟨l1, m1, m2, qs, by simp [← m3], ?_⟩, ?_⟩, ?_⟩
        · rw [hfut', m4]
        · intro i hi'
          exact h3 i (by simpa using hi')
        · intro g ps hg hup
          exact absurd (by simpa using hup) (nopend g ps hg)
    | skipping f =>
      rw [hm] at l2
      obtain ⟨m1, m2, qs, m4⟩ := l2
      cases qs with
      | nil =>
        simp only [List.map_nil, List.nil_append, List.cons.injEq] at m4
        obtain ⟨rfl, m4⟩ := m4
        have hc : clientRead wants s.client .fin = (⟨.idle, s.client.log ++ [(f, none)]⟩, []) := by
          simp [clientRead, hm]
        rw [hc] at hfut' ⊢
        refine ⟨srv, ⟨⟨v.done ++ [f], [], v.rem⟩, by simp [h1, m1], ⟨?_, rfl, ?_⟩, ?_⟩, ?_⟩
        · simp [l1, outcome, m2]
        · rw [hfut', m4]
        · intro i hi'
          rw [List.append_nil] at hi'
          simpa [m1] using h3 i hi'
        · intro g ps hg hup
          exfalso
          obtain ⟨_, ds, k2⟩ := hi.pending g ps hg (by simpa using hup)
          rw [hd] at k2
          cases ds <;> simp at k2
      | cons q qs =>
        simp only [List.map_cons, List.cons_append, List.cons.injEq] at m4
        obtain ⟨rfl, m4⟩ := m4
        have hc : clientRead wants s.client (.data q) = (⟨.skipping f, s.client.log⟩, []) := by
          simp [clientRead, hm]
        rw [hc] at hfut' ⊢
        refine ⟨srv, ⟨v, h1, ⟨l1, m1, m2, qs, ?_⟩, ?_⟩, ?_⟩
        · rw [hfut', m4]
        · intro i hi'
          exact h3 i (by simpa using hi')
        · intro g ps hg hup
          obtain ⟨k1, ds, k2⟩ := hi.pending g ps hg (by simpa using hup)
          rw [hd] at k2
          refine ⟨by rw [← hm, k1], ?_⟩
          cases ds with
          | nil => simp at k2
          | cons d ds =>
            simp only [List.map_cons, List.cons.injEq] at k2
            exact ⟨ds, k2.2⟩

theorem inv_run (wants : File → Bool) (files : List File) (hn : (files.map (·.datapth)).Nodup) {s : Sys}
    (hr : Run wants { todo := files } s) : Inv wants files s := by
  generalize hs0 : ({ todo := files } : Sys) = s0 at hr
  induction hr with
  | refl =>
    subst hs0
    refine ⟨⟨[], rfl⟩, ⟨⟨[], [], files⟩, rfl, ⟨rfl, rfl, ?_⟩, by simp⟩, by simp⟩
    simp [future]
  | step _ h ih => exact inv_step wants files hn h ih

end Interrupt

/-- C50: at every moment of a restore, however the steps of both sides fall, the client has met no
unexpected message, and what it has done with the files so far is what it wanted: those it took it has got
whole, the others it has skipped, in the order of the server. (The files have different data paths.) -/
theorem C50_in_step (wants : File → Bool) (files : List File) (hn : (files.map (·.datapth)).Nodup) (s : Sys)
    (hr : Run wants { todo := files } s) :
    s.client.mode ≠ .failed ∧ ∃ done rest, files = done ++ rest ∧
      s.client.log = done.map (fun f => (f, if wants f then some f.pieces else none)) := by
  obtain ⟨v, h1, h2, _⟩ := (inv_run wants files hn hr).client
  refine ⟨?_, v.done, v.now ++ v.rem, by rw [h1, List.append_assoc], h2.1⟩
  intro hf
  have := h2.2
  rw [hf] at this
  exact this

/-- C50: a restore does not get stuck before the last file: when neither side can do anything, all the
files have been dealt with. -/
theorem C50_complete (wants : File → Bool) (files : List File) (hn : (files.map (·.datapth)).Nodup) (s : Sys)
    (hr : Run wants { todo := files } s) (hstuck : ∀ t, ¬ Step wants s t) :
    s.client.log = files.map (fun f => (f, if wants f then some f.pieces else none)) := by
  obtain ⟨v, h1, h2, _⟩ := (inv_run wants files hn hr).client
  have hdown : s.down = [] := by
    cases hd : s.down with
    | nil => rfl
    | cons m ms => exact absurd (Step.read s m ms hd) (hstuck _)
  have hcur : s.cur = none := by
    cases hc : s.cur with
    | none => rfl
    | some r =>
      obtain ⟨f, ps⟩ := r
      cases ps with
      | nil => exact absurd (Step.finish s f hc) (hstuck _)
      | cons p ps => exact absurd (Step.send s f p ps hc) (hstuck _)
  have htodo : s.todo = [] := by
    cases ht : s.todo with
    | nil => rfl
    | cons f fs => exact absurd (Step.start s f fs hcur ht) (hstuck _)
  have hstream : s.down ++ future s = [] := by simp [hdown, future, hcur, htodo]
  rw [hstream] at h2
  obtain ⟨l1, l2⟩ := h2
  cases hm : s.client.mode with
  | idle =>
    rw [hm] at l2
    have hrem : v.rem = [] := by
      cases hv : v.rem with
      | nil => rfl
      | cons f r => rw [hv] at l2; simp [fileMsgs] at l2
    rw [h1, l2.1, hrem]
    simp only [List.append_nil]
    exact l1
  | taking f got =>
    rw [hm] at l2
    obtain ⟨_, _, qs, _, h⟩ := l2
    simp at h
  | skipping f =>
    rw [hm] at l2
    obtain ⟨_, _, qs, h⟩ := l2
    simp at h
  | failed => rw [hm] at l2; exact absurd l2 (by simp)

/-- How much there is still to do. -/
def Interrupt.work (s : Sys) : Nat :=
  (s.todo.map (fun f => 2 * f.pieces.length + 6)).sum +
  (match s.cur with | none => 0 | some (_, ps) => 2 * ps.length + 3) +
  (s.down.map (fun m => match m with | .hdr _ => 2 | _ => 1)).sum + s.up.length

/-- C50: a restore ends: every step leaves less to be done. -/
theorem C50_ends (wants : File → Bool) (s t : Sys) (h : Step wants s t) : Interrupt.work t < Interrupt.work s := by
  cases h with
  | start f fs hc ht => simp [Interrupt.work, hc, ht]; omega
  | ignore i is hc hu => simp [Interrupt.work, hu]
  | send f p ps hc => simp [Interrupt.work, hc]; omega
  | sendRead f p ps i is hc hu =>
    split
    · simp [Interrupt.work, hc, hu]; omega
    · simp [Interrupt.work, hc, hu]; omega
  | finish f hc => simp [Interrupt.work, hc]; omega
  | read m ms hd =>
    have h2 : ∀ m, (clientRead wants s.client m).2.length < (match m with | .hdr _ => 2 | _ => 1) := by
      intro m
      unfold clientRead
      split
      · split <;> simp
      all_goals first | exact Nat.zero_lt_one | (simp only [List.length_nil]; split <;> decide)
    have h2 := h2 m
    simp only [Interrupt.work, hd, List.map_cons, List.sum_cons, List.length_append]
    omega

/-- An instance of a run: two files, the first of which the client does not want. The server learns of it
after the first of two pieces. -/
def exFiles : List File := [⟨bytes "d/1", [bytes "a", bytes "b"]⟩, ⟨bytes "d/2", [bytes "c"]⟩]

example : (exFiles.map (·.datapth)).Nodup := by decide

example : ∃ s, Run (fun f => f.datapth = bytes "d/2") { todo := exFiles } s ∧
    s.client.log = [(⟨bytes "d/1", [bytes "a", bytes "b"]⟩, none), (⟨bytes "d/2", [bytes "c"]⟩, some [bytes "c"])] := by
  refine ⟨_, ((((((((((Run.refl _).step (.start _ _ _ rfl rfl)).step (.read _ _ _ rfl)).step
    (.sendRead _ _ _ _ _ _ rfl rfl)).step (.read _ _ _ rfl)).step (.read _ _ _ rfl)).step
    (.start _ _ _ rfl rfl)).step (.send _ _ _ _ rfl)).step (.finish _ _ rfl)).step (.read _ _ _ rfl)).step
    (.read _ _ _ rfl) |>.step (.read _ _ _ rfl), by decide⟩

/-- C50 fails if two files of a backup have the same data path: an interrupt that comes late stops the
second file, and the client takes what it got for the whole of it. -/
theorem C50_same_datapth_violated :
    ∃ (wants : File → Bool) (files : List File) (s : Sys), Run wants { todo := files } s ∧ s.client.mode = .idle ∧
      ∃ f got, (f, some got) ∈ s.client.log ∧ got ≠ f.pieces := by
  refine ⟨fun f => f.pieces.length ≠ 1, [⟨bytes "d", [bytes "x"]⟩, ⟨bytes "d", [bytes "a", bytes "b"]⟩], _,
    ((((((((((Run.refl _).step (.start _ _ _ rfl rfl)).step (.send _ _ _ _ rfl)).step (.finish _ _ rfl)).step
    (.read _ _ _ rfl)).step (.read _ _ _ rfl)).step (.read _ _ _ rfl)).step (.start _ _ _ rfl rfl)).step
    (.sendRead _ _ _ _ _ _ rfl rfl)).step (.read _ _ _ rfl)).step (.read _ _ _ rfl) |>.step (.read _ _ _ rfl),
    by decide, ⟨bytes "d", [bytes "a", bytes "b"]⟩, [bytes "a"], by decide, by decide⟩

/-- C50 fails when the server cannot read a stored file to its end: the client that is skipping the file
gets a warning, which it does not expect, and gives up the whole restore; or there is no end marker at all
and it takes the next entry for something unexpected. -/
theorem C50_read_error_violated :
    ∃ (z : Zlib) (c : Crypt), z.Faithful ∧ c.Faithful ∧
      (∀ rest, restoreInterrupt .file (some (bytes "d")) ((sendRaw id none [bytes "ab"] .error).1 ++ rest) =
        ([⟨.interrupt, bytes "d"⟩], none)) ∧
      (∀ rest, restoreInterrupt .file (some (bytes "d")) ((sendGz z c true false id none [bytes "ab"] .error).1 ++ rest) =
        ([⟨.interrupt, bytes "d"⟩], none)) ∧
      (∀ dev rest, (receive z c true false dev
        ((sendGz z c true false id none [bytes "ab"] .error).1 ++ ⟨.attribs, bytes "A"⟩ :: rest)).ok = false) := by
  refine ⟨storeZlib, flipCrypt, storeZlib_faithful, flipCrypt_faithful, ?_, ?_, ?_⟩
  · intro rest
    have : (sendRaw id none [bytes "ab"] .error).1 =
        [⟨.append, bytes "ab"⟩, readWarning, ⟨.endFile, bytes "2:ab"⟩] := by decide +kernel
    rw [this]
    rfl
  · intro rest
    rfl
  · intro dev rest
    have : (sendGz storeZlib flipCrypt true false id none [bytes "ab"] .error).1 =
        [⟨.append, bytes "ab"⟩, readWarning] := rfl
    rw [this]
    by_cases hok : (receive storeZlib flipCrypt true false dev
      ([⟨.append, bytes "ab"⟩, readWarning] ++ ⟨.attribs, bytes "A"⟩ :: rest)).ok = true
    · exfalso
      obtain ⟨pre, e, h1, h2, h3⟩ := C57_reported _ _ _ _ _ _ hok
      have hmem : ∀ k, k < pre.length → pre[k]? = ([⟨.append, bytes "ab"⟩, readWarning] ++ ⟨.attribs, bytes "A"⟩ :: rest)[k]? := by
        intro k hk
        rw [h1, List.getElem?_append_left hk]
      match pre, h1, h3 with
      | [], h1, _ => simp only [List.nil_append, List.cons_append, List.cons.injEq] at h1; rw [← h1.1] at h2; exact absurd h2 (by decide)
      | [a], h1, _ =>
        simp only [List.nil_append, List.cons_append, List.cons.injEq] at h1
        rw [← h1.2.1] at h2
        exact absurd h2 (by decide)
      | [a, b], h1, _ =>
        simp only [List.nil_append, List.cons_append, List.cons.injEq] at h1
        rw [← h1.2.2.1] at h2
        exact absurd h2 (by decide)
      | a :: b :: d :: pre, h1, h3 =>
        simp only [List.nil_append, List.cons_append, List.cons.injEq] at h1
        have := h3 d (by simp)
        rw [← h1.2.2.1] at this
        exact absurd this (by decide)
    · simpa using hok

/-! ### Backup: the client sends what the server asked for -/

/-- Messages without those for the user. -/
def withoutNoise (ms : List Msg) : List Msg := ms.filter (fun m => ¬ Noise m)

/-- A file sent to its end: contents, then the end marker. -/
def SentWhole (b : List Msg × SendRes) : Prop :=
  b.2 = .ok ∧ ∃ pre e, withoutNoise b.1 = pre ++ [e] ∧ Contents pre ∧ e.cmd = .endFile

/-- A file sent in part, without an end marker. -/
def SentPart (b : List Msg × SendRes) : Prop := b.2 = .error ∧ Contents (withoutNoise b.1)

/-- A request the server makes: for something that has data, and a data path it made itself. -/
def Interrupt.Req.Fine (r : Req) : Prop :=
  (r.cmd.isFiledata = true ∨ r.cmd.isVssdata = true) ∧ ∀ d, r.datapth = some d → PathCmp.hasDotComponent d = false

/-- What should be saved for a request, if anything: kind, path, attributes, contents, end marker, and where
(a delta belongs to the data path it was asked for). -/
def wanted (j : Req × Option (List Msg × SendRes)) : Option (Cmd × Str × Option Str × Str × Str × Option Str) :=
  match j.2 with
  | some (ms, .ok) => some (j.1.cmd, j.1.path, some j.1.attr, (payloads ms).flatten,
      ((ms.filter (fun m => m.cmd = .endFile)).map (·.buf)).flatten,
      if j.1.cmd = .file then j.1.datapth else none)
  | _ => none

namespace Interrupt

/-- A saved entry without the number of the data file. -/
def shown (x : Saved) : Cmd × Str × Option Str × Str × Str × Option Str :=
  (x.cmd, x.path, x.attr, x.content, x.endfile, match x.place with | .inl d => some d | .inr _ => none)

theorem receiveAll_noise (ms : List Msg) (s : Srv) : receiveAll s ms = receiveAll s (withoutNoise ms) := by
  induction ms generalizing s with
  | nil => rfl
  | cons m ms ih =>
    by_cases hm : Noise m
    · have h1 : withoutNoise (m :: ms) = withoutNoise ms := by simp [withoutNoise, hm]
      have h2 : doStuffToReceive s m = .ok s := by unfold doStuffToReceive; exact if_pos hm
      rw [h1, receiveAll, h2]
      exact ih s
    · have h1 : withoutNoise (m :: ms) = m :: withoutNoise ms := by simp [withoutNoise, hm]
      rw [h1, receiveAll, receiveAll]
      cases h : doStuffToReceive s m with
      | ok s' => exact ih s'
      | finished s' => rfl
      | error => rfl

theorem withoutNoise_append (a b : List Msg) : withoutNoise (a ++ b) = withoutNoise a ++ withoutNoise b := by
  simp [withoutNoise]

theorem receiveAll_append (a b : List Msg) (s s' : Srv) (h : receiveAll s a = .ok s') :
    receiveAll s (a ++ b) = receiveAll s' b := by
  induction a generalizing s with
  | nil =>
    simp only [receiveAll, Rcvd.ok.injEq] at h
    rw [h]
    rfl
  | cons m a ih =>
    rw [List.cons_append, receiveAll]
    rw [receiveAll] at h
    cases hd : doStuffToReceive s m with
    | ok t => rw [hd] at h; exact ih t h
    | finished t => rw [hd] at h; exact absurd h (by simp)
    | error => rw [hd] at h; exact absurd h (by simp)

theorem receive_contents (pre : List Msg) (h : Contents pre) (s : Srv) (cmd : Cmd) (path : Str) (place : Str ⊕ Nat)
    (c : Str) (hc : s.rb.cur = some (cmd, path, place, c)) :
    receiveAll s pre = .ok { s with rb := { s.rb with cur := some (cmd, path, place, c ++ (pre.map (·.buf)).flatten) } } := by
  induction pre generalizing s c with
  | nil =>
    obtain ⟨⟨d, a, cur⟩, _, _, _⟩ := s
    simp only at hc
    simp [receiveAll, hc]
  | cons m pre ih =>
    obtain ⟨hm1, hm2⟩ := h m (by simp)
    have hd : doStuffToReceive s m =
        .ok { s with rb := { s.rb with cur := some (cmd, path, place, c ++ m.buf) } } := by
      unfold doStuffToReceive
      rw [hm1, hc]
      simp [hm2]
    rw [receiveAll, hd]
    have := ih (fun x hx => h x (by simp [hx]))
      { s with rb := { s.rb with cur := some (cmd, path, place, c ++ m.buf) } } (c ++ m.buf) rfl
    simp only at this ⊢
    rw [this]
    simp

/-- The messages that announce a file. -/
theorem receive_announce (s : Srv) (hs : s.rb = {}) (r : Req) (hr : r.Fine) :
    ∃ place n, receiveAll s (announce r) =
      .ok { s with rb := ⟨(if r.cmd = .file then r.datapth else none), some r.attr, some (r.cmd, r.path, place, [])⟩, next := n } ∧
      (match place with | .inl d => some d | .inr _ => none) = (if r.cmd = .file then r.datapth else none) := by
  obtain ⟨rb, saved, last, next⟩ := s
  subst hs
  obtain ⟨cmd, path, attr, datapth⟩ := r
  obtain ⟨h1, h2⟩ := hr
  unfold announce
  have hcmd : ∀ (t : Srv), t.rb.cur = none → doStuffToReceive t ⟨cmd, path⟩ = (match t.rb.datapth with
      | some d => .ok { t with rb := { t.rb with cur := some (cmd, path, .inl d, []) } }
      | none => .ok { t with rb := { t.rb with cur := some (cmd, path, .inr t.next, []) }, next := t.next + 1 }) := by
    intro t ht
    unfold doStuffToReceive
    rw [ht]
    simp only at h1
    cases cmd <;> first
      | (simp [Cmd.isFiledata, Cmd.isVssdata] at h1; done)
      | (cases hd : t.rb.datapth <;> simp [Cmd.isFiledata, Cmd.isVssdata])
  cases datapth with
  | none =>
    refine ⟨.inr next, next + 1, ?_, by simp⟩
    simp only [List.nil_append, receiveAll, doStuffToReceive]
    simp only [reduceCtorEq, or_self, if_false, if_true]
    have := hcmd ⟨{ attr := some attr }, saved, last, next⟩ rfl
    simp only [doStuffToReceive] at this
    rw [this]
    simp
  | some d =>
    by_cases hf : cmd = .file
    · subst hf
      refine ⟨.inl d, next, ?_, by simp⟩
      have hd := h2 d rfl
      simp [receiveAll, doStuffToReceive, hd, Cmd.isFiledata]
    · refine ⟨.inr next, next + 1, ?_, by simp [hf]⟩
      simp only [hf, if_false, List.nil_append, receiveAll, doStuffToReceive]
      simp only [reduceCtorEq, or_self, if_false, if_true]
      have := hcmd ⟨{ attr := some attr }, saved, last, next⟩ rfl
      simp only [doStuffToReceive] at this
      rw [this]

theorem contents_payloads (pre : List Msg) (h : Contents pre) : payloads pre = pre.map (·.buf) := by
  unfold payloads
  rw [List.filter_eq_self.2]
  intro m hm
  simpa using (h m hm).1

theorem payloads_noise (ms : List Msg) : payloads ms = payloads (withoutNoise ms) := by
  unfold payloads withoutNoise
  rw [List.filter_filter]
  congr 1
  apply List.filter_congr
  intro m _
  by_cases h : m.cmd = .append <;> simp [h, Noise]

theorem ends_noise (ms : List Msg) : ms.filter (fun m => m.cmd = .endFile) =
    (withoutNoise ms).filter (fun m => m.cmd = .endFile) := by
  unfold withoutNoise
  rw [List.filter_filter]
  apply List.filter_congr
  intro m _
  by_cases h : m.cmd = .endFile <;> simp [h, Noise]

theorem contents_ends (pre : List Msg) (h : Contents pre) : pre.filter (fun m => m.cmd = .endFile) = [] := by
  rw [List.filter_eq_nil_iff]
  intro m hm
  rw [(h m hm).1]
  decide

/-- One request. -/
theorem receive_job (s : Srv) (hs : s.rb = {}) (r : Req) (hr : r.Fine) (body : Option (List Msg × SendRes))
    (hb : ∀ b, body = some b → SentWhole b ∨ SentPart b) :
    ∃ s', receiveAll s (dataMsgs r body) = .ok s' ∧ s'.rb = {} ∧
      s'.saved.map shown = s.saved.map shown ++ (wanted (r, body)).toList ∧ s'.last = forgetLast s.last r.path := by
  cases body with
  | none =>
    refine ⟨{ s with last := forgetLast s.last r.path }, ?_, hs, by simp [wanted], rfl⟩
    simp [dataMsgs, receiveAll, doStuffToReceive, hs]
  | some b =>
    obtain ⟨place, n, ha, hp⟩ := receive_announce s hs r hr
    obtain ⟨ms, res⟩ := b
    rcases hb _ rfl with ⟨h1, pre, e, h2, h3, h4⟩ | ⟨h1, h2⟩
    · simp only at h1 h2
      subst h1
      have hbody := receive_contents pre h3 _ r.cmd r.path place [] (show (Srv.rb { s with
        rb := ⟨(if r.cmd = .file then r.datapth else none), some r.attr, some (r.cmd, r.path, place, [])⟩,
        next := n }).cur = _ from rfl)
      refine ⟨⟨{}, s.saved ++ [⟨r.cmd, r.path, some r.attr, place, (pre.map (·.buf)).flatten, e.buf⟩],
        forgetLast s.last r.path, n⟩, ?_, rfl, ?_, rfl⟩
      · rw [dataMsgs, List.append_assoc, receiveAll_append _ _ _ _ ha, receiveAll_noise]
        simp only [reduceCtorEq, if_false, List.append_nil]
        rw [h2, receiveAll_append _ _ _ _ hbody]
        simp [receiveAll, doStuffToReceive, h4]
      · simp only [List.map_append, List.map_cons, List.map_nil, wanted, Option.toList_some]
        rw [payloads_noise ms, ends_noise ms, h2]
        have e1 : payloads (pre ++ [e]) = pre.map (·.buf) := by
          have : payloads (pre ++ [e]) = payloads pre ++ payloads [e] := by simp [payloads]
          rw [this, contents_payloads pre h3]
          simp [payloads, h4]
        have e2 : (pre ++ [e]).filter (fun m => m.cmd = .endFile) = [e] := by
          rw [List.filter_append, contents_ends pre h3]
          simp [h4]
        rw [e1, e2]
        simp only [shown, List.map_cons, List.map_nil, List.flatten_cons, List.flatten_nil, List.append_nil]
        rw [← hp]
    · simp only at h1 h2
      subst h1
      have hbody := receive_contents _ h2 _ r.cmd r.path place [] (show (Srv.rb { s with
        rb := ⟨(if r.cmd = .file then r.datapth else none), some r.attr, some (r.cmd, r.path, place, [])⟩,
        next := n }).cur = _ from rfl)
      refine ⟨⟨{}, s.saved, forgetLast s.last r.path, n⟩, ?_, rfl, by simp [wanted], rfl⟩
      rw [dataMsgs, List.append_assoc, receiveAll_append _ _ _ _ ha, receiveAll_noise, withoutNoise_append]
      rw [receiveAll_append _ _ _ _ hbody]
      simp [receiveAll, doStuffToReceive, withoutNoise, Noise]

theorem forgetLast_ne (l : Option Str) (p q : Str) (h : l ≠ some p ∨ p = q) : forgetLast l q ≠ some p := by
  unfold forgetLast
  split
  · simp
  · rename_i hn
    rcases h with h | h
    · exact h
    · rw [h]; exact hn

end Interrupt

/-- C50 (partial: reading a file fails half way without an end marker being sent, see
`C50_backup_read_error_violated`): whatever becomes of the files the server asked for, sent whole, broken
off, or forgotten before anything was sent, in any order, and with messages for the user anywhere: what the
server saves is exactly the files that were sent whole, each with its own attributes, contents and end
marker, and it is then ready for the next file and waits for none of these. -/
theorem C50_backup_partial (jobs : List (Req × Option (List Msg × SendRes))) (s : Srv) (hs : s.rb = {})
    (hfine : ∀ j ∈ jobs, j.1.Fine ∧ ∀ b, j.2 = some b → SentWhole b ∨ SentPart b) :
    ∃ s', receiveAll s (jobs.flatMap (fun j => dataMsgs j.1 j.2)) = .ok s' ∧ s'.rb = {} ∧
      s'.saved.map shown = s.saved.map shown ++ jobs.filterMap wanted ∧
      (∀ j ∈ jobs, s'.last ≠ some j.1.path) ∧ (∀ p, s.last ≠ some p → s'.last ≠ some p) := by
  induction jobs generalizing s with
  | nil => exact ⟨s, rfl, hs, by simp, by simp, fun _ h => h⟩
  | cons j jobs ih =>
    obtain ⟨hf, hb⟩ := hfine j (by simp)
    obtain ⟨s1, a1, a2, a3, a4⟩ := receive_job s hs j.1 hf j.2 hb
    obtain ⟨s2, b1, b2, b3, b4, b5⟩ := ih s1 a2 (fun x hx => hfine x (by simp [hx]))
    refine ⟨s2, ?_, b2, ?_, ?_, ?_⟩
    · rw [List.flatMap_cons, receiveAll_append _ _ _ _ a1, b1]
    · rw [b3, a3, List.filterMap_cons, List.append_assoc]
      cases hw : wanted j with
      | none => simp
      | some w => simp
    · intro x hx
      rcases List.mem_cons.1 hx with rfl | hx
      · exact b5 _ (by rw [a4]; exact forgetLast_ne _ _ _ (.inr rfl))
      · exact b4 x hx
    · intro p hp
      exact b5 p (by rw [a4]; exact forgetLast_ne _ _ _ (.inl hp))

/-- C50: the senders of whole files meet the hypotheses of `C50_backup_partial`: a file that can be read to
its end is sent whole, and one that is compressed or encrypted and cannot is sent in part. -/
theorem C50_senders (z : Zlib) (c : Crypt) (comp enc : Bool) (md5 : Str → Str) (chunks : List Str) :
    SentWhole (sendGz z c comp enc md5 none chunks .eof) ∧ SentPart (sendGz z c comp enc md5 none chunks .error) ∧
    SentWhole (sendRaw md5 none chunks .eof) := by
  have noNoise : ∀ ms, Contents ms → withoutNoise ms = ms := by
    intro ms h
    unfold withoutNoise
    rw [List.filter_eq_self]
    intro m hm
    simp [Noise, (h m hm).1]
  have goPiece : ∀ (t : Tx c.E) p, t.flow = .go → (sendPiece c enc none t p).flow = .go := by
    intro t p h
    unfold sendPiece quickRead
    cases enc with
    | false =>
      cases p with
      | nil => simpa [emit] using h
      | cons x p => simpa [emit] using h
    | true =>
      cases p with
      | nil => simpa using h
      | cons x p =>
        simp only [if_true, List.isEmpty_cons, Bool.false_eq_true, if_false]
        unfold emit
        split <;> exact h
  have goPieces : ∀ (ps : List Str) (t : Tx c.E), t.flow = .go → (sendPieces c enc none t ps).flow = .go := by
    intro ps
    induction ps with
    | nil => intro t h; exact h
    | cons p ps ih =>
      intro t h
      rw [sendPieces, if_pos (goPiece t p h)]
      exact ih _ (goPiece t p h)
  have goChunks : ∀ (chs : List Str) (d : z.D) (t : Tx c.E), t.flow = .go → (gzChunks z c comp enc none d t chs).2.flow = .go := by
    intro chs
    induction chs with
    | nil => intro d t h; exact h
    | cons ch chs ih =>
      intro d t h
      have := goPieces (if comp then z.deflate d ch else (d, [ch])).2
        { t with bytes := t.bytes + ch.length, sum := if enc then t.sum else t.sum ++ ch } h
      rw [gzChunks, if_pos this]
      exact ih _ _ this
  have goRaw : ∀ (chs : List Str) (t : Tx Unit), t.flow = .go → (rawChunks none t chs).flow = .go := by
    intro chs
    induction chs with
    | nil => intro t h; exact h
    | cons ch chs ih =>
      intro t h
      have : (quickRead none (emit { t with bytes := t.bytes + ch.length, sum := t.sum ++ ch } ch)).flow = .go := by
        unfold quickRead emit
        cases ch <;> exact h
      rw [rawChunks, if_pos this]
      exact ih _ this
  have hc := contents_gzChunks z c comp enc none chunks z.dinit { enc := c.einit } (by simp [Contents])
  have hg := goChunks chunks z.dinit { enc := c.einit } rfl
  refine ⟨?_, ?_, ?_⟩
  · have ht : sendGz z c comp enc md5 none chunks .eof = gzEnd c enc md5 (sendPieces c enc none
        (gzChunks z c comp enc none z.dinit { enc := c.einit } chunks).2
        (if comp then z.finish (gzChunks z c comp enc none z.dinit { enc := c.einit } chunks).1 else [])) := by
      unfold sendGz
      rw [if_pos hg]
    have hgo := goPieces (if comp then z.finish (gzChunks z c comp enc none z.dinit { enc := c.einit } chunks).1 else []) _ hg
    have hcc := contents_sendPieces c enc none
      (if comp then z.finish (gzChunks z c comp enc none z.dinit { enc := c.einit } chunks).1 else []) _ hc
    rw [ht]
    generalize sendPieces c enc none _ _ = t at hgo hcc
    have hok : (gzEnd c enc md5 t).2 = .ok := by unfold gzEnd; rw [hgo]
    obtain ⟨pre, e, h1, h2, h3, _⟩ := contents_gzEnd c enc md5 t hcc (by rw [hok]; simp)
    refine ⟨hok, pre, e, ?_, h2, h3⟩
    rw [h1, withoutNoise_append, noNoise pre h2]
    simp [withoutNoise, Noise, h3]
  · unfold SentPart sendGz
    rw [if_pos hg]
    refine ⟨rfl, ?_⟩
    simp only [withoutNoise_append, noNoise _ hc]
    simpa [withoutNoise, Noise, readWarning] using hc
  · have hraw := contents_rawChunks none chunks { enc := () } (by simp [Contents])
    have hgr := goRaw chunks { enc := () } rfl
    unfold SentWhole sendRaw
    simp only [hgr]
    refine ⟨trivial, _, endMsg md5 (rawChunks none { enc := () } chunks), ?_, hraw, rfl⟩
    rw [withoutNoise_append, noNoise _ hraw]
    simp [withoutNoise, Noise, endMsg]

/-- An instance of `C50_backup_partial`: a new file, a vanished one, one broken off, a delta. -/
def exJobs : List (Req × Option (List Msg × SendRes)) :=
  [(⟨.file, bytes "/a", bytes "A", none⟩, some ([⟨.append, bytes "xy"⟩, ⟨.endFile, bytes "2:m"⟩], .ok)),
   (⟨.file, bytes "/b", bytes "B", some (bytes "t/b")⟩, none),
   (⟨.file, bytes "/c", bytes "C", none⟩, some ([⟨.append, bytes "z"⟩, readWarning], .error)),
   (⟨.file, bytes "/d", bytes "D", some (bytes "t/d")⟩, some ([⟨.append, bytes "pq"⟩, ⟨.endFile, bytes "9:n"⟩], .ok))]

example : ∃ s, receiveAll { last := some (bytes "/c") } (exJobs.flatMap (fun j => dataMsgs j.1 j.2)) = .ok s ∧
    s.saved = [⟨.file, bytes "/a", some (bytes "A"), .inr 0, bytes "xy", bytes "2:m"⟩,
      ⟨.file, bytes "/d", some (bytes "D"), .inl (bytes "t/d"), bytes "pq", bytes "9:n"⟩] ∧ s.last = none :=
  ⟨_, rfl, by decide, by decide⟩

/-- C50 fails for a file that is neither compressed nor encrypted and that the client cannot read to its
end: the end marker is sent before the interrupt, and the server saves what it got as if it were the file,
with a matching length and digest. -/
theorem C50_backup_read_error_violated :
    ∃ s, receiveAll {} (dataMsgs ⟨.file, bytes "/a", bytes "A", none⟩
        (some (sendRaw id none [bytes "half"] .error))) = .ok s ∧
      s.saved = [⟨.file, bytes "/a", some (bytes "A"), .inr 0, bytes "half", bytes "4:half"⟩] := by
  refine ⟨⟨{}, [⟨.file, bytes "/a", some (bytes "A"), .inr 0, bytes "half", bytes "4:half"⟩], none, 1⟩, ?_, rfl⟩
  decide +kernel

/-- C50: a file that was asked for as a delta and has vanished, or is sent, takes from the connection its
own signature and nothing else. -/
theorem C50_signature (cmd : Cmd) (datapth : Option Str) (fate : Fate) (sig : List Msg) (e : Msg) (rest : List Msg)
    (hsig : ∀ m ∈ sig, m.cmd = .append ∨ Noise m) (he : e.cmd = .endFile) (hfate : fate ≠ .broken) :
    dealWithData cmd datapth fate ((if cmd = .file ∧ datapth.isSome then sig ++ [e] else []) ++ rest) = some rest := by
  have hload : ∀ r, loadSignature (sig ++ e :: r) = some r := by
    intro r
    induction sig with
    | nil => simp [loadSignature, he]
    | cons m sig ih =>
      rw [List.cons_append, loadSignature]
      have := ih (fun x hx => hsig x (by simp [hx]))
      rcases hsig m (by simp) with h | h | h <;> rw [h] <;> exact this
  cases fate with
  | broken => exact absurd rfl hfate
  | unreadable =>
    simp only [dealWithData, forgetFile]
    split
    · simpa using hload rest
    · simp
  | sent =>
    simp only [dealWithData]
    split
    · simpa using hload rest
    · simp

/-- C50 fails when the client cannot read a file to its end while it is making a delta: it has read the
signature already, and forgetting the file reads another. It takes the next request for that and gives up;
or, if another signature comes next, it loses that one. -/
theorem C50_delta_read_error_violated :
    (∀ rest, dealWithData .file (some (bytes "t/a")) .broken
      ([⟨.append, bytes "sig"⟩, ⟨.endFile, []⟩] ++ ⟨.attribs, bytes "B"⟩ :: rest) = none) ∧
    (∀ rest, dealWithData .file (some (bytes "t/a")) .broken
      ([⟨.append, bytes "sig"⟩, ⟨.endFile, []⟩] ++ [⟨.append, bytes "next"⟩, ⟨.endFile, []⟩] ++ rest) = some rest) :=
  ⟨fun _ => rfl, fun _ => rfl⟩

end Verif
