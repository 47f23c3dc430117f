import Verif.Props.Exchange

/-!
# C98: where the two sides wait for each other
-/

namespace Verif
open Transfer Exchange
open Interrupt hiding Sys Step Run Inv

namespace Exchange

theorem steps_trans (room : Room) {n m : Nat} {s t u : Sys} (h : Steps room n s t) (h' : Steps room m t u) :
    Steps room (n + m) s u := by
  induction h' with
  | refl => exact h
  | step _ hs ih => exact (ih h).step hs

theorem load_cons (m : Msg) (ms : List Msg) : load (m :: ms) = Exchange.wire m + load ms := by simp [load]

/-- The server sends messages, and each of them goes to the network. -/
theorem pump (room : Room) (a b : List Msg) (s : Sys) (hv : s.verdict = .running) (hm : s.mode = .asking)
    (ho : s.out = []) (hc : s.cur = a ++ b) (hl : load s.down + load a ≤ room.down) (hs : ∀ m ∈ a, Small m) :
    ∃ n v, Steps room n s { s with cur := b, down := s.down ++ a, srv := v } := by
  induction a generalizing s with
  | nil =>
    refine ⟨0, s.srv, ?_⟩
    have : { s with cur := b, down := s.down ++ [] } = s := by
      rw [List.append_nil]
      have : b = s.cur := by rw [hc]; rfl
      rw [this]
    rw [this]
    exact .refl s
  | cons m a ih =>
    rw [load_cons] at hl
    have st1 : Step room s { s with cur := a ++ b, out := s.out ++ [m], srv := remember s.srv m } :=
      .send s m (a ++ b) hv hm hc (by rw [ho]; exact fits_nil m (hs m (by simp)))
    have st2 := Step.flush (room := room) { s with cur := a ++ b, out := s.out ++ [m], srv := remember s.srv m } m [] hv
      (by simp [ho]) (.inr (by simp only; omega))
    obtain ⟨n, v, h⟩ := ih { s with cur := a ++ b, out := [], down := s.down ++ [m], srv := remember s.srv m }
      hv hm rfl rfl (by simp only [load_append]; have : load [m] = Exchange.wire m := by simp [load]
                        omega) (fun x hx => hs x (by simp [hx]))
    have := steps_trans room ((Steps.refl s).step st1 |>.step st2) h
    simp only [List.append_assoc, List.singleton_append] at this
    rw [← ho] at this
    exact ⟨_, v, this⟩

/-- The server sends messages, and they stay in its buffer. -/
theorem fill (room : Room) (a b : List Msg) (s : Sys) (hv : s.verdict = .running) (hm : s.mode = .asking)
    (hc : s.cur = a ++ b) (hl : load s.out + load a + 1 < bufMax - 1) :
    ∃ n v, Steps room n s { s with cur := b, out := s.out ++ a, srv := v } := by
  induction a generalizing s with
  | nil =>
    refine ⟨0, s.srv, ?_⟩
    have : { s with cur := b, out := s.out ++ [] } = s := by
      rw [List.append_nil]
      have : b = s.cur := by rw [hc]; rfl
      rw [this]
    rw [this]
    exact .refl s
  | cons m a ih =>
    rw [load_cons] at hl
    have hw : Exchange.wire m = 5 + m.buf.length := rfl
    have st1 : Step room s { s with cur := a ++ b, out := s.out ++ [m], srv := remember s.srv m } :=
      .send s m (a ++ b) hv hm hc (by unfold fits; omega)
    obtain ⟨n, v, h⟩ := ih { s with cur := a ++ b, out := s.out ++ [m], srv := remember s.srv m }
      hv hm rfl (by simp only [load_append]; have : load [m] = Exchange.wire m := by simp [load]
                    omega)
    have := steps_trans room ((Steps.refl s).step st1) h
    simp only [List.append_assoc, List.singleton_append] at this
    exact ⟨_, v, this⟩

/-- The client writes until there is no more room. -/
theorem write_all (room : Room) (k : Nat) (s : Sys) (hk : 2 * s.cli.pend.length + s.cout.length ≤ k)
    (hsm : ∀ m ∈ s.cout ++ s.cli.pend, Exchange.wire m ≤ 2000) (hu : load s.up ≤ room.up + 2000)
    (hc : load s.cout < bufMax) :
    ∃ n p c u, Steps room n s { s with cli := { s.cli with pend := p }, cout := c, up := u } ∧
      u ++ (c ++ p) = s.up ++ (s.cout ++ s.cli.pend) ∧ load u ≤ room.up + 2000 ∧ load c < bufMax ∧
      (∀ m ms, p = m :: ms → ¬ fits c m) ∧ (∀ m ms, c = m :: ms → ¬ carries room.up u m) := by
  induction k generalizing s with
  | zero =>
    have h1 : s.cli.pend = [] := List.length_eq_zero_iff.1 (by omega)
    have h2 : s.cout = [] := List.length_eq_zero_iff.1 (by omega)
    exact ⟨0, s.cli.pend, s.cout, s.up, .refl s, rfl, hu, hc, fun m ms h => by rw [h1] at h; simp at h,
      fun m ms h => by rw [h2] at h; simp at h⟩
  | succ k ih =>
    by_cases hcf : ∃ m ms, s.cout = m :: ms ∧ carries room.up s.up m
    · obtain ⟨m, ms, e, hca⟩ := hcf
      have hwm : Exchange.wire m ≤ 2000 := hsm m (by simp [e])
      have hlm : load [m] = Exchange.wire m := by simp [load]
      obtain ⟨n, p, c, u, h1, h2, h3, h4, h5, h6⟩ := ih { s with cout := ms, up := s.up ++ [m] }
        (by simp only; rw [e] at hk; simp only [List.length_cons] at hk; omega)
        (fun x hx => hsm x (by
          simp only [List.mem_append] at hx ⊢
          rcases hx with h | h
          · exact .inl (by rw [e]; simp [h])
          · exact .inr h))
        (by
          simp only [load_append]
          rcases hca with h | h
          · rw [h]; simp only [load, List.map_nil, List.sum_nil]; simp only [load] at hlm; omega
          · omega)
        (by rw [e, load_cons] at hc; simp only; omega)
      refine ⟨_, p, c, u, steps_trans room ((Steps.refl s).step (.cflush s m ms e hca)) h1, ?_, h3, h4, h5, h6⟩
      rw [h2, e]
      simp
    · by_cases hwf : ∃ m ms, s.cli.pend = m :: ms ∧ fits s.cout m
      · obtain ⟨m, ms, e, hf⟩ := hwf
        have hlm : load [m] = Exchange.wire m := by simp [load]
        obtain ⟨n, p, c, u, h1, h2, h3, h4, h5, h6⟩ := ih
          { s with cli := { s.cli with pend := ms }, cout := s.cout ++ [m] }
          (by simp only [List.length_append, List.length_singleton]; rw [e] at hk; simp only [List.length_cons] at hk; omega)
          (fun x hx => hsm x (by
            rw [e]
            simpa [or_assoc] using hx)) hu
          (by
            simp only [load_append]
            unfold fits at hf
            have : Exchange.wire m = 5 + m.buf.length := rfl
            omega)
        refine ⟨_, p, c, u, steps_trans room ((Steps.refl s).step (.write s m ms e hf)) h1, ?_, h3, h4, h5, h6⟩
        rw [h2, e]
        simp
      · exact ⟨0, s.cli.pend, s.cout, s.up, .refl s, rfl, hu, hc,
          fun m ms h hf => hwf ⟨m, ms, h, hf⟩, fun m ms h hf => hcf ⟨m, ms, h, hf⟩⟩

/-- A piece of a file, and one of a signature. -/
def dataPiece : Msg := ⟨.append, List.replicate 1000 120⟩

/-- See `dataPiece`. -/
def sigPiece : Str := [115]

/-- The first file: a new one of `k` thousand bytes. -/
def bigFile (k : Nat) : Ask × Ans :=
  (⟨.file, bytes "/a", bytes "A", none⟩,
    ⟨bytes "A", [], some (List.replicate k dataPiece ++ [⟨.endFile, bytes "e"⟩], .ok)⟩)

/-- The second file: one with a signature of `n` pieces. It has vanished, but that the client finds out later. -/
def changedFile (n : Nat) : Ask × Ans :=
  (⟨.file, bytes "/b", bytes "B", some (bytes "d", List.replicate n sigPiece)⟩, ⟨bytes "B", [], none⟩)

theorem bigFile_fine (k : Nat) : JobFine (bigFile k) := by
  refine ⟨⟨.inl rfl, by simp [bigFile], by simp [bigFile], ?_⟩, by simp [bigFile], ?_, ?_⟩
  · intro m hm
    simp only [bigFile, askMsgs, List.nil_append, List.append_nil, List.mem_cons, List.not_mem_nil, or_false] at hm
    rcases hm with rfl | rfl <;> (unfold Small; decide)
  · intro b hb
    simp only [bigFile, Option.some.injEq] at hb
    subst hb
    left
    refine ⟨rfl, List.replicate k dataPiece, ⟨.endFile, bytes "e"⟩, ?_, ?_, rfl⟩
    · unfold withoutNoise
      rw [List.filter_eq_self]
      intro m hm
      rcases List.mem_append.1 hm with h | h
      · rw [List.eq_of_mem_replicate h]; decide +kernel
      · rw [List.mem_singleton.1 h]; decide
    · intro m hm
      rw [List.eq_of_mem_replicate hm]
      refine ⟨rfl, ?_⟩
      intro h
      have : (dataPiece.buf).length = 0 := by rw [h]; rfl
      unfold dataPiece at this
      rw [List.length_replicate] at this
      exact absurd this (by decide)
  · intro m hm
    simp only [bigFile, answer, dataMsgs, req, List.nil_append, reduceCtorEq, if_false, List.append_nil,
      List.mem_append, announce, Option.map_none, List.mem_cons, List.not_mem_nil, or_false] at hm
    rcases hm with (rfl | rfl) | h | rfl
    · unfold Small; decide
    · unfold Small; decide
    · rw [List.eq_of_mem_replicate h]
      unfold Small dataPiece bufMax
      simp only [List.length_replicate]
      omega
    · unfold Small; decide

theorem changedFile_fine (n : Nat) : JobFine (changedFile n) := by
  refine ⟨⟨.inl rfl, fun _ => rfl, ?_, ?_⟩, by simp [changedFile], by simp [changedFile], ?_⟩
  · intro o ho
    simp only [changedFile, Option.some.injEq] at ho
    subst ho
    exact (by decide : PathCmp.hasDotComponent (bytes "d") = false)
  · intro m hm
    simp only [changedFile, askMsgs, List.mem_append, List.mem_cons, List.not_mem_nil, or_false, List.map_replicate] at hm
    rcases hm with (rfl | rfl | rfl) | h | rfl
    · unfold Small; decide
    · unfold Small; decide
    · unfold Small; decide
    · rw [List.eq_of_mem_replicate h]; unfold Small; decide
    · unfold Small; decide
  · intro m hm
    simp only [changedFile, answer, dataMsgs, req, List.nil_append, List.mem_singleton] at hm
    subst hm
    unfold Small; decide

theorem load_replicate (k : Nat) (m : Msg) : load (List.replicate k m) = k * Exchange.wire m := by
  simp [load]

end Exchange

/-- C98 fails: the two sides can come to wait for each other, whatever the network holds. The client is sending a
large file and reads nothing meanwhile. The server goes on to send requests and signatures until the network and its
buffer are full. When the last of them has just fitted into the buffer, it writes the end of the requests with
`asfd->write_str`, which does not read until there is room for it, and there is none, because the client does not
read until the server does. -/
theorem C98_stall_violated (room : Room) (hroom : 100 ≤ room.down) :
    ∃ jobs : List (Ask × Ans), (∀ j ∈ jobs, JobFine j) ∧ ∃ n s, Steps room n (begin_ jobs) s ∧ Stuck room s ∧
      s.verdict = .running ∧ Stalled room s := by
  -- the part of the signature that the network holds
  let q := (room.down - 19) / 6
  let k := room.up + 40000
  let hdr : List Msg := [⟨.datapth, bytes "d"⟩, ⟨.attribs, bytes "B"⟩, ⟨.file, bytes "/b"⟩]
  have hfine : ∀ j ∈ [bigFile k, changedFile (q + 5333)], JobFine j := by
    intro j hj
    simp only [List.mem_cons, List.not_mem_nil, or_false] at hj
    rcases hj with rfl | rfl
    · exact bigFile_fine k
    · exact changedFile_fine _
  have hhdr : load hdr = 19 := by decide
  -- the first request goes out
  let s0 : Sys := begin_ [bigFile k, changedFile (q + 5333)]
  have st1 : Step room s0 { s0 with todo := [(changedFile (q + 5333)).1], cur := askMsgs (bigFile k).1 } :=
    .next s0 _ _ rfl rfl rfl rfl
  let s1 : Sys := { s0 with todo := [(changedFile (q + 5333)).1], cur := askMsgs (bigFile k).1 }
  have e1 : askMsgs (bigFile k).1 = [⟨.attribs, bytes "A"⟩, ⟨.file, bytes "/a"⟩] := rfl
  have e1l : load [(⟨.attribs, bytes "A"⟩ : Msg), ⟨.file, bytes "/a"⟩] = 13 := by decide
  obtain ⟨n2, v2, st2⟩ := pump room [⟨.attribs, bytes "A"⟩, ⟨.file, bytes "/a"⟩] [] s1 rfl rfl rfl rfl
    (by
      have : load s1.down = 0 := rfl
      omega) (by
      intro m hm
      exact (bigFile_fine k).1.2.2.2 m hm)
  -- the client reads it
  let c3 : Cli := { ans := [(bigFile k).2, (changedFile (q + 5333)).2] }
  have hc1 : cliRead c3 ⟨.attribs, bytes "A"⟩ = c3 := rfl
  let pend := announce ⟨.file, bytes "/a", bytes "A", none⟩ ++ (List.replicate k dataPiece ++ [⟨.endFile, bytes "e"⟩])
  let c4 : Cli := ⟨.idle, none, [(changedFile (q + 5333)).2], pend⟩
  have hc2 : cliRead c3 ⟨.file, bytes "/a"⟩ = c4 := by
    rw [read_path _ rfl _ _ (.inl rfl)]
    rfl
  let s2 : Sys := { s1 with cur := [], down := s1.down ++ ([⟨.attribs, bytes "A"⟩, ⟨.file, bytes "/a"⟩] : List Msg), srv := v2 }
  have st3 : Step room s2 { s2 with down := [⟨.file, bytes "/a"⟩], cli := cliRead s2.cli ⟨.attribs, bytes "A"⟩ } :=
    .read s2 _ _ rfl (by simp [s2, s1, s0, begin_]) (by simp [s2, s1, s0, begin_]) rfl
  let s3 : Sys := { s2 with down := [⟨.file, bytes "/a"⟩] }
  have es3 : { s2 with down := [⟨.file, bytes "/a"⟩], cli := cliRead s2.cli ⟨.attribs, bytes "A"⟩ } = s3 := rfl
  rw [es3] at st3
  have st4 : Step room s3 { s3 with down := [], cli := cliRead s3.cli ⟨.file, bytes "/a"⟩ } :=
    .read s3 _ _ rfl (by simp [s3, s2, s1, s0, begin_]) (by simp [s3, s2, s1, s0, begin_]) rfl
  let s4 : Sys := { s3 with down := [], cli := c4 }
  have es4 : { s3 with down := [], cli := cliRead s3.cli ⟨.file, bytes "/a"⟩ } = s4 := by
    have : cliRead s3.cli ⟨.file, bytes "/a"⟩ = c4 := hc2
    rw [this]
  rw [es4] at st4
  -- the second request
  have st5 : Step room s4 { s4 with todo := [], cur := askMsgs (changedFile (q + 5333)).1 } :=
    .next s4 _ _ rfl rfl rfl rfl
  let piece : Msg := ⟨.append, sigPiece⟩
  have e5 : askMsgs (changedFile (q + 5333)).1 =
      (hdr ++ List.replicate q piece) ++ (List.replicate 5333 piece ++ [⟨.endFile, bytes "endfile"⟩]) := by
    simp only [askMsgs, changedFile, List.map_replicate]
    have : List.replicate (q + 5333) piece = List.replicate q piece ++ List.replicate 5333 piece := by
      rw [List.replicate_append_replicate]
    rw [this]
    simp only [hdr, List.append_assoc, List.cons_append, List.nil_append]
  let s5 : Sys := { s4 with todo := [], cur := askMsgs (changedFile (q + 5333)).1 }
  have hwp : Exchange.wire piece = 6 := rfl
  have hq : q * 6 ≤ room.down - 19 := Nat.div_mul_le_self _ _
  have hq2 : room.down - 19 < q * 6 + 6 := by
    have := Nat.lt_div_mul_add (a := room.down - 19) (b := 6) (by omega)
    exact this
  obtain ⟨n6, v6, st6⟩ := pump room (hdr ++ List.replicate q piece)
    (List.replicate 5333 piece ++ [⟨.endFile, bytes "endfile"⟩]) s5 rfl rfl rfl e5
    (by
      have : load s5.down = 0 := rfl
      rw [load_append, load_replicate, hwp]
      omega)
    (fun m hm => (changedFile_fine (q + 5333)).1.2.2.2 m (by
      rw [e5]
      exact List.mem_append.2 (.inl hm)))
  let s6 : Sys := { s5 with
    cur := List.replicate 5333 piece ++ [⟨.endFile, bytes "endfile"⟩]
    down := s5.down ++ (hdr ++ List.replicate q piece)
    srv := v6 }
  have he : load [(⟨.endFile, bytes "endfile"⟩ : Msg)] = 12 := by decide
  have hbuf : bufMax = 32032 := rfl
  obtain ⟨n7, v7, st7⟩ := fill room (List.replicate 5333 piece ++ [⟨.endFile, bytes "endfile"⟩]) [] s6 rfl rfl
    (List.append_nil _).symm (by
      have : load s6.out = 0 := rfl
      rw [load_append, load_replicate, hwp]
      omega)
  let out : List Msg := List.replicate 5333 piece ++ [⟨.endFile, bytes "endfile"⟩]
  let s7 : Sys := { s6 with cur := [], out := s6.out ++ out, srv := v7 }
  have st8 : Step room s7 { s7 with mode := .ending } := .last s7 rfl rfl rfl rfl
  let s8 : Sys := { s7 with mode := SMode.ending }
  -- the client writes
  obtain ⟨n9, p, c, u, st9, h1, h2, h3, h4, h5⟩ := write_all room _ s8 (Nat.le_refl _)
    (by
      intro m hm
      have hm : m ∈ pend := by simpa [s8, s7, s6, s5, s4, c4, s3, s2, s1, s0, begin_] using hm
      simp only [pend, announce, List.nil_append, List.mem_append, List.mem_cons, List.not_mem_nil, or_false] at hm
      rcases hm with (rfl | rfl) | h | rfl
      · decide
      · decide
      · rw [List.eq_of_mem_replicate h]; unfold Exchange.wire dataPiece; simp only [List.length_replicate]; omega
      · decide)
    (by
      have : load s8.up = 0 := rfl
      omega)
    (by
      have : load s8.cout = 0 := rfl
      omega)
  have htot : load u + (load c + load p) = load pend := by
    have := congrArg load h1
    rw [load_append, load_append] at this
    rw [this]
    rfl
  have hpend : k * 1005 ≤ load pend := by
    simp only [pend]
    rw [load_append, load_append, load_replicate]
    have : Exchange.wire dataPiece = 1005 := by
      unfold Exchange.wire dataPiece
      rw [List.length_replicate]
    rw [this]
    omega
  have hp : p ≠ [] := by
    intro hp
    rw [hp] at htot
    have : load [] = 0 := rfl
    have : k = room.up + 40000 := rfl
    omega
  obtain ⟨m, ms, em⟩ := List.exists_cons_of_ne_nil hp
  have hm4 := h4 m ms em
  have hc : c ≠ [] := by
    intro hc
    rw [hc] at hm4
    apply hm4
    apply fits_nil
    have hmem : m ∈ pend := by
      have : m ∈ u ++ (c ++ p) := by rw [em]; simp
      rw [h1] at this
      simpa [s8, s7, s6, s5, s4, c4, s3, s2, s1, s0, begin_] using this
    exact (bigFile_fine k).2.2.2 m (by
      have : answer (bigFile k) = pend := by
        simp only [bigFile, answer, dataMsgs, req, List.nil_append, reduceCtorEq, if_false, List.append_nil,
          Option.map_none, pend]
      rw [this]
      exact hmem)
  obtain ⟨m', ms', em'⟩ := List.exists_cons_of_ne_nil hc
  let s9 : Sys := { s8 with cli := { s8.cli with pend := p }, cout := c, up := u }
  have hout : s9.out = piece :: (List.replicate 5332 piece ++ [⟨.endFile, bytes "endfile"⟩]) := rfl
  have hnf : ¬ fits s9.out endMsg := by
    have hl : load s9.out = 32010 := by
      have : s9.out = List.replicate 5333 piece ++ [⟨.endFile, bytes "endfile"⟩] := rfl
      rw [this, load_append, load_replicate, he, hwp]
    have he2 : endMsg.buf.length = 15 := by decide
    unfold fits
    omega
  have hnc : ¬ carries room.down s9.down piece := by
    have hd : s9.down = hdr ++ List.replicate q piece := rfl
    have hl : load s9.down = 19 + q * 6 := by
      rw [hd, load_append, load_replicate, hhdr, hwp]
    rintro (h | h)
    · rw [hd] at h
      simp [hdr] at h
    · rw [hl, hwp] at h
      omega
  have hst : Stalled room s9 :=
    ⟨rfl, rfl, hnf, ⟨_, _, hout, hnc⟩, ⟨m, ms, em, hm4⟩, ⟨m', ms', em', h5 m' ms' em'⟩⟩
  refine ⟨[bigFile k, changedFile (q + 5333)], hfine, _, s9,
    steps_trans room (steps_trans room (steps_trans room (steps_trans room (steps_trans room (steps_trans room
      ((Steps.refl s0).step st1) st2) (((Steps.refl s2).step st3).step st4)) ((Steps.refl s4).step st5)) st6) st7)
      (steps_trans room ((Steps.refl s7).step st8) st9), ?_, rfl, hst⟩
  intro t ht
  cases ht with
  | next a as _ hm _ _ => exact absurd hm (by simp [s9, s8])
  | last _ hm _ _ => exact absurd hm (by simp [s9, s8])
  | send m ms _ hm _ _ => exact absurd hm (by simp [s9, s8])
  | sendEnd _ _ hf => exact hnf hf
  | flush m ms _ ho hca =>
    rw [hout] at ho
    injection ho with ho1 ho2
    rw [← ho1] at hca
    exact hnc hca
  | receive m ms _ hr _ => exact hr.2 rfl
  | read m ms hp' _ _ _ => exact hp hp'
  | write m ms hp' hf => exact h4 m ms hp' hf
  | cflush m ms hc' hca => exact h5 m ms hc' hca

end Verif
