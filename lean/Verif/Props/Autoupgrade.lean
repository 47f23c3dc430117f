import Verif.Spec.Autoupgrade
import Verif.Props.Transfer

/-!
# C82: upgrading a client from the server
-/

namespace Verif
open Verif Verif.Transfer Verif.Prepend Verif.Autoupgrade

namespace Autoupgrade

theorem prependS_plain {d n : Str} (hd : d ≠ []) (hn : n ≠ []) (h : ∀ r, n ≠ slash :: r) :
    prependS (some d) n = d ++ [slash] ++ n := by
  cases d with
  | nil => exact absurd rfl hd
  | cons a d =>
    cases n with
    | nil => exact absurd rfl hn
    | cons b n =>
      have hb : b ≠ slash := fun e => h n (by rw [e])
      simp [prependS, prependSlash, hb, prependN, prependLen]

theorem sanitise_plain {os : Str} (h : ∀ b ∈ os, b ≠ slash ∧ b ≠ 92 ∧ b ≠ 58) : sanitise os = os := by
  unfold sanitise
  conv => rhs; rw [← List.map_id os]
  apply List.map_congr_left
  intro b hb
  obtain ⟨h1, h2, h3⟩ := h b hb
  simp [h1, h2, h3]

theorem sanitise_noslash (os : Str) : slash ∉ sanitise os := by
  unfold sanitise
  intro h
  obtain ⟨b, _, e⟩ := List.mem_map.1 h
  split at e
  · exact absurd e (by decide)
  · rename_i hb; exact hb (Or.inl e)

theorem request_os {os : Str} (h : os.length ≤ 243) : (request os).drop 12 = os := by
  unfold request
  have hb : (bytes "autoupgrade:").length = 12 := by decide +kernel
  rw [List.take_of_length_le (by rw [List.length_append, hb]; omega), ← hb, List.drop_left]

theorem transfer_comp (z : Zlib) (c : Crypt) (dev : Dev) (ms : List Msg) (s : Rx z c) :
    transfer z c false false dev s ms = transfer z c true false dev s ms := by
  induction ms generalizing s with
  | nil => rfl
  | cons m ms ih =>
    rw [transfer, transfer]
    have h1 : onAppend z c false false dev s m.buf = onAppend z c true false dev s m.buf := rfl
    have h2 : onEnd z c false false dev s = onEnd z c true false dev s := rfl
    rw [h1, h2]
    split
    · split
      · rfl
      · exact ih _
    · rfl
    · exact ih _
    · exact ih _
    · rfl

theorem receiveAFile_intact (z : Zlib) (c : Crypt) (dev : Dev) (md5 : Str → Str) (hz : z.Faithful) (hc : c.Faithful)
    (hd : Takes dev) (chunks : List Str) (got rest : List Msg) (hg : WithNoise (sendAFile z c md5 chunks) got) :
    receiveAFile z c dev (got ++ rest) = ⟨true, chunks.flatten, rest⟩ := by
  have h := (C57_intact z c true false dev md5 none hz hc hd (fun q hq => by cases hq) (Or.inl rfl) chunks got rest hg).2
  unfold receiveAFile
  unfold receive at h ⊢
  rw [transfer_comp, h]

theorem await_answer {m : Msg} {ms rest : List Msg} (h : Answer m ms rest) (hm : m = sayNo ∨ m = sayOk) :
    await ms = some (decide (m = sayOk), rest) := by
  obtain ⟨noise, hn, rfl⟩ := h
  induction noise with
  | nil =>
    rcases hm with rfl | rfl
    · rw [List.nil_append, await]
      rfl
    · rw [List.nil_append, await]
      rfl
  | cons x noise ih =>
    rw [List.cons_append, await]
    have hx := hn x (by simp)
    have h1 : x.cmd ≠ .gen := by rcases hx with e | e <;> rw [e] <;> decide
    have h2 : x.cmd = .warning ∨ x.cmd = .message ∨ x.cmd = .interrupt := by
      rcases hx with e | e
      · exact Or.inr (Or.inl e)
      · exact Or.inl e
    rw [if_neg h1, if_pos h2]
    exact ih fun y hy => hn y (by simp [hy])

/-- The five paths. -/
theorem server_some (z : Zlib) (c : Crypt) (md5 : Str → Str) (s : SConf) (fs : Str → Option Node) (cliVer : Int)
    (os dir : Str) (hs : s.dir = some dir) (hd : dir ≠ []) (ho : os ≠ []) (hsl : slash ∉ os) (hv : s.version ≠ [])
    (hvs : ∀ r, s.version ≠ slash :: r) :
    server z c md5 s fs cliVer os =
      if cliVer ≥ s.ver then ⟨[sayNo], [], .goOn⟩
      else
        let top := dir ++ [slash] ++ os ++ bytes "/script"
        let specific := dir ++ [slash] ++ os ++ [slash] ++ s.version ++ bytes "/script"
        let package := dir ++ [slash] ++ os ++ [slash] ++ s.version ++ bytes "/package"
        let script := if (fs specific).isSome then specific else top
        match fs script with
        | none => ⟨[sayNo], [], .goOn⟩
        | some ns =>
          match fs package with
          | none => ⟨[sayNo], [], .goOn⟩
          | some np =>
            match ns, np with
            | .reg cs, .reg cp => ⟨sayOk :: (sendAFile z c md5 cs ++ sendAFile z c md5 cp), [script, package], .done⟩
            | _, _ => ⟨[sayNo], [], .fail⟩ := by
  have hb : prependS (some dir) os = dir ++ [slash] ++ os :=
    prependS_plain hd ho fun r e => hsl (by rw [e]; simp)
  have hbne : dir ++ [slash] ++ os ≠ [] := by simp
  have hp : prependS (some (dir ++ [slash] ++ os)) s.version = dir ++ [slash] ++ os ++ [slash] ++ s.version :=
    prependS_plain hbne hv hvs
  have hpne : dir ++ [slash] ++ os ++ [slash] ++ s.version ≠ [] := by simp
  have hS : ∀ d : Str, d ≠ [] → prependS (some d) (bytes "script") = d ++ bytes "/script" := by
    intro d hd
    have hne : ∀ r, bytes "script" ≠ slash :: r := by
      intro r e
      have h1 : (bytes "script").head? = some 115 := by decide +kernel
      rw [e] at h1
      exact absurd (Option.some.inj h1) (by decide)
    rw [prependS_plain hd (by decide +kernel) hne, List.append_assoc]
    rfl
  have hP : ∀ d : Str, d ≠ [] → prependS (some d) (bytes "package") = d ++ bytes "/package" := by
    intro d hd
    have hne : ∀ r, bytes "package" ≠ slash :: r := by
      intro r e
      have h1 : (bytes "package").head? = some 112 := by decide +kernel
      rw [e] at h1
      exact absurd (Option.some.inj h1) (by decide)
    rw [prependS_plain hd (by decide +kernel) hne, List.append_assoc]
    rfl
  unfold server
  rw [hs]
  simp only [hb, hp, hS _ hbne, hS _ hpne, hP _ hpne]
  rfl

end Autoupgrade

/-- A client that is older than the server, with a name for its system for which the server has a script and a
package, runs that script, with that package, byte for byte; whatever messages for the user come in between. -/
theorem C82_upgraded (z : Zlib) (c : Crypt) (md5 : Str → Str) (dev : Dev) (hz : z.Faithful) (hc : c.Faithful)
    (ht : Takes dev) (s : SConf) (fs : Str → Option Node) (cliVer : Int) (dir os : Str) (script package : List Str)
    (hs : s.dir = some dir) (hd : dir ≠ []) (hos : OsName os) (hv : s.version ≠ [] ∧ ∀ r, s.version ≠ slash :: r)
    (hold : cliVer < s.ver) (hoff : Offer fs dir os s.version script package)
    (cdir : Str) (isDir : Str → Bool) (hr : isDir cdir = true) (hcd : ∀ p, cdir ≠ p ++ [slash]) :
    ∃ ms ps, (doAutoupgrade z c md5 s fs cliVer (request os)).msgs = sayOk :: (ms ++ ps) ∧
      (doAutoupgrade z c md5 s fs cliVer (request os)).next = .done ∧
      ∀ ms' ps' rest got, WithNoise ms ms' → WithNoise ps ps' → Answer sayOk got (ms' ++ (ps' ++ rest)) →
        client z c dev (some cdir) (some os) isDir got = .ran script.flatten package.flatten := by
  have hsl : slash ∉ os := fun h => (hos.plain _ h).1 rfl
  have hsrv := server_some z c md5 s fs cliVer os dir hs hd hos.ne hsl hv.1 hv.2
  rw [if_neg (by omega)] at hsrv
  have hdo : doAutoupgrade z c md5 s fs cliVer (request os) =
      ⟨sayOk :: (sendAFile z c md5 script ++ sendAFile z c md5 package),
        [if (fs (dir ++ [slash] ++ os ++ [slash] ++ s.version ++ bytes "/script")).isSome then
          dir ++ [slash] ++ os ++ [slash] ++ s.version ++ bytes "/script" else dir ++ [slash] ++ os ++ bytes "/script",
          dir ++ [slash] ++ os ++ [slash] ++ s.version ++ bytes "/package"], .done⟩ := by
    unfold doAutoupgrade
    simp only [request_os hos.short]
    rw [if_neg (by simpa using hos.ne), sanitise_plain hos.plain, hsrv]
    rcases hoff.script with h | ⟨h1, h2⟩
    · simp only [h, Option.isSome_some, if_true, hoff.package]
    · simp only [h1, Option.isSome_none, Bool.false_eq_true, if_false, h2, hoff.package]
  rw [hdo]
  refine ⟨_, _, rfl, rfl, fun ms' ps' rest got h1 h2 ha => ?_⟩
  unfold client
  rw [await_answer ha (Or.inr rfl)]
  have hready : ready isDir cdir = true := by
    have hst : (stripR cdir.reverse).reverse = cdir := by
      cases hrev : cdir.reverse with
      | nil => rw [show stripR [] = [] from rfl, ← hrev, List.reverse_reverse]
      | cons a r =>
        have ha : a ≠ slash := by
          intro e
          apply hcd r.reverse
          rw [← List.reverse_reverse cdir, hrev, e]
          simp
        have : stripR (a :: r) = a :: r := by
          cases r with
          | nil => rfl
          | cons b r => rw [stripR, if_neg ha]
        rw [this, ← hrev, List.reverse_reverse]
    unfold ready
    simp only [hst, hr, Bool.true_or]
  have hA := receiveAFile_intact z c dev md5 hz hc ht script ms' (ps' ++ rest) h1
  have hB := receiveAFile_intact z c dev md5 hz hc ht package ps' rest h2
  simp only [decide_true, hready, if_true, hA, hB, Bool.and_self]

/-- A directory that is given with a slash at the end is made by the client if it is not there. -/
theorem C82_made (z : Zlib) (c : Crypt) (dev : Dev) (p : Str) (hp : p ≠ []) (hs : ∀ q, p ≠ q ++ [slash])
    (os : Option Str) (isDir : Str → Bool) (got : List Msg) :
    client z c dev (some (p ++ [slash])) os isDir got =
      client z c dev (some (p ++ [slash])) os (fun _ => true) got := by
  have hst : (stripR (p ++ [slash]).reverse).reverse = p := by
    cases hrev : p.reverse with
    | nil => exact absurd (List.reverse_eq_nil_iff.mp hrev) hp
    | cons a r =>
      have ha : a ≠ slash := by
        intro e
        apply hs r.reverse
        rw [← List.reverse_reverse p, hrev, e]
        simp
      have h1 : stripR (a :: r) = a :: r := by
        cases r with
        | nil => rfl
        | cons b r => rw [stripR, if_neg ha]
      rw [List.reverse_append, hrev]
      show (stripR (slash :: a :: r)).reverse = p
      rw [stripR, if_pos rfl, h1, ← hrev, List.reverse_reverse]
  have hab : ∀ pre l : Str, pre ++ l ∈ above pre (l ++ [slash]) := by
    intro pre l
    induction l generalizing pre with
    | nil => simp [above]
    | cons b r ih =>
      rw [List.cons_append, above]
      apply List.mem_append_right
      have := ih (pre ++ [b])
      simpa using this
  have hready : ∀ d : Str → Bool, ready d (p ++ [slash]) = true := by
    intro d
    unfold ready
    simp only [hst]
    have := hab [] p
    simp only [List.nil_append] at this
    rw [List.contains_iff_mem.mpr this, Bool.or_true]
  unfold client
  cases os with
  | none => rfl
  | some o => simp only [hready]

example : ready (fun _ => false) (bytes "/a/b/") = true ∧ ready (fun _ => false) (bytes "/a/b") = false := by
  decide +kernel

/-- A client is left alone when upgrades are switched off on the server, when it is as new as the server or
newer, and when the server has no script or no package for it: it is told so, both go on, and nothing is run. -/
theorem C82_left_alone (z : Zlib) (c : Crypt) (md5 : Str → Str) (dev : Dev) (s : SConf) (fs : Str → Option Node)
    (cliVer : Int) (os : Str) (hos : OsName os) (hv : s.version ≠ [] ∧ ∀ r, s.version ≠ slash :: r)
    (h : s.dir = none ∨ s.ver ≤ cliVer ∨ ∃ dir, s.dir = some dir ∧ dir ≠ [] ∧
      ((fs (dir ++ [slash] ++ os ++ [slash] ++ s.version ++ bytes "/script") = none ∧
        fs (dir ++ [slash] ++ os ++ bytes "/script") = none) ∨
      fs (dir ++ [slash] ++ os ++ [slash] ++ s.version ++ bytes "/package") = none)) :
    doAutoupgrade z c md5 s fs cliVer (request os) = ⟨[sayNo], [], .goOn⟩ ∧
    ∀ cdir isDir got rest, Answer sayNo got rest → client z c dev cdir (some os) isDir got = .goOn := by
  constructor
  · unfold doAutoupgrade
    simp only [request_os hos.short]
    rw [if_neg (by simpa using hos.ne), sanitise_plain hos.plain]
    have hsl : slash ∉ os := fun h => (hos.plain _ h).1 rfl
    rcases h with h | h | ⟨dir, hs, hd, h⟩
    · unfold server; rw [h]
    · unfold server
      cases s.dir with
      | none => rfl
      | some dir => simp only; rw [if_pos h]
    · rw [server_some z c md5 s fs cliVer os dir hs hd hos.ne hsl hv.1 hv.2]
      by_cases hc : cliVer ≥ s.ver
      · rw [if_pos hc]
      · rw [if_neg hc]
        rcases h with ⟨h1, h2⟩ | h
        · simp only [h1, Option.isSome_none, Bool.false_eq_true, if_false, h2]
        · simp only [h]
          split <;> rfl
  · intro cdir isDir got rest ha
    unfold client
    rw [await_answer ha (Or.inl rfl)]
    cases cdir with
    | none => rfl
    | some d =>
      have : decide (sayNo = sayOk) = false := by decide +kernel
      simp only [this]

/-- A client that does not ask for upgrades never runs anything. -/
theorem C82_not_asked (z : Zlib) (c : Crypt) (dev : Dev) (dir os : Option Str) (isDir : Str → Bool) (ms : List Msg)
    (h : dir = none ∨ os = none) : client z c dev dir os isDir ms = .goOn := by
  rcases h with rfl | rfl
  · rfl
  · cases dir <;> rfl

/-- Nothing is run unless the server said so, after nothing but messages for the user, or interrupts. -/
theorem C82_only_if_told (z : Zlib) (c : Crypt) (dev : Dev) (dir os : Option Str) (isDir : Str → Bool) (ms : List Msg)
    (script package : Str) (h : client z c dev dir os isDir ms = .ran script package) :
    ∃ pre rest, ms = pre ++ sayOk :: rest ∧ ∀ m ∈ pre, m.cmd = .warning ∨ m.cmd = .message ∨ m.cmd = .interrupt := by
  have key : ∀ (ms r : List Msg), await ms = some (true, r) →
      ∃ pre rest, ms = pre ++ sayOk :: rest ∧ ∀ m ∈ pre, m.cmd = .warning ∨ m.cmd = .message ∨ m.cmd = .interrupt := by
    intro ms
    induction ms with
    | nil => intro r h; cases h
    | cons m ms ih =>
      intro r h
      rw [await] at h
      split at h
      · rename_i hg
        split at h
        · cases h
        · split at h
          · rename_i hb
            refine ⟨[], ms, ?_, by simp⟩
            cases m
            simp only at hg hb
            rw [hg, hb]; rfl
          · cases h
      · split at h
        · rename_i hw
          obtain ⟨pre, rest, e, hp⟩ := ih r h
          refine ⟨m :: pre, rest, by rw [e]; rfl, fun x hx => ?_⟩
          rcases List.mem_cons.1 hx with rfl | hx
          · exact hw
          · exact hp x hx
        · cases h
  unfold client at h
  cases dir with
  | none => cases h
  | some dir =>
    cases os with
    | none => cases h
    | some os =>
      simp only at h
      cases ha : await ms with
      | none => rw [ha] at h; cases h
      | some p =>
        obtain ⟨b, r⟩ := p
        cases b with
        | false => rw [ha] at h; cases h
        | true => exact key ms r ha

/-- Whatever a client asks, files are sent only to one that is older, and only those that the server offers for
a system, for its own version. Missing: the client that says its system is `..`, see `C82_parent_violated`. -/
theorem C82_offered_partial (z : Zlib) (c : Crypt) (md5 : Str → Str) (s : SConf) (fs : Str → Option Node)
    (cliVer : Int) (msg dir : Str) (hs : s.dir = some dir) (hd : dir ≠ [])
    (hv : s.version ≠ [] ∧ ∀ r, s.version ≠ slash :: r) (hpar : msg.drop 12 ≠ bytes "..") :
    (∀ p ∈ (doAutoupgrade z c md5 s fs cliVer msg).files, Offered dir s.version p) ∧
    ((doAutoupgrade z c md5 s fs cliVer msg).files ≠ [] → cliVer < s.ver) := by
  unfold doAutoupgrade
  simp only
  by_cases he : (msg.drop 12).isEmpty = true
  · rw [if_pos he]; exact ⟨fun p hp => (by cases hp), fun h => absurd rfl h⟩
  · rw [if_neg he]
    have hne : sanitise (msg.drop 12) ≠ [] := by
      intro e
      apply he
      unfold sanitise at e
      rw [List.map_eq_nil_iff] at e
      rw [e]; rfl
    have hsl := sanitise_noslash (msg.drop 12)
    have hdd : sanitise (msg.drop 12) ≠ bytes ".." := by
      intro e
      apply hpar
      generalize msg.drop 12 = o at *
      have hcb : ∀ b : Byte, (if b = slash ∨ b = 92 ∨ b = 58 then (45 : Byte) else b) = 46 → b = 46 := by
        intro b hb
        split at hb
        · exact absurd hb (by decide)
        · exact hb
      match o with
      | [] => exact absurd rfl hne
      | [a] =>
        have := congrArg List.length e
        rw [show (bytes "..").length = 2 by decide +kernel] at this
        simp [sanitise] at this
      | [a, b] =>
        have e2 : [if a = slash ∨ a = 92 ∨ a = 58 then (45 : Byte) else a,
          if b = slash ∨ b = 92 ∨ b = 58 then (45 : Byte) else b] = [46, 46] := e
        simp only [List.cons.injEq, and_true] at e2
        rw [hcb a e2.1, hcb b e2.2]
        decide +kernel
      | a :: b :: d :: r =>
        have := congrArg List.length e
        rw [show (bytes "..").length = 2 by decide +kernel] at this
        simp [sanitise] at this
    rw [server_some z c md5 s fs cliVer _ dir hs hd hne hsl hv.1 hv.2]
    generalize sanitise (msg.drop 12) = o at *
    by_cases hc : cliVer ≥ s.ver
    · rw [if_pos hc]; exact ⟨fun p hp => (by cases hp), fun h => absurd rfl h⟩
    · rw [if_neg hc]
      refine ⟨fun p hp => ?_, fun _ => by omega⟩
      refine ⟨o, hne, hsl, hdd, ?_⟩
      dsimp only at hp
      split at hp
      · cases hp
      · split at hp
        · cases hp
        · split at hp
          · simp only [List.mem_cons, List.not_mem_nil, or_false] at hp
            rcases hp with hp | hp
            · split at hp
              · exact Or.inr (Or.inl hp)
              · exact Or.inl hp
            · exact Or.inr (Or.inr hp)
          · cases hp

/-- Whoever names a system gets an answer, and it is the first thing that is sent. -/
theorem C82_answered (z : Zlib) (c : Crypt) (md5 : Str → Str) (s : SConf) (fs : Str → Option Node) (cliVer : Int)
    (msg : Str) (h : msg.drop 12 ≠ []) :
    ∃ m rest, (doAutoupgrade z c md5 s fs cliVer msg).msgs = m :: rest ∧ (m = sayNo ∧ rest = [] ∨ m = sayOk) := by
  unfold doAutoupgrade
  simp only
  rw [if_neg (by simpa using h)]
  unfold server
  split
  · exact ⟨_, _, rfl, Or.inl ⟨rfl, rfl⟩⟩
  · split
    · exact ⟨_, _, rfl, Or.inl ⟨rfl, rfl⟩⟩
    · dsimp only
      split
      · exact ⟨_, _, rfl, Or.inl ⟨rfl, rfl⟩⟩
      · split
        · exact ⟨_, _, rfl, Or.inl ⟨rfl, rfl⟩⟩
        · split
          · exact ⟨_, _, rfl, Or.inr rfl⟩
          · exact ⟨_, _, rfl, Or.inl ⟨rfl, rfl⟩⟩

/-- What is run was received to its end, and is what the messages hold, provided that both transfers went well.
Missing: that is not looked at, see `C82_cut_violated`. -/
theorem C82_whole_partial (z : Zlib) (c : Crypt) (dev : Dev) (ht : Takes dev) (dir os : Option Str)
    (isDir : Str → Bool) (ms r : List Msg) (script package : Str)
    (h : client z c dev dir os isDir ms = .ran script package) (ha : await ms = some (true, r))
    (h1 : (receive z c false false dev r).ok = true)
    (h2 : (receive z c false false dev (receive z c false false dev r).rest).ok = true) :
    ∃ p1 e1 p2 e2 rest, r = p1 ++ e1 :: (p2 ++ e2 :: rest) ∧ e1.cmd = .endFile ∧ e2.cmd = .endFile ∧
      z.decompressFrom z.iinit (payloads p1) = some script ∧
      z.decompressFrom z.iinit (payloads p2) = some package := by
  obtain ⟨p1, e1, a1, b1, c1⟩ := C57_accepted z c false dev ht r h1
  obtain ⟨p2, e2, a2, b2, c2⟩ := C57_accepted z c false dev ht _ h2
  have hf : script = (receive z c false false dev r).file ∧
      package = (receive z c false false dev (receive z c false false dev r).rest).file := by
    unfold client at h
    cases dir with
    | none => cases h
    | some dir =>
      cases os with
      | none => cases h
      | some os =>
        simp only [ha] at h
        split at h
        · simp only [receiveAFile, Bool.and_self, if_true, Cli.ran.injEq] at h
          exact ⟨h.1.symm, h.2.symm⟩
        · cases h
  refine ⟨p1, e1, p2, e2, (receive z c false false dev (receive z c false false dev r).rest).rest, ?_, b1, b2,
    hf.1 ▸ c1, hf.2 ▸ c2⟩
  rw [← a2, ← a1]

namespace Autoupgrade

/-- A server with upgrades for one system. -/
def sampleS : SConf := ⟨some (bytes "/up"), bytes "3.2.0", 30200⟩

/-- Its files: a script for all versions, and a package; and something above the directory. -/
def sampleFs : Str → Option Node := fun p =>
  if p = bytes "/up/linux/script" then some (.reg [bytes "rm -rf /tmp/x", bytes "yz"])
  else if p = bytes "/up/linux/3.2.0/package" then some (.reg [bytes "P"])
  else if p = bytes "/up/../script" then some (.reg [bytes "secret"])
  else if p = bytes "/up/../3.2.0/package" then some (.reg [bytes "Q"])
  else if p = bytes "/up/odd/script" then some .other
  else if p = bytes "/up/odd/3.2.0/package" then some (.reg [bytes "P"])
  else none

end Autoupgrade

/-- The hypotheses of `C82_upgraded` are met. -/
example : OsName (bytes "linux") ∧
    Offer sampleFs (bytes "/up") (bytes "linux") sampleS.version [bytes "rm -rf /tmp/x", bytes "yz"] [bytes "P"] ∧
    client storeZlib flipCrypt roomy (some (bytes "/tmp/up")) (some (bytes "linux")) (fun p => p = bytes "/tmp/up")
      (doAutoupgrade storeZlib flipCrypt id sampleS sampleFs 30100 (request (bytes "linux"))).msgs =
        .ran (bytes "rm -rf /tmp/xyz") (bytes "P") := by
  refine ⟨⟨by decide +kernel, by decide +kernel, by decide +kernel⟩, ⟨Or.inr ⟨by decide +kernel, by decide +kernel⟩,
    by decide +kernel⟩, by decide +kernel⟩

/-- Those of `C82_left_alone`: the client is as new as the server. -/
example : doAutoupgrade storeZlib flipCrypt id sampleS sampleFs 30200 (request (bytes "linux")) =
    ⟨[sayNo], [], .goOn⟩ := by decide +kernel

/-- C82 fails: when the connection breaks while the script is sent, the client runs the part that has arrived, and
its exit code is that of a success. `receive_a_file` throws the result of the transfer away
(`src/handy.c:532-539`), for the script and then for the package. -/
theorem C82_cut_violated :
    client storeZlib flipCrypt roomy (some (bytes "/tmp/up")) (some (bytes "linux")) (fun p => p = bytes "/tmp/up")
      ((doAutoupgrade storeZlib flipCrypt id sampleS sampleFs 30100 (request (bytes "linux"))).msgs.take 2) =
        .ran (bytes "rm -rf /tmp/x") [] ∧
    (Cli.ran (bytes "rm -rf /tmp/x") []).exitCode = some 0 := by decide +kernel

/-- C82 fails: a client that says that its system is `..` is sent files from above the directory: only separators
are replaced (`src/server/extra_comms.c:167-170`). -/
theorem C82_parent_violated :
    (doAutoupgrade storeZlib flipCrypt id sampleS sampleFs 30100 (bytes "autoupgrade:..")).files =
      [bytes "/up/../script", bytes "/up/../3.2.0/package"] := by decide +kernel

/-- C82 fails: when the script or the package is not a regular file, the client is told that there is no upgrade
and goes on, but the server ends the session, so that the client can do nothing at all until it is upgraded
(`src/server/autoupgrade.c:72-83`). -/
theorem C82_session_violated :
    doAutoupgrade storeZlib flipCrypt id sampleS sampleFs 30100 (request (bytes "odd")) = ⟨[sayNo], [], .fail⟩ ∧
    client storeZlib flipCrypt roomy (some (bytes "/tmp/up")) (some (bytes "odd")) (fun _ => true) [sayNo] = .goOn := by
  decide +kernel

/-- C82 fails: the directory of the client is not made, only those above it, so that without it the client ends
with an error each time, and never comes to do what it was asked to do (`src/client/autoupgrade.c:68-74`). -/
theorem C82_directory_violated :
    client storeZlib flipCrypt roomy (some (bytes "/tmp/up")) (some (bytes "linux")) (fun p => p = bytes "/tmp")
      (doAutoupgrade storeZlib flipCrypt id sampleS sampleFs 30100 (request (bytes "linux"))).msgs = .fail ∧
    (doAutoupgrade storeZlib flipCrypt id sampleS sampleFs 30100 (request (bytes "linux"))).next = .done := by
  decide +kernel

/-- C82 fails: a client that was upgraded instead of doing what it was asked to do reports success
(`src/client/autoupgrade.c:124-133`). -/
theorem C82_exit_violated :
    (client storeZlib flipCrypt roomy (some (bytes "/tmp/up")) (some (bytes "linux")) (fun p => p = bytes "/tmp/up")
      (doAutoupgrade storeZlib flipCrypt id sampleS sampleFs 30100 (request (bytes "linux"))).msgs).exitCode = some 0 := by
  decide +kernel

/-- C82 fails: there is no answer for an empty name, while the client waits for one
(`src/server/extra_comms.c:164-175`). -/
theorem C82_empty_violated (z : Zlib) (c : Crypt) (md5 : Str → Str) (s : SConf) (fs : Str → Option Node) (cliVer : Int) :
    doAutoupgrade z c md5 s fs cliVer (request []) = ⟨[], [], .goOn⟩ ∧ await [] = none := by
  refine ⟨?_, rfl⟩
  unfold doAutoupgrade
  simp only [request_os (os := []) (by decide)]
  rfl

end Verif
