import Verif.Spec.RestoreFlow
import Verif.Lemmas.Exchange

/-!
# Lemmas about the data of a restore
-/

namespace Verif.RestoreFlow
open Verif Verif.Transfer
open Verif.Exchange (bufMax wire load fits carries Room Small load_append load_suffix fits_nil)

/-! ### What is still to be read -/

/-- The client after it has read some messages, having written all it had to. -/
def after (c : Cli) : List Msg → Cli
  | [] => c
  | m :: ms => after (cliRead { c with pend := [] } m) ms

/-- What the client has yet to write, given what it has yet to read. -/
def future (c : Cli) : List Msg → List Msg
  | [] => c.pend
  | m :: ms => c.pend ++ future (cliRead { c with pend := [] } m) ms

/-- What the client writes about a message. -/
def emit (c : Cli) (m : Msg) : List Msg := (cliRead { c with pend := [] } m).pend

/-- What the client has yet to read. -/
def toRead (s : Sys) : List Msg := s.down ++ (s.out ++ sayMsgs s.ops)

/-- What the server has yet to read. -/
def toTake (s : Sys) : List Msg := s.up ++ (s.cout ++ future s.cli (toRead s))

/-- What the server has yet to read about what it has written so far. -/
def sent (s : Sys) : List Msg := s.up ++ (s.cout ++ future s.cli (s.down ++ s.out))

/-- The client once it has read what the server has written so far. -/
def ahead (s : Sys) : Cli := after s.cli (s.down ++ s.out)

theorem after_append (c : Cli) (a b : List Msg) : after c (a ++ b) = after (after c a) b := by
  induction a generalizing c with
  | nil => rfl
  | cons m a ih => exact ih _

theorem after_cons (c : Cli) (m : Msg) (ms : List Msg) :
    after c (m :: ms) = after (cliRead { c with pend := [] } m) ms := rfl

theorem future_pend (c : Cli) (p : List Msg) (ms : List Msg) :
    future { c with pend := p } ms = p ++ future { c with pend := [] } ms := by
  cases ms with
  | nil => simp [future]
  | cons m ms => simp [future]

theorem future_split (c : Cli) (ms : List Msg) : future c ms = c.pend ++ future { c with pend := [] } ms := by
  rw [← future_pend]

theorem future_append (c : Cli) (a b : List Msg) :
    future c (a ++ b) = future c a ++ future { after c a with pend := [] } b := by
  induction a generalizing c with
  | nil => exact future_split c b
  | cons m a ih =>
    show c.pend ++ future _ (a ++ b) = (c.pend ++ future _ a) ++ _
    rw [ih, List.append_assoc]
    rfl

theorem future_concat (c : Cli) (a : List Msg) (m : Msg) :
    future c (a ++ [m]) = future c a ++ emit (after c a) m := by
  rw [future_append]
  rfl

theorem after_pend (c : Cli) (p : List Msg) (ms : List Msg) :
    (after { c with pend := p } ms).mode = (after c ms).mode ∧
    (after { c with pend := p } ms).datapth = (after c ms).datapth ∧
    (after { c with pend := p } ms).log = (after c ms).log := by
  cases ms with
  | nil => exact ⟨rfl, rfl, rfl⟩
  | cons m ms => exact ⟨rfl, rfl, rfl⟩

theorem after_failed (c : Cli) (h : c.mode = .failed) (ms : List Msg) : (after c ms).mode = .failed := by
  induction ms generalizing c with
  | nil => exact h
  | cons m ms ih =>
    rw [after]
    apply ih
    simp [cliRead, h]

theorem after_over (c : Cli) (h : c.mode = .over) (ms : List Msg) (hf : (after c ms).mode = .over) : ms = [] := by
  cases ms with
  | nil => rfl
  | cons m ms =>
    rw [after, after_failed _ (by simp [cliRead, h])] at hf
    exact absurd hf (by decide)

/-- A client that comes to its end does not fail on the way. -/
theorem not_failed (c : Cli) (m : Msg) (ms : List Msg) (hf : (after c (m :: ms)).mode = .over) :
    (cliRead { c with pend := [] } m).mode ≠ .failed := by
  intro h
  rw [after, after_failed _ h] at hf
  exact absurd hf (by decide)

theorem sayMsgs_append (a b : List Op) : sayMsgs (a ++ b) = sayMsgs a ++ sayMsgs b := by
  simp [sayMsgs, List.filterMap_append]

theorem sayMsgs_say (m : Msg) (b : List Op) : sayMsgs (.say m :: b) = m :: sayMsgs b := by
  simp [sayMsgs]

theorem sayMsgs_look (d : Str) (b : List Op) : sayMsgs (.look d :: b) = sayMsgs b := by
  simp [sayMsgs]

theorem sayMsgs_drain (b : List Op) : sayMsgs (.drain :: b) = sayMsgs b := by
  simp [sayMsgs]

/-! ### The client reads -/

/-- What has data. -/
def hasData (cmd : Cmd) : Bool := cmd.isFiledata || cmd.isVssdata

theorem says_cmd (ws : List Str) (x : Msg) (h : x ∈ says ws) : x.cmd = .warning := by
  simp only [says, List.mem_map] at h
  obtain ⟨w, _, rfl⟩ := h
  rfl

theorem dealPlain_pend (c : Cli) (path : Str) (t : List Str) (hp : c.pend = []) (x : Msg)
    (h : x ∈ (dealPlain c path t).pend) : x.cmd = .warning := by
  unfold dealPlain at h
  cases hr : c.replies with
  | nil => simp [hr, hp] at h
  | cons r rs =>
    rw [hr] at h
    exact says_cmd _ x h

/-- Nothing is interrupted but what has data. -/
theorem emit_quiet (c : Cli) (m : Msg) (hm : hasData m.cmd = false) (x : Msg) (h : x ∈ emit c m) :
    x.cmd ≠ .interrupt := by
  unfold emit at h
  obtain ⟨mode, dp, rs, pend, log⟩ := c
  simp only at h
  cases mode with
  | idle =>
    simp only [cliRead] at h
    by_cases h1 : m = endMsg
    · rw [if_pos h1] at h
      simp only [List.mem_singleton] at h
      rw [h]; decide
    rw [if_neg h1] at h
    by_cases h2 : m.cmd = .datapth
    · rw [if_pos h2] at h; simp at h
    rw [if_neg h2] at h
    by_cases h3 : m.cmd = .attribs
    · rw [if_pos h3] at h; simp at h
    rw [if_neg h3] at h
    by_cases h4 : m.cmd = .message ∨ m.cmd = .warning
    · rw [if_pos h4] at h; simp at h
    rw [if_neg h4] at h
    by_cases h5 : m.cmd.isLink = true
    · rw [if_pos h5] at h; simp at h
    rw [if_neg h5] at h
    unfold hasData at hm
    rw [if_neg (by simp [hm])] at h
    by_cases h6 : m.cmd = .directory ∨ m.cmd = .special
    · rw [if_pos h6] at h
      rw [dealPlain_pend _ _ _ rfl x h]; decide
    · rw [if_neg h6] at h; simp at h
  | link path =>
    simp only [cliRead] at h
    by_cases h5 : m.cmd.isLink = true
    · rw [if_pos h5] at h
      rw [dealPlain_pend _ _ _ rfl x h]; decide
    rw [if_neg h5] at h
    by_cases h4 : m.cmd = .message ∨ m.cmd = .warning
    · rw [if_pos h4] at h; simp at h
    · rw [if_neg h4] at h; simp at h
  | taking path got aft =>
    simp only [cliRead] at h
    by_cases h1 : m.cmd = .append
    · rw [if_pos h1] at h; simp at h
    rw [if_neg h1] at h
    by_cases h2 : m.cmd = .endFile
    · rw [if_pos h2] at h
      rw [says_cmd _ x h]; decide
    rw [if_neg h2] at h
    by_cases h4 : m.cmd = .message ∨ m.cmd = .warning
    · rw [if_pos h4] at h; simp at h
    · rw [if_neg h4] at h; simp at h
  | skipping path =>
    simp only [cliRead] at h
    by_cases h1 : m.buf = []
    · rw [if_pos h1] at h; simp at h
    rw [if_neg h1] at h
    by_cases h2 : m.cmd = .append
    · rw [if_pos h2] at h; simp at h
    rw [if_neg h2] at h
    by_cases h3 : m.cmd = .endFile
    · rw [if_pos h3] at h; simp at h
    · rw [if_neg h3] at h; simp at h
  | over => simp [cliRead] at h
  | failed => simp [cliRead] at h

/-- The last thing the client says. -/
theorem pend_over (c : Cli) (m : Msg) (hp : c.pend = []) (hc : c.mode ≠ .over) (ho : (cliRead c m).mode = .over) :
    (cliRead c m).pend = [okMsg] := by
  obtain ⟨mode, dp, rs, pend, log⟩ := c
  simp only at hp hc
  subst hp
  cases mode with
  | idle =>
    simp only [cliRead] at ho ⊢
    by_cases h1 : m = endMsg
    · rw [if_pos h1]
    rw [if_neg h1] at ho
    by_cases h2 : m.cmd = .datapth
    · rw [if_pos h2] at ho; exact absurd ho (by simp)
    rw [if_neg h2] at ho
    by_cases h3 : m.cmd = .attribs
    · rw [if_pos h3] at ho; exact absurd ho (by simp)
    rw [if_neg h3] at ho
    by_cases h4 : m.cmd = .message ∨ m.cmd = .warning
    · rw [if_pos h4] at ho; exact absurd ho (by simp)
    rw [if_neg h4] at ho
    by_cases h5 : m.cmd.isLink = true
    · rw [if_pos h5] at ho; exact absurd ho (by simp)
    rw [if_neg h5] at ho
    by_cases h7 : (m.cmd.isFiledata || m.cmd.isVssdata) = true
    · rw [if_pos h7] at ho
      exfalso
      cases rs with
      | nil => simp [dealData] at ho
      | cons r rs =>
        simp only [dealData] at ho
        cases hr : r.refuse with
        | true => cases dp <;> simp [hr] at ho
        | false => simp [hr] at ho
    rw [if_neg h7] at ho
    by_cases h6 : m.cmd = .directory ∨ m.cmd = .special
    · rw [if_pos h6] at ho
      exfalso
      cases rs with
      | nil => simp [dealPlain] at ho
      | cons r rs => simp [dealPlain] at ho
    · rw [if_neg h6] at ho; exact absurd ho (by simp)
  | link path =>
    exfalso
    simp only [cliRead] at ho
    by_cases h5 : m.cmd.isLink = true
    · rw [if_pos h5] at ho
      cases rs with
      | nil => simp [dealPlain] at ho
      | cons r rs => simp [dealPlain] at ho
    rw [if_neg h5] at ho
    by_cases h4 : m.cmd = .message ∨ m.cmd = .warning
    · rw [if_pos h4] at ho; simp at ho
    · rw [if_neg h4] at ho; simp at ho
  | taking path got aft =>
    exfalso
    simp only [cliRead] at ho
    by_cases h1 : m.cmd = .append
    · rw [if_pos h1] at ho; simp at ho
    rw [if_neg h1] at ho
    by_cases h2 : m.cmd = .endFile
    · rw [if_pos h2] at ho; simp at ho
    rw [if_neg h2] at ho
    by_cases h4 : m.cmd = .message ∨ m.cmd = .warning
    · rw [if_pos h4] at ho; simp at ho
    · rw [if_neg h4] at ho; simp at ho
  | skipping path =>
    exfalso
    simp only [cliRead] at ho
    by_cases h1 : m.buf = []
    · rw [if_pos h1] at ho; simp at ho
    rw [if_neg h1] at ho
    by_cases h2 : m.cmd = .append
    · rw [if_pos h2] at ho; simp at ho
    rw [if_neg h2] at ho
    by_cases h3 : m.cmd = .endFile
    · rw [if_pos h3] at ho; simp at ho
    · rw [if_neg h3] at ho; simp at ho
  | over => exact absurd rfl hc
  | failed => simp [cliRead] at ho

/-- A client that comes to its end has something to write until it has. -/
theorem future_ne (c : Cli) (ms : List Msg) (hf : (after c ms).mode = .over) (hc : c.mode ≠ .over) :
    future c ms ≠ [] := by
  induction ms generalizing c with
  | nil => exact absurd hf hc
  | cons m ms ih =>
    rw [after] at hf
    rw [future]
    have key : future (cliRead { c with pend := [] } m) ms ≠ [] := by
      by_cases ho : (cliRead { c with pend := [] } m).mode = .over
      · rw [future_split, pend_over { c with pend := [] } m rfl hc ho]
        simp
      · exact ih _ hf ho
    intro h
    exact key (List.append_eq_nil_iff.1 h).2

end Verif.RestoreFlow
