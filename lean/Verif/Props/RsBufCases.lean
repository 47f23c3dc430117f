import Verif.Props.RsBuf

/-!
# C90: a job for every function, and a file that changes
-/

namespace Verif.RsBuf
open Verif Verif.Iobuf Verif.Asfd

/-- A job that takes in all its input and then puts out the value of a function: `none` is what it is doing
before the end of the input. -/
def ofFun (f : Str → Str) : Job (Str × Option Str) where
  init := ([], none)
  iter := fun s d e r =>
    if e then
      let rest := s.2.getD (f (s.1 ++ d))
      ⟨(s.1 ++ d, some (rest.drop r)), d.length, rest.take r, if rest.length ≤ r then .done else .blocked⟩
    else ⟨(s.1 ++ d, s.2), d.length, [], .blocked⟩

theorem ofFun_lawful (f : Str → Str) : Lawful (ofFun f) := by
  constructor
  · intro s d e r; cases e <;> exact Nat.le_refl _
  · intro s d e r
    cases e
    · exact Nat.zero_le _
    · exact List.length_take_le ..

theorem ofFun_waits (f : Str → Str) : Waits (ofFun f) := by
  intro s d e r h
  cases e
  · cases h
  · rfl

theorem ofFun_busy (f : Str → Str) : Busy (ofFun f) := by
  intro s d e r
  cases e
  · exact .inr ⟨rfl, .inr ⟨rfl, rfl⟩⟩
  · by_cases h : (s.2.getD (f (s.1 ++ d))).length ≤ r
    · exact .inl (if_pos h)
    · refine .inr ⟨if_neg h, .inl ?_⟩
      show ((s.2.getD (f (s.1 ++ d))).take r).length = r
      rw [List.length_take]; omega

theorem ofFun_reach (f : Str → Str) {s x y d e} (h : Reach (ofFun f) s x y d e) :
    d = [] ∧ s.1 = x ∧ ((e = false ∧ s.2 = none ∧ y = []) ∨ (e = true ∧ ∃ rest, s.2 = some rest ∧ y ++ rest = f x)) := by
  induction h with
  | start => exact ⟨rfl, rfl, .inl ⟨rfl, rfl, rfl⟩⟩
  | @step s x y d e more e' r _ hok ih =>
    obtain ⟨hd, hx, hc⟩ := ih
    subst hd
    rw [List.nil_append]
    cases e' with
    | false =>
      refine ⟨List.drop_length, ?_, .inl ⟨rfl, ?_⟩⟩
      · show s.1 ++ more = x ++ more.take more.length
        rw [List.take_length, hx]
      · rcases hc with ⟨_, h2, h3⟩ | ⟨h1, _⟩
        · exact ⟨h2, by rw [h3]; rfl⟩
        · exact absurd (hok h1).2 (by decide)
    | true =>
      refine ⟨List.drop_length, ?_, .inr ⟨rfl, _, rfl, ?_⟩⟩
      · show s.1 ++ more = x ++ more.take more.length
        rw [List.take_length, hx]
      · show y ++ (s.2.getD (f (s.1 ++ more))).take r ++ (s.2.getD (f (s.1 ++ more))).drop r = f (x ++ more.take more.length)
        rw [List.append_assoc, List.take_append_drop, List.take_length, hx]
        rcases hc with ⟨_, h2, h3⟩ | ⟨h1, rest, h2, h3⟩
        · rw [h2, h3]; rfl
        · rw [h2, (hok h1).1, List.append_nil]
          exact h3

theorem ofFun_computes (f : Str → Str) : Computes (ofFun f) f := by
  have key : ∀ s x y d e, Reach (ofFun f) s x y d e → ∀ more, (e = true → more = []) →
      y ++ s.2.getD (f (s.1 ++ (d ++ more))) = f (x ++ (d ++ more)) := by
    intro s x y d e h more hok
    obtain ⟨hd, hx, hc⟩ := ofFun_reach f h
    rw [hd, hx, List.nil_append]
    rcases hc with ⟨_, h2, h3⟩ | ⟨h1, rest, h2, h3⟩
    · rw [h2, h3]; rfl
    · rw [h2, hok h1, List.append_nil]; exact h3
  constructor
  · intro s x y d e h more e' r hok z hz
    cases e' with
    | false =>
      obtain ⟨_, _, hc⟩ := ofFun_reach f h
      rcases hc with ⟨_, _, h3⟩ | ⟨h1, _⟩
      · rw [h3]; exact List.nil_prefix
      · exact absurd (hok h1).2 (by decide)
    | true =>
      rw [hz rfl, List.append_nil, ← key s x y d e h more (fun c => (hok c).1)]
      show y ++ List.take r _ <+: _
      exact (List.prefix_append_right_inj y).mpr (List.take_prefix ..)
  · intro s x y d e h more e' r hok hdone z hz
    cases e' with
    | false => cases hdone
    | true =>
      rw [hz rfl, List.append_nil, ← key s x y d e h more (fun c => (hok c).1)]
      show y ++ List.take r (s.2.getD (f (s.1 ++ (d ++ more)))) = _
      rw [List.take_of_length_le]
      have : (if (s.2.getD (f (s.1 ++ (d ++ more)))).length ≤ r then Result.done else .blocked) = .done := hdone
      split at this
      · assumption
      · cases this

theorem ofFun_loads {S} (f : Str → Str) (load : Str → S) :
    Loads (ofFun f) (fun s => load s.1) load := by
  refine ⟨?_, ofFun_waits f, ?_⟩
  · intro s d e r; cases e <;> rfl
  · intro s x y d e h more _ _
    show load (s.1 ++ (d ++ more)) = _
    rw [(ofFun_reach f h).2.1]

end Verif.RsBuf

namespace Verif
open Verif.RsBuf Verif.Iobuf Verif.Asfd

/-! A toy for librsync: the signature is the file, the difference says that nothing has changed or gives the new
file. -/

/-- Whether the old file is the new one, and if not the new one. -/
def toyDelta (old new : Str) : Str := if new = old then [0] else 1 :: new

/-- The old file, or the new one if it is there. -/
def toyPatch (old : Str) : Str → Str
  | 1 :: new => new
  | _ => old

theorem toy_law (old new : Str) : toyPatch old (toyDelta old new) = new := by
  unfold toyDelta
  split
  · rename_i h; exact h.symm
  · rfl

-- C90_written, C90_delta_messages, C90_ends: there is a job for every function
example (f : Str → Str) : Lawful (ofFun f) ∧ Computes (ofFun f) f ∧ Waits (ofFun f) ∧ Busy (ofFun f) :=
  ⟨ofFun_lawful f, ofFun_computes f, ofFun_waits f, ofFun_busy f⟩

-- C90_written: a buffer of four bytes, reads of two, and a network that does not take each message at once
example : (match run ⟨ofFun (fun x => x ++ x), .bfd, .net, 4, 4⟩
      ((List.replicate 8 { read := .upTo 1, app := .blocked }) ++ List.replicate 9 { read := .upTo 1 })
      (begin_ (ofFun (fun x => x ++ x)) (bytes "abcdef") 5) with
    | .done s => (s.sent, s.seen)
    | _ => ([], [])) = ([bytes "abcd", bytes "eabc", bytes "de"], bytes "abcde") := by decide

-- C90_changed_file, all of it
example : ∃ s1 s2 s3 s4,
    run ⟨ofFun id, .fzp, .net, 64, asyncBufLen⟩ (List.replicate 9 {}) (begin_ (ofFun id) (bytes "old") 0) = .done s1 ∧
    loadSig (ofFun (fun _ => [])) asyncBufLen
      (⟨Cmd.warning.toByte, bytes "hello"⟩ :: asMessages s1.sent ++ [⟨Cmd.endFile.toByte, bytes "endfile"⟩])
      (ofFun (fun _ => [])).init [] false = .done s2 ∧
    run ⟨ofFun (toyDelta s2.1), .bfd, .net, asyncBufLen, asyncBufLen⟩ (List.replicate 9 {})
      (begin_ (ofFun (toyDelta s2.1)) (bytes "newer") 0) = .done s3 ∧
    whole ⟨ofFun (toyPatch (bytes "old")), .fzp, .file, asyncBufLen, asyncBufLen⟩ (List.replicate 9 {})
      (begin_ (ofFun (toyPatch (bytes "old"))) s3.sent.flatten 0) = .done s4 ∧
    s4.sent.flatten = bytes "newer" :=
  ⟨_, _, _, _, rfl, rfl, rfl, rfl, rfl⟩

-- a file with a VSS header: only as much is read as the header says
example : given (bytes "abcdef") 5 = bytes "abcde" := by decide

example : blockLen 6401 = 96 := by
  obtain ⟨h1, h2, h3, h4, h5⟩ := C90_block_length 6401
  have hle : blockLen 6401 ≤ 96 := by
    rcases Nat.lt_or_ge 64 (blockLen 6401) with h | h
    · exact h5 h 96 (by decide) (by decide)
    · omega
  have hge : ¬ blockLen 6401 ≤ 80 := by
    intro h
    have := h4 (by omega)
    have := Nat.mul_le_mul h h
    omega
  omega

end Verif
