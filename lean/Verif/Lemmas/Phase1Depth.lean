import Verif.Lemmas.Phase1List

/-!
# The bound on the depth, and directories that are not read
-/

namespace Verif.Phase1
open Verif.Strlist Verif.Attribs Verif.Find

/-! ### A greater bound changes nothing -/

/-- If the bound was not met, it is the same. -/
def Res.Same (r r' : Res) : Prop := r.ret ≠ .deep → r' = r

theorem Res.Same.refl (r : Res) : r.Same r := fun _ => rfl

theorem Res.Same.andThen {r r' : Res} {f g : St → Res} (h : r.Same r') (hf : ∀ st, (f st).Same (g st)) :
    (r.andThen f).Same (r'.andThen g) := by
  intro hd
  obtain ⟨ret, st, o⟩ := r
  cases ret
  · rw [h (fun e => by cases e)]
    rw [andThen_ok] at hd
    rw [andThen_ok, andThen_ok, hf st hd]
  · rw [h (fun e => by cases e)]; rfl
  · exact absurd rfl hd

theorem Res.Same.after {r r' : Res} (h : r.Same r') (o : List Ev) : (Res.after o r).Same (Res.after o r') := by
  intro hd
  rw [h hd]

section
variable {f g : St → Str → Res} (h : ∀ st p, (f st p).Same (g st p)) {c : Cfg} {w : World}
include h

theorem findIncluded_same (link : Str) (l : List Elem) : ∀ st, (findIncluded f link l st).Same (findIncluded g link l st) := by
  induction l with
  | nil => intro st; exact .refl _
  | cons x xs ih =>
    intro st
    unfold findIncluded
    split
    · exact (h st _).andThen ih
    · exact ih st

theorem processEntries_same (pre : Str) (l : List Str) :
    ∀ st, (processEntries f c pre l st).Same (processEntries g c pre l st) := by
  induction l with
  | nil => intro st; exact .refl _
  | cons x xs ih =>
    intro st
    unfold processEntries
    refine Res.Same.andThen ?_ ih
    unfold processEntry
    split
    · exact h st _
    · exact findIncluded_same h _ _ st

theorem foundDirectory_same (p : Str) (par : Int) (top : Bool) (st : St) :
    (foundDirectory f c w p par top st).Same (foundDirectory g c w p par top st) := by
  have read : ∀ st, (readDirectory f c w p top st).Same (readDirectory g c w p top st) := by
    intro st
    unfold readDirectory
    split
    · exact processEntries_same h _ _ st
    · exact .refl _
    · exact .refl _
  unfold foundDirectory
  refine Res.Same.andThen (.refl _) (fun st => ?_)
  split
  · exact .refl _
  · unfold enterDirectory
    split
    · split
      · exact .refl _
      · refine Res.Same.after ?_ _
        split
        · exact .refl _
        · exact read st
    · exact read st

end

theorem findFiles_same (c : Cfg) (w : World) (n : Nat) : ∀ p par top st,
    (findFiles c w n p par top st).Same (findFiles c w (n + 1) p par top st) := by
  induction n with
  | zero => intro p par top st hd; exact absurd rfl hd
  | succ n ih =>
    intro p par top st
    rw [findFiles, findFiles.eq_2 (n := n + 1)]
    cases w.lstat p with
    | none => exact .refl _
    | some a =>
      dsimp only
      cases kindOf a.mode with
      | none => exact .refl _
      | some k =>
        cases k
        case dir => exact foundDirectory_same (fun st q => ih q a.dev false st) p par top _
        all_goals exact .refl _

theorem client_same (c : Cfg) (w : World) (n : Nat) (starts : List Elem) :
    ∀ st, (client c w n starts st).Same (client c w (n + 1) starts st) := by
  induction starts with
  | nil => intro st; exact .refl _
  | cons s ss ih =>
    intro st
    unfold client
    split
    · exact (findFiles_same c w n _ _ _ st).andThen ih
    · exact ih st

/-! ### Directories that are not read -/

theorem sendW_warn {c : Cfg} {w : World} {st : St} {f : Str} {ty : FType} {top : Bool}
    (hk : kindOf st.statp.mode = some .dir) (ht : ty.told c = none) (hl : LetThrough c f st.statp top) :
    .warn ty.problem f ∈ (sendW c w st f ty top).out := by
  have hkd : (statOf st.statp).kind = .dir := by
    unfold statOf
    rw [hk]
    rfl
  unfold sendW
  rcases sendFile_cases c.find (fun g _ => c.logic g st.statp) st.hash f (statOf st.statp) top with
    ⟨_, h⟩ | ⟨_, _, _, ⟨_, h, _⟩ | ⟨_, e⟩⟩
  · rcases h with h | h | ⟨h, _⟩ | ⟨_, _, _, _, h⟩
    · rw [hl.1] at h; cases h
    · have : c.logic f st.statp = true := h
      rw [hl.2.1] at this; cases this
    · rw [hkd] at h; cases h
    · rw [hkd] at h; cases h
  · rw [hkd] at h; cases h
  · rw [e]
    dsimp only
    rw [mySendFile_eq, ht]
    exact List.mem_singleton.mpr rfl

/-- Everything that is done with a directory is done, in a run without error. -/
theorem call_done {c : Cfg} {w : World} {starts : List Elem} {fuel : Nat}
    (h : (client c w fuel starts St.init).ret = .ok) {p : Str} {par : Int} {top : Bool} {a : Attr}
    (hr : Reached c w starts p par top) (hl : w.lstat p = some a) (hd : kindOf a.mode = some .dir) {k : Call}
    (hk : ∀ find, k ∈ walkDir find c w p par top a) :
    k ∈ walkAll c w fuel starts ∧ ∃ st, (k.exec c w st).ret = .ok ∧
      ∀ e ∈ (k.exec c w st).out, e ∈ (client c w fuel starts St.init).out := by
  rw [client_eq] at h ⊢
  obtain ⟨m, hm⟩ := walkAll_complete (exec_noStop h .deep (fun e => by cases e)) hr
  have hmem : k ∈ walkAll c w fuel starts := by
    refine hm k ?_
    unfold walk
    rw [hl]
    dsimp only
    rw [hd]
    exact hk _
  refine ⟨hmem, ?_⟩
  obtain ⟨l1, l2, e⟩ := List.append_of_mem hmem
  rw [e] at h ⊢
  obtain ⟨_, h2, post, h3⟩ := exec_split h
  refine ⟨_, h2, fun x hx => ?_⟩
  rw [h3]
  exact List.mem_append_right _ (List.mem_append_left _ hx)

end Verif.Phase1
