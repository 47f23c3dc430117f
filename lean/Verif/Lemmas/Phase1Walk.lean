import Verif.Spec.Phase1

/-!
# The walk of the first phase, apart from what is remembered between files
-/

namespace Verif.Phase1
open Verif.Strlist Verif.Attribs Verif.Find

/-- What a walk does, one after the other: `my_send_file_w` with the attributes that were found, or without; warnings;
an end. -/
inductive Call where
  | send (own : Option Attr) (fname : Str) (ty : FType) (top : Bool)
  | say (o : List Ev)
  | stop (r : Ret)

def Call.exec (c : Cfg) (w : World) : Call → St → Res
  | .send own f ty top, st => sendW c w { st with statp := own.getD st.statp } f ty top
  | .say o, st => ⟨.ok, st, o⟩
  | .stop r, st => ⟨r, st, []⟩

def exec (c : Cfg) (w : World) : List Call → St → Res
  | [], st => ⟨.ok, st, []⟩
  | k :: ks, st => (k.exec c w st).andThen (exec c w ks)

def walkIncluded (find : Str → List Call) (link : Str) : List Elem → List Call
  | [] => []
  | x :: xs =>
    if decide (x.flag ≠ 0) && decide (PathCmp.isSubdir link x.path ≠ 0) then
      find x.path ++ walkIncluded find link xs
    else walkIncluded find link xs

def walkEntry (find : Str → List Call) (c : Cfg) (path : Str) : List Call :=
  if isIncludedNoIncext c.find path then find path else walkIncluded find path c.find.incexcdir

def walkEntries (find : Str → List Call) (c : Cfg) (pre : Str) : List Str → List Call
  | [] => []
  | n :: ns => walkEntry find c (pre ++ n) ++ walkEntries find c pre ns

def walkRead (find : Str → List Call) (c : Cfg) (w : World) (fname : Str) (top : Bool) (a : Attr) : List Call :=
  match w.entries fname with
  | .names l => walkEntries find c (Scan.dirPrefix fname) (Scan.alphasort l)
  | .noOpen => [.send (some a) fname .noOpen top]
  | .bad => [.stop .fail]

def walkEnter (find : Str → List Call) (c : Cfg) (w : World) (fname : Str) (parent : Int) (top : Bool) (a : Attr) :
    List Call :=
  if top || decide (parent ≠ a.dev) then
    match fsSkip c w fname with
    | (o, true) => [.say (o ++ if top then [.warn .skipped fname] else []), .send (some a) fname .dir top]
    | (o, false) => .say o :: (
        if !top && !fsChangeAllowed c fname then [.send (some a) fname .noFsChange top]
        else walkRead find c w fname top a)
  else walkRead find c w fname top a

def walkDir (find : Str → List Call) (c : Cfg) (w : World) (fname : Str) (parent : Int) (top : Bool) (a : Attr) :
    List Call :=
  .send (some a) fname .dir top ::
    (if nobackupDir c w fname then [] else walkEnter find c w fname parent top a)

def walk (c : Cfg) (w : World) : Nat → Str → Int → Bool → List Call
  | 0, _, _, _ => [.stop .deep]
  | n + 1, fname, parent, top => match w.lstat fname with
    | none => [.send none fname .noStat top]
    | some a => match kindOf a.mode with
      | some .reg => [.send (some a) fname .reg top]
      | some .lnk =>
        if c.blockdevs.contains fname then
          [.send (some { a with mode := blockMode a.mode }) fname (otherType c fname (some .blk)) top]
        else [.send (some a) fname (linkType w fname) top]
      | some .dir => walkDir (fun f => walk c w n f a.dev false) c w fname parent top a
      | k => [.send (some a) fname (otherType c fname k) top]

def walkAll (c : Cfg) (w : World) (fuel : Nat) : List Elem → List Call
  | [] => []
  | s :: ss =>
    if s.flag ≠ 0 then walk c w fuel s.path (-1) true ++ walkAll c w fuel ss else walkAll c w fuel ss

/-! ### `andThen` -/

theorem andThen_ok (st : St) (o : List Ev) (f : St → Res) :
    Res.andThen ⟨.ok, st, o⟩ f = ⟨(f st).ret, (f st).st, o ++ (f st).out⟩ := rfl

theorem andThen_assoc (r : Res) (f g : St → Res) :
    (r.andThen f).andThen g = r.andThen (fun st => (f st).andThen g) := by
  obtain ⟨ret, st, o⟩ := r
  cases ret
  · simp only [andThen_ok]
    generalize f st = x
    obtain ⟨ret', st', o'⟩ := x
    cases ret'
    · simp only [andThen_ok, List.append_assoc]
    · rfl
    · rfl
  · rfl
  · rfl

theorem andThen_nothing (r : Res) : r.andThen (fun st => ⟨.ok, st, []⟩) = r := by
  obtain ⟨ret, st, o⟩ := r
  cases ret
  · simp only [andThen_ok, List.append_nil]
  · rfl
  · rfl

theorem exec_append (c : Cfg) (w : World) (l l' : List Call) (st : St) :
    exec c w (l ++ l') st = (exec c w l st).andThen (exec c w l') := by
  induction l generalizing st with
  | nil => simp only [List.nil_append, exec, andThen_ok, List.nil_append]
  | cons k ks ih =>
    simp only [List.cons_append, exec, andThen_assoc]
    congr 1
    funext st'
    exact ih st'

theorem exec_one (c : Cfg) (w : World) (k : Call) (st : St) : exec c w [k] st = k.exec c w st :=
  andThen_nothing _

theorem sendW_statp (c : Cfg) (w : World) (st : St) (f : Str) (ty : FType) (top : Bool) :
    (sendW c w st f ty top).st.statp = st.statp := by
  unfold sendW
  split <;> rfl

theorem after_eq (c : Cfg) (w : World) (o : List Ev) (l : List Call) (st : St) :
    (exec c w l st).after o = exec c w (.say o :: l) st := by
  simp only [exec, Call.exec, andThen_ok, Res.after]

/-! ### The walk is what `find_files` does -/

theorem findIncluded_eq {c : Cfg} {w : World} {find : St → Str → Res} {wk : Str → List Call}
    (h : ∀ st f, find st f = exec c w (wk f) st) (link : Str) (l : List Elem) (st : St) :
    findIncluded find link l st = exec c w (walkIncluded wk link l) st := by
  induction l generalizing st with
  | nil => rfl
  | cons x xs ih =>
    unfold findIncluded walkIncluded
    split
    · rw [h, exec_append]
      congr 1
      funext st'
      exact ih st'
    · exact ih st

theorem processEntry_eq {c : Cfg} {w : World} {find : St → Str → Res} {wk : Str → List Call}
    (h : ∀ st f, find st f = exec c w (wk f) st) (path : Str) (st : St) :
    processEntry find c path st = exec c w (walkEntry wk c path) st := by
  unfold processEntry walkEntry
  split
  · exact h _ _
  · exact findIncluded_eq h _ _ _

theorem processEntries_eq {c : Cfg} {w : World} {find : St → Str → Res} {wk : Str → List Call}
    (h : ∀ st f, find st f = exec c w (wk f) st) (pre : Str) (l : List Str) (st : St) :
    processEntries find c pre l st = exec c w (walkEntries wk c pre l) st := by
  induction l generalizing st with
  | nil => rfl
  | cons n ns ih =>
    unfold processEntries walkEntries
    rw [processEntry_eq h, exec_append]
    congr 1
    funext st'
    exact ih st'

theorem send_eq (c : Cfg) (w : World) (st : St) (f : Str) (ty : FType) (top : Bool) (a : Attr) (ha : st.statp = a) :
    sendW c w st f ty top = exec c w [.send (some a) f ty top] st := by
  rw [exec_one]
  subst ha
  rfl

theorem readDirectory_eq {c : Cfg} {w : World} {find : St → Str → Res} {wk : Str → List Call}
    (h : ∀ st f, find st f = exec c w (wk f) st) (fname : Str) (top : Bool) (st : St) (a : Attr)
    (ha : st.statp = a) :
    readDirectory find c w fname top st = exec c w (walkRead wk c w fname top a) st := by
  unfold readDirectory walkRead
  cases w.entries fname with
  | names l => exact processEntries_eq h _ _ _
  | noOpen => exact send_eq _ _ _ _ _ _ _ ha
  | bad => rfl

theorem enterDirectory_eq {c : Cfg} {w : World} {find : St → Str → Res} {wk : Str → List Call}
    (h : ∀ st f, find st f = exec c w (wk f) st) (fname : Str) (parent : Int) (top : Bool) (st : St) (a : Attr)
    (ha : st.statp = a) :
    enterDirectory find c w fname parent top st = exec c w (walkEnter wk c w fname parent top a) st := by
  unfold enterDirectory walkEnter
  rw [ha]
  split
  · generalize fsSkip c w fname = p
    obtain ⟨o, b⟩ := p
    cases b
    · show Res.after o _ = exec c w (.say o :: _) st
      rw [← after_eq]
      congr 1
      split
      · exact send_eq _ _ _ _ _ _ _ ha
      · exact readDirectory_eq h _ _ _ _ ha
    · show Res.after _ _ = exec c w [.say _, _] st
      rw [← after_eq]
      congr 1
      exact send_eq _ _ _ _ _ _ _ ha
  · exact readDirectory_eq h _ _ _ _ ha

theorem foundDirectory_eq {c : Cfg} {w : World} {find : St → Str → Res} {wk : Str → List Call}
    (h : ∀ st f, find st f = exec c w (wk f) st) (fname : Str) (parent : Int) (top : Bool) (st : St) (a : Attr)
    (ha : st.statp = a) :
    foundDirectory find c w fname parent top st = exec c w (walkDir wk c w fname parent top a) st := by
  unfold foundDirectory walkDir
  have e : (Call.send (some a) fname .dir top).exec c w st = sendW c w st fname .dir top := by
    subst ha
    rfl
  rw [exec, e]
  have hs := sendW_statp c w st fname .dir top
  generalize sendW c w st fname .dir top = r at hs
  obtain ⟨ret, st', o⟩ := r
  cases ret
  · simp only [andThen_ok]
    have : (if nobackupDir c w fname then (⟨.ok, st', []⟩ : Res) else
        enterDirectory find c w fname parent top st') =
        exec c w (if nobackupDir c w fname then [] else walkEnter wk c w fname parent top a) st' := by
      split
      · rfl
      · exact enterDirectory_eq h _ _ _ _ _ (hs.trans ha)
    rw [this]
  · rfl
  · rfl

theorem findFiles_eq (c : Cfg) (w : World) (n : Nat) (fname : Str) (parent : Int) (top : Bool) (st : St) :
    findFiles c w n fname parent top st = exec c w (walk c w n fname parent top) st := by
  induction n generalizing fname parent top st with
  | zero => rfl
  | succ n ih =>
    unfold findFiles walk
    cases hl : w.lstat fname with
    | none => exact (exec_one c w (.send none fname .noStat top) st).symm
    | some a =>
      dsimp only
      have one : ∀ (b : Attr) (ty : FType), sendW c w { st with statp := b } fname ty top =
          exec c w [.send (some b) fname ty top] st := 
        fun b ty => (exec_one c w (.send (some b) fname ty top) st).symm
      cases hk : kindOf a.mode with
      | none => exact one _ _
      | some k =>
        cases k
        case reg => exact one _ _
        case chr => exact one _ _
        case blk => exact one _ _
        case fifo => exact one _ _
        case sock => exact one _ _
        case dir =>
          dsimp only
          rw [foundDirectory_eq (fun st f => ih f a.dev false st) _ _ _ _ a rfl]
          rfl
        case lnk =>
          dsimp only
          split
          · exact one _ _
          · exact one _ _

theorem client_eq (c : Cfg) (w : World) (fuel : Nat) (starts : List Elem) (st : St) :
    client c w fuel starts st = exec c w (walkAll c w fuel starts) st := by
  induction starts generalizing st with
  | nil => rfl
  | cons s ss ih =>
    unfold client walkAll
    split
    · rw [findFiles_eq, exec_append]
      congr 1
      funext st'
      exact ih st'
    · exact ih st

end Verif.Phase1
