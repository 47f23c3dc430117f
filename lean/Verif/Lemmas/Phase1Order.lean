import Verif.Lemmas.Phase1Run
import Verif.Spec.Merge

/-!
# The order of what is told
-/

namespace Verif.Phase1
open Verif.Strlist Verif.Attribs Verif.Find

/-- The path of a call that may tell of a file. -/
def Call.lead (c : Cfg) : Call → Option Str
  | .send _ f ty _ => if (ty.told c).isSome then some f else none
  | _ => none

def leads (c : Cfg) (l : List Call) : List Str := l.filterMap (Call.lead c)

theorem leads_append (c : Cfg) (l l' : List Call) : leads c (l ++ l') = leads c l ++ leads c l' :=
  List.filterMap_append

def keys (o : List Ev) : List (Cmd × Option Str) := o.filterMap Ev.key

theorem keys_append (o o' : List Ev) : keys (o ++ o') = keys o ++ keys o' := List.filterMap_append

theorem group_told {c : Cfg} {ty : FType} {cmd : Cmd} {l : Option Str} (h : ty.told c = some (cmd, l)) :
    group cmd = 1 := by
  have hf : group (fileSymbol c) = 1 := by
    unfold fileSymbol
    cases c.encrypted <;> rfl
  cases ty <;> cases h <;> first | exact hf | rfl

theorem group_meta (c : Cfg) : group (metaSymbol c) = 2 := by
  unfold metaSymbol
  cases c.encrypted <;> rfl

/-- What a file is told of with. -/
inductive Keyed (c : Cfg) (f : Str) : List (Cmd × Option Str) → Prop where
  | none : Keyed c f []
  | one {cmd : Cmd} : group cmd = 1 → Keyed c f [(cmd, some f)]
  | two {cmd : Cmd} : group cmd = 1 → Keyed c f [(cmd, some f), (metaSymbol c, some f)]

theorem keys_doToServer {c : Cfg} {w : World} {a : Attr} {f : Str} {cmd : Cmd} {l : Option Str} {n : Nat}
    (h : group cmd = 1) : Keyed c f (keys (doToServer c w a f cmd l n)) := by
  unfold doToServer
  split
  · exact .two h
  · exact .one h

theorem call_keys {c : Cfg} {w : World} {starts : List Elem} {k : Call} {out : List Ev} {st : St}
    (h : CallGood c w starts k) (hh : HashFor out st.hash) :
    keys (k.exec c w st).out = [] ∨ ∃ f, k.lead c = some f ∧ Keyed c f (keys (k.exec c w st).out) := by
  rcases (call_cases h hh).2 with ⟨a, a', f, ty, top, par, rfl, hr, hl, ht, hs⟩ | ⟨o, rfl, e, ho⟩ | ⟨r, rfl, e⟩
  · cases hs with
    | none e _ => rw [e]; exact Or.inl rfl
    | link _ _ _ _ _ _ hk e =>
      rw [e]
      obtain ⟨cmd, hty, _⟩ := typeFor_linkable ht hk
      refine Or.inr ⟨f, ?_, keys_doToServer rfl⟩
      show (if (ty.told c).isSome then some f else none) = some f
      rw [hty]
      rfl
    | told hty _ _ _ _ e =>
      rw [e]
      refine Or.inr ⟨f, ?_, keys_doToServer (group_told hty)⟩
      show (if (ty.told c).isSome then some f else none) = some f
      rw [hty]
      rfl
    | warned _ _ _ e => rw [e]; exact Or.inl rfl
  · rw [e]
    left
    show o.filterMap Ev.key = []
    rw [List.filterMap_eq_nil_iff]
    intro e he
    obtain ⟨pr, p, rfl, _⟩ := ho e he
    rfl
  · rw [e]
    exact Or.inl rfl

theorem keyed_mem {c : Cfg} {f : Str} {l : List (Cmd × Option Str)} (h : Keyed c f l) : ∀ x ∈ l, x.2 = some f := by
  cases h with
  | none => intro x hx; cases hx
  | one _ => intro x hx; rw [List.mem_singleton.mp hx]
  | two _ =>
    intro x hx
    rcases List.mem_cons.mp hx with rfl | hx
    · rfl
    · rw [List.mem_singleton.mp hx]

theorem keyed_sorted {c : Cfg} {f : Str} {l : List (Cmd × Option Str)} (h : Keyed c f l) : l.Pairwise EntryLt := by
  cases h with
  | none => exact List.Pairwise.nil
  | one _ => exact List.pairwise_singleton ..
  | two hg =>
    refine List.pairwise_cons.mpr ⟨?_, List.pairwise_singleton ..⟩
    intro x hx
    rw [List.mem_singleton.mp hx]
    refine Or.inr ⟨rfl, ?_⟩
    show group _ < group (metaSymbol c)
    rw [hg, group_meta]
    decide

theorem exec_keys {c : Cfg} {w : World} {starts : List Elem} (l : List Call) (hl : ∀ k ∈ l, CallGood c w starts k)
    (hs : (leads c l).Pairwise (fun a b => PathCmp.pathcmp a b < 0)) : ∀ out st, HashFor out st.hash →
    (keys (exec c w l st).out).Pairwise EntryLt ∧
      ∀ x ∈ keys (exec c w l st).out, ∃ f ∈ leads c l, x.2 = some f := by
  induction l with
  | nil => exact fun _ _ _ => ⟨List.Pairwise.nil, fun x hx => by cases hx⟩
  | cons k ks ih =>
    intro out st hh
    have hk := hl k (List.mem_cons_self ..)
    have h1 := call_keys hk hh
    have h2 := (call_cases hk hh).1
    have hs' : (leads c ks).Pairwise (fun a b => PathCmp.pathcmp a b < 0) := by
      have : leads c (k :: ks) = leads c [k] ++ leads c ks := leads_append c [k] ks
      rw [this] at hs
      exact (List.pairwise_append.mp hs).2.1
    have hone : (keys (k.exec c w st).out).Pairwise EntryLt ∧
        ∀ x ∈ keys (k.exec c w st).out, ∃ f, k.lead c = some f ∧ x.2 = some f := by
      rcases h1 with h | ⟨f, hf, h⟩
      · rw [h]
        exact ⟨List.Pairwise.nil, fun x hx => by cases hx⟩
      · exact ⟨keyed_sorted h, fun x hx => ⟨f, hf, keyed_mem h x hx⟩⟩
    have hlead : ∀ f, k.lead c = some f → leads c (k :: ks) = f :: leads c ks := by
      intro f hf
      unfold leads
      rw [List.filterMap_cons, hf]
    have hsub : ∀ f ∈ leads c ks, f ∈ leads c (k :: ks) := by
      intro f hf
      have : leads c (k :: ks) = leads c [k] ++ leads c ks := leads_append c [k] ks
      rw [this]
      exact List.mem_append_right _ hf
    have stop : ∀ o, keys o = keys (k.exec c w st).out → (keys o).Pairwise EntryLt ∧
        ∀ x ∈ keys o, ∃ f ∈ leads c (k :: ks), x.2 = some f := by
      intro o e
      rw [e]
      refine ⟨hone.1, fun x hx => ?_⟩
      obtain ⟨f, hf, hx⟩ := hone.2 x hx
      refine ⟨f, ?_, hx⟩
      rw [hlead f hf]
      exact List.mem_cons_self ..
    rw [exec]
    generalize k.exec c w st = r at h2 hone stop
    obtain ⟨ret, st', o⟩ := r
    cases ret
    · rw [andThen_ok]
      dsimp only at h2 hone stop ⊢
      obtain ⟨i1, i2⟩ := ih (fun k hk => hl k (List.mem_cons_of_mem _ hk)) hs' _ _ h2
      rw [keys_append]
      refine ⟨List.pairwise_append.mpr ⟨hone.1, i1, ?_⟩, ?_⟩
      · intro x hx y hy
        obtain ⟨f, hf, hxf⟩ := hone.2 x hx
        obtain ⟨g, hg, hyg⟩ := i2 y hy
        rw [hlead f hf] at hs
        left
        rw [hxf, hyg]
        exact (List.pairwise_cons.mp hs).1 g hg
      · intro x hx
        rcases List.mem_append.mp hx with hx | hx
        · exact (stop o rfl).2 x hx
        · obtain ⟨f, hf, hxf⟩ := i2 x hx
          exact ⟨f, hsub f hf, hxf⟩
    · exact stop _ rfl
    · exact stop _ rfl

/-! ### What is gone through is what the scan goes through -/

section sub
variable {c : Cfg} {w : World} {starts : List Elem} {wk : Str → List Call} {find : Str → Option (List Str)}

theorem leads_included {link : Str} : ∀ (l : List Elem) (r : List Str),
    (∀ x ∈ l, x.flag ≠ 0 → PathCmp.isSubdir link x.path ≠ 0 → ∀ r, find x.path = some r →
      List.Sublist (leads c (wk x.path)) r) →
    Scan.findIncluded find link l = some r → List.Sublist (leads c (walkIncluded wk link l)) r := by
  intro l
  induction l with
  | nil => intro r _ _; exact List.nil_sublist _
  | cons x xs ih =>
    intro r h hr
    have h' := fun y (hy : y ∈ xs) => h y (List.mem_cons_of_mem _ hy)
    unfold Scan.findIncluded at hr
    unfold walkIncluded
    by_cases hx : (decide (x.flag ≠ 0) && decide (PathCmp.isSubdir link x.path ≠ 0)) = true
    · rw [if_pos hx] at hr ⊢
      rw [Bool.and_eq_true, decide_eq_true_eq, decide_eq_true_eq] at hx
      cases hf : find x.path with
      | none => rw [hf] at hr; cases hr
      | some r1 =>
        rw [hf] at hr
        obtain ⟨r2, h2, rfl⟩ := Option.map_eq_some_iff.mp hr
        rw [leads_append]
        exact (h x (List.mem_cons_self ..) hx.1 hx.2 r1 hf).append (ih r2 h' h2)
    · rw [if_neg hx] at hr ⊢
      exact ih r h' hr

theorem leads_entries {pre : Str} : ∀ (l : List Str) (r : List Str),
    (∀ n ∈ l, ∀ q, Leads c (pre ++ n) q → ∀ r, find q = some r → List.Sublist (leads c (wk q)) r) →
    Scan.processEntries find c.find pre l = some r → List.Sublist (leads c (walkEntries wk c pre l)) r := by
  intro l
  induction l with
  | nil => intro r _ _; exact List.nil_sublist _
  | cons n ns ih =>
    intro r h hr
    have h' := fun y (hy : y ∈ ns) => h y (List.mem_cons_of_mem _ hy)
    have hn := h n (List.mem_cons_self ..)
    unfold Scan.processEntries at hr
    unfold walkEntries walkEntry
    rw [leads_append]
    cases hi : isIncludedNoIncext c.find (pre ++ n)
    · rw [hi] at hr
      have e1 : ∀ {α : Type} (x y : α), (if false = true then x else y) = y := fun x y => if_neg (by simp)
      rw [e1] at hr ⊢
      cases hf : Scan.findIncluded find (pre ++ n) c.find.incexcdir with
      | none => rw [hf] at hr; cases hr
      | some r1 =>
        rw [hf] at hr
        obtain ⟨r2, h2, rfl⟩ := Option.map_eq_some_iff.mp hr
        refine (leads_included _ r1 (fun x hx h1 h2 r => ?_) hf).append (ih r2 h' h2)
        exact hn x.path (Or.inr ⟨hi, x, hx, h1, h2, rfl⟩) r
    · rw [hi] at hr
      have e1 : ∀ {α : Type} (x y : α), (if true = true then x else y) = x := fun x y => if_pos rfl
      rw [e1] at hr ⊢
      cases hf : find (pre ++ n) with
      | none => rw [hf] at hr; cases hr
      | some r1 =>
        rw [hf] at hr
        obtain ⟨r2, h2, rfl⟩ := Option.map_eq_some_iff.mp hr
        exact (hn _ (Or.inl ⟨hi, rfl⟩) r1 hf).append (ih r2 h' h2)

theorem leads_one (own : Option Attr) (f : Str) (ty : FType) (top : Bool) (r : List Str) :
    List.Sublist (leads c [.send own f ty top]) (f :: r) := by
  have e : leads c [.send own f ty top] = if (ty.told c).isSome then [f] else [] := by
    have e : Call.lead c (.send own f ty top) = if (ty.told c).isSome then some f else none := rfl
    unfold leads
    rw [List.filterMap_cons, e]
    cases (ty.told c).isSome <;> rfl
  rw [e]
  split
  · exact List.Sublist.cons_cons _ (List.nil_sublist _)
  · exact List.nil_sublist _

theorem walk_leads {t : Scan.Tree} (hp : Present c w starts) (hac : Accepted c w starts)
    (hag : Agrees c w starts t) (n : Nat) : ∀ (f : Str) (par : Int) (top : Bool), Reached c w starts f par top →
    ∀ r, Scan.findFiles c.find t n f = some r → List.Sublist (leads c (walk c w n f par top)) r := by
  induction n with
  | zero => intro f par top _ r hr; cases hr
  | succ n ih =>
    intro f par top hre r hr
    have hfirst : ∃ rest, r = f :: rest ∧ ∀ l, Scan.lstat t f = .dir l →
        Scan.processEntries (Scan.findFiles c.find t n) c.find (Scan.dirPrefix f) (Scan.alphasort l) = some rest := by
      unfold Scan.findFiles at hr
      cases ht : Scan.lstat t f with
      | missing => exact absurd ht (hag.there f par top hre)
      | file =>
        rw [ht] at hr
        cases hr
        exact ⟨[], rfl, fun l h => by cases h⟩
      | dir l =>
        rw [ht] at hr
        obtain ⟨r2, h2, rfl⟩ := Option.map_eq_some_iff.mp hr
        exact ⟨r2, rfl, fun l h => by cases h; exact h2⟩
    obtain ⟨rest, rfl, hrest⟩ := hfirst
    unfold walk
    cases hl : w.lstat f with
    | none => exact absurd hl (hp f par top hre)
    | some a =>
      dsimp only
      have dir : kindOf a.mode = some .dir →
          List.Sublist (leads c (walkDir (fun f => walk c w n f a.dev false) c w f par top a)) (f :: rest) := by
        intro hd
        unfold walkDir
        have e : leads c (.send (some a) f .dir top ::
            if nobackupDir c w f = true then [] else walkEnter (fun f => walk c w n f a.dev false) c w f par top a) =
            f :: leads c (if nobackupDir c w f = true then [] else
              walkEnter (fun f => walk c w n f a.dev false) c w f par top a) := rfl
        rw [e]
        refine List.Sublist.cons_cons _ ?_
        split
        · exact List.nil_sublist _
        · next hnb =>
          have hnb := nobackup_false.mp (by simpa using hnb)
          have read : Entered c w f par top a →
              List.Sublist (leads c (walkRead (fun f => walk c w n f a.dev false) c w f top a)) rest := by
            intro hent
            unfold walkRead
            cases he : w.entries f with
            | names l =>
              refine leads_entries _ rest (fun m hm q hq r hr => ?_) (hrest l (hag.names f par top a l hre hl hd hent he))
              exact ih q a.dev false (.child hre hl hd hent he ((mem_sorted m l).mp hm) hq) r hr
            | noOpen => exact List.nil_sublist _
            | bad => exact List.nil_sublist _
          unfold walkEnter
          split
          · next hdev =>
            have hdev : top = true ∨ par ≠ a.dev := by
              rw [Bool.or_eq_true, decide_eq_true_eq] at hdev
              exact hdev
            have hfs : fsSkip c w f = ([], false) := fsSkip_false.mpr ⟨rfl, hac f par top a hre hl hd hdev⟩
            rw [hfs]
            dsimp only
            show List.Sublist (leads c (if (!top && !fsChangeAllowed c f) = true then _ else _)) rest
            split
            · exact List.nil_sublist _
            · next hal =>
              refine read ⟨hnb, fun _ => ⟨hac f par top a hre hl hd hdev, ?_⟩⟩
              cases top
              · right
                refine allowed_iff.mp ?_
                cases hx : fsChangeAllowed c f
                · rw [hx] at hal; exact absurd rfl hal
                · rfl
              · exact Or.inl rfl
          · next hdev =>
            refine read ⟨hnb, fun h => absurd ?_ hdev⟩
            rw [Bool.or_eq_true, decide_eq_true_eq]
            exact h
      cases hk' : kindOf a.mode with
      | none => exact leads_one ..
      | some kd =>
        cases kd
        case dir => exact dir hk'
        case lnk =>
          dsimp only
          split <;> exact leads_one ..
        all_goals exact leads_one ..

theorem walkAll_leads {t : Scan.Tree} (hp : Present c w starts) (hac : Accepted c w starts)
    (hag : Agrees c w starts t) (fuel : Nat) : ∀ (l : List Elem), (∀ s ∈ l, s ∈ starts) →
    ∀ r, Scan.scan c.find t fuel l = some r → List.Sublist (leads c (walkAll c w fuel l)) r := by
  intro l
  induction l with
  | nil => intro _ r _; exact List.nil_sublist _
  | cons s ss ih =>
    intro h r hr
    have h' := fun y (hy : y ∈ ss) => h y (List.mem_cons_of_mem _ hy)
    unfold Scan.scan at hr
    unfold walkAll
    by_cases hf : s.flag ≠ 0
    · rw [if_pos hf] at hr ⊢
      cases hx : Scan.findFiles c.find t fuel s.path with
      | none => rw [hx] at hr; cases hr
      | some r1 =>
        rw [hx] at hr
        obtain ⟨r2, h2, rfl⟩ := Option.map_eq_some_iff.mp hr
        rw [leads_append]
        exact (walk_leads hp hac hag fuel s.path _ _ (.start (h s (List.mem_cons_self ..)) hf) r1 hx).append
          (ih h' r2 h2)
    · rw [if_neg hf] at hr ⊢
      exact ih h' r hr

theorem included_reached {link : Str} {P : Str → Prop} : ∀ (l : List Elem) (r : List Str),
    (∀ x ∈ l, x.flag ≠ 0 → PathCmp.isSubdir link x.path ≠ 0 → ∀ r, find x.path = some r → ∀ y ∈ r, P y) →
    Scan.findIncluded find link l = some r → ∀ y ∈ r, P y := by
  intro l
  induction l with
  | nil => intro r _ hr y hy; cases hr; cases hy
  | cons x xs ih =>
    intro r h hr
    have h' := fun y (hy : y ∈ xs) => h y (List.mem_cons_of_mem _ hy)
    unfold Scan.findIncluded at hr
    by_cases hx : (decide (x.flag ≠ 0) && decide (PathCmp.isSubdir link x.path ≠ 0)) = true
    · rw [if_pos hx] at hr
      rw [Bool.and_eq_true, decide_eq_true_eq, decide_eq_true_eq] at hx
      cases hf : find x.path with
      | none => rw [hf] at hr; cases hr
      | some r1 =>
        rw [hf] at hr
        obtain ⟨r2, h2, rfl⟩ := Option.map_eq_some_iff.mp hr
        intro y hy
        rcases List.mem_append.mp hy with hy | hy
        · exact h x (List.mem_cons_self ..) hx.1 hx.2 r1 hf y hy
        · exact ih r2 h' h2 y hy
    · rw [if_neg hx] at hr
      exact ih r h' hr

theorem entries_reached {pre : Str} {P : Str → Prop} : ∀ (l : List Str) (r : List Str),
    (∀ n ∈ l, ∀ q, Leads c (pre ++ n) q → ∀ r, find q = some r → ∀ y ∈ r, P y) →
    Scan.processEntries find c.find pre l = some r → ∀ y ∈ r, P y := by
  intro l
  induction l with
  | nil => intro r _ hr y hy; cases hr; cases hy
  | cons n ns ih =>
    intro r h hr
    have h' := fun y (hy : y ∈ ns) => h y (List.mem_cons_of_mem _ hy)
    have hn := h n (List.mem_cons_self ..)
    unfold Scan.processEntries at hr
    cases hi : isIncludedNoIncext c.find (pre ++ n)
    · rw [hi] at hr
      have e1 : ∀ {α : Type} (x y : α), (if false = true then x else y) = y := fun x y => if_neg (by simp)
      rw [e1] at hr
      cases hf : Scan.findIncluded find (pre ++ n) c.find.incexcdir with
      | none => rw [hf] at hr; cases hr
      | some r1 =>
        rw [hf] at hr
        obtain ⟨r2, h2, rfl⟩ := Option.map_eq_some_iff.mp hr
        intro y hy
        rcases List.mem_append.mp hy with hy | hy
        · exact included_reached _ r1 (fun x hx h1 h2 r => hn x.path (Or.inr ⟨hi, x, hx, h1, h2, rfl⟩) r) hf y hy
        · exact ih r2 h' h2 y hy
    · rw [hi] at hr
      have e1 : ∀ {α : Type} (x y : α), (if true = true then x else y) = x := fun x y => if_pos rfl
      rw [e1] at hr
      cases hf : find (pre ++ n) with
      | none => rw [hf] at hr; cases hr
      | some r1 =>
        rw [hf] at hr
        obtain ⟨r2, h2, rfl⟩ := Option.map_eq_some_iff.mp hr
        intro y hy
        rcases List.mem_append.mp hy with hy | hy
        · exact hn _ (Or.inl ⟨hi, rfl⟩) r1 hf y hy
        · exact ih r2 h' h2 y hy

/-- What the scan finds is reached. -/
theorem find_reached {t : Scan.Tree} (hp : Present c w starts) (hag : Agrees c w starts t)
    (hno : NoMore c w starts t) (n : Nat) : ∀ (f : Str) (par : Int) (top : Bool), Reached c w starts f par top →
    ∀ r, Scan.findFiles c.find t n f = some r → ∀ y ∈ r, ∃ par top, Reached c w starts y par top := by
  induction n with
  | zero => intro f par top _ r hr; cases hr
  | succ n ih =>
    intro f par top hre r hr
    unfold Scan.findFiles at hr
    cases ht : Scan.lstat t f with
    | missing => rw [ht] at hr; cases hr; intro y hy; cases hy
    | file =>
      rw [ht] at hr
      cases hr
      intro y hy
      rw [List.mem_singleton.mp hy]
      exact ⟨par, top, hre⟩
    | dir l =>
      rw [ht] at hr
      obtain ⟨r2, h2, rfl⟩ := Option.map_eq_some_iff.mp hr
      intro y hy
      rcases List.mem_cons.mp hy with rfl | hy
      · exact ⟨par, top, hre⟩
      cases hl : w.lstat f with
      | none => exact absurd hl (hp f par top hre)
      | some a =>
        cases l with
        | nil =>
          cases h2
          cases hy
        | cons x xs =>
          obtain ⟨hd, hent, l', he⟩ := hno f par top a x xs hre hl ht
          have hsame := hag.names f par top a l' hre hl hd hent he
          rw [ht] at hsame
          injection hsame with hsame
          subst hsame
          exact entries_reached _ r2 (fun m hm q hq r hr =>
            ih q a.dev false (.child hre hl hd hent he ((mem_sorted m _).mp hm) hq) r hr) h2 y hy

theorem scan_reached {t : Scan.Tree} (hp : Present c w starts) (hag : Agrees c w starts t)
    (hno : NoMore c w starts t) (fuel : Nat) : ∀ (l : List Elem), (∀ s ∈ l, s ∈ starts) →
    ∀ r, Scan.scan c.find t fuel l = some r → ∀ y ∈ r, ∃ par top, Reached c w starts y par top := by
  intro l
  induction l with
  | nil => intro _ r hr y hy; cases hr; cases hy
  | cons s ss ih =>
    intro h r hr
    have h' := fun y (hy : y ∈ ss) => h y (List.mem_cons_of_mem _ hy)
    unfold Scan.scan at hr
    by_cases hf : s.flag ≠ 0
    · rw [if_pos hf] at hr
      cases hx : Scan.findFiles c.find t fuel s.path with
      | none => rw [hx] at hr; cases hr
      | some r1 =>
        rw [hx] at hr
        obtain ⟨r2, h2, rfl⟩ := Option.map_eq_some_iff.mp hr
        intro y hy
        rcases List.mem_append.mp hy with hy | hy
        · exact find_reached hp hag hno fuel s.path _ _ (.start (h s (List.mem_cons_self ..)) hf) r1 hx y hy
        · exact ih h' r2 h2 y hy
    · rw [if_neg hf] at hr
      exact ih h' r hr

end sub

end Verif.Phase1
