import Verif.Lemmas.SendConf
import Verif.Props.PathCmp

/-!
# C74: what a server can change on a client, and C75: settings arrive as they were sent
-/

namespace Verif
open Verif.Confs Verif.Strlist Verif.ConfLine

/-- C74: with `server_can_restore = 0`, and for a monitor, no server can make a client restore or change its settings for
a restore, whatever it sends. -/
theorem C74_restore_refused (env : Env) (wanted : Bool) (msgs : List Str) (act : Act) (c : Confs)
    (h : getInt c .SERVER_CAN_RESTORE = 0 ∨ act = .monitor ∨ wanted = false) :
    clientSrestore env wanted msgs act c = some (act, c, none) := by
  unfold clientSrestore
  rcases h with h | h | h
  · rw [if_neg (not_not_intro h)]
    split
    · rfl
    · split <;> rfl
  · rw [if_pos h]; split <;> rfl
  · subst h; rfl

/-- C74: with `server_can_override_includes = 0` no server can change the settings for a backup, whatever it sends. Nor
can it for other things than a backup, or after it has sent settings for a restore. -/
theorem C74_includes_refused (env : Env) (wanted : Bool) (msgs : List Str) (act : Act) (incexc : Option Str) (c : Confs)
    (h : getInt c .SERVER_CAN_OVERRIDE_INCLUDES = 0 ∨ (act ≠ .backup ∧ act ≠ .backupTimed ∧ act ≠ .timerCheck) ∨
      incexc ≠ none ∨ wanted = false) :
    clientSincexc env wanted msgs act incexc c = some c := by
  unfold clientSincexc
  rcases h with h | ⟨h1, h2, h3⟩ | h | h
  · rw [if_neg (c := getInt _ _ ≠ 0) (not_not_intro h)]; split <;> rfl
  · rw [if_neg (by rintro ⟨h | h | h, _⟩ <;> contradiction)]
  · rw [if_neg (by rintro ⟨_, h', _⟩; exact h h')]
  · rw [if_neg (by rintro ⟨_, _, h'⟩; rw [h] at h'; cases h')]

namespace Confs

theorem component_cons {c y : Str} (h : Component c y) : Component c (slash :: y) := by
  obtain ⟨h1, pre, post, rfl, h2, h3⟩ := h
  refine ⟨h1, slash :: pre, post, by simp, Or.inr ?_, h3⟩
  rcases h2 with rfl | h2
  · rfl
  · cases pre with
    | nil => rfl
    | cons a pre => rw [List.getLast?_cons_cons]; exact h2

theorem prependS_below {old srv : Str} (ho : old ≠ []) (h1 : ¬ Component [dot] srv) (h2 : ¬ Component [dot, dot] srv) :
    Prepend.prependS (some old) srv = old ∨
      ∃ y, Prepend.prependS (some old) srv = old ++ slash :: y ∧ ¬ Component [dot] y ∧ ¬ Component [dot, dot] y := by
  unfold Prepend.prependS Prepend.prependSlash Prepend.prependN Prepend.prependLen
  cases old with
  | nil => exact absurd rfl ho
  | cons a old =>
    cases srv with
    | nil => left; simp
    | cons b srv =>
      simp only
      split
      · rename_i hb
        subst hb
        cases srv with
        | nil => left; simp
        | cons d srv =>
          exact Or.inr ⟨d :: srv, by simp, fun x => h1 (component_cons x), fun x => h2 (component_cons x)⟩
      · exact Or.inr ⟨b :: srv, by simp, h1, h2⟩

end Confs

/-- C74: a restore that the server asks for goes below the directory that the client has set, whatever the server
sends. -/
theorem C74_prefix {env : Env} {msgs : List Str} {act act' : Act} {c c' : Confs} {buf : Option Str}
    (h : clientSrestore env true msgs act c = some (act', c', buf)) (hb : buf ≠ none) :
    act' = .restore ∧ ∃ old new, getStr c .RESTOREPREFIX = some old ∧ getStr c' .RESTOREPREFIX = some new ∧
      (new = old ∨ (old ≠ [] → old ≠ [slash] →
        ∃ y, new = old ++ slash :: y ∧ ¬ Component [dot] y ∧ ¬ Component [dot, dot] y)) := by
  unfold clientSrestore at h
  rw [if_neg (by decide)] at h
  split at h
  · injection h with h; injection h with _ h; injection h with _ h; exact absurd h.symm hb
  · split at h
    · cases e : incexcRecv (bytes "srestore end") msgs with
      | none => rw [e] at h; cases h
      | some t =>
        rw [e] at h
        simp only at h
        cases e2 : parseIncexcsSrestore env c t with
        | undefined => rw [e2] at h; cases h
        | error => rw [e2] at h; cases h
        | ok d =>
          rw [e2] at h
          simp only [Option.some.injEq, Prod.mk.injEq] at h
          obtain ⟨rfl, rfl, rfl⟩ := h
          refine ⟨rfl, ?_⟩
          unfold parseIncexcsSrestore at e2
          cases ho : getStr c .RESTOREPREFIX with
          | none => rw [ho] at e2; cases e2
          | some old =>
            rw [ho] at e2
            obtain ⟨c1, -, e2⟩ := Out.bind_ok e2
            obtain ⟨c2, -, e2⟩ := Out.bind_ok e2
            cases hs : getStr c2 .RESTOREPREFIX with
            | none =>
              rw [hs] at e2; simp only [Out.ok.injEq] at e2; subst e2
              exact ⟨old, old, rfl, getStr_eq (set_same ..), Or.inl rfl⟩
            | some srv =>
              rw [hs] at e2
              simp only at e2
              split at e2
              · cases e2
              · rename_i hd
                injection e2 with e2
                have hd2 : ¬ (Component [dot] srv ∨ Component [dot, dot] srv) := fun x => hd ((C07_has_dot_component srv).mpr x)
                rw [not_or] at hd2
                refine ⟨old, _, rfl, getStr_eq (by rw [← e2]; exact set_same ..), ?_⟩
                by_cases h0 : old = []
                · exact Or.inr (fun x => absurd h0 x)
                · by_cases h1 : old = [slash]
                  · exact Or.inr (fun _ x => absurd h1 x)
                  · rw [if_neg h1]
                    rcases prependS_below h0 hd2.1 hd2.2 with k | k
                    · exact Or.inl k
                    · exact Or.inr (fun _ _ => k)
    · injection h with h; injection h with _ h; injection h with _ h; exact absurd h.symm hb

namespace Confs

theorem incexc_good (o : Opt) (h : o.info.flags.incexc = true) : goodSent o = true := sent_good o (Or.inl h)

theorem restore_good (o : Opt) (h : o.info.flags.incexcRestore = true) : goodSent o = true := sent_good o (Or.inr h)

theorem arrive_scalar {o : Opt} {x y : Val} (ho : ¬ o.isList) (hx : SameKind x o.info.default)
    (hy : SameKind y o.info.default) : arrive o (blank x) y = y := by
  have := not_list_kind ho hy
  cases y with
  | str s =>
    cases s with
    | none =>
      cases hd : o.info.default <;> rw [hd] at hx hy <;> try exact hy.elim
      obtain ⟨k, rfl⟩ := hx.str
      rfl
    | some s => rfl
  | lst l => exact absurd rfl (this l)
  | _ => rfl

theorem arrive_list {o : Opt} {d c : Confs} (ho : o.isList) (hd : SameKind (d o) o.info.default)
    (hc : SameKind (c o) o.info.default) :
    (texts (fun o => arrive o (blank (d o)) (c o)) o).Perm (texts c o) ∧
    (InOrder (texts c o) → texts (fun o => arrive o (blank (d o)) (c o)) o = texts c o) := by
  rw [show o.info.default = .lst [] from ho] at hd hc
  obtain ⟨x, hx⟩ := hd.lst
  obtain ⟨l, hl⟩ := hc.lst
  have e : getLst (fun o => arrive o (blank (d o)) (c o)) o = appendLst o [] (l.map (reflag o)) := by
    apply getLst_eq
    simp only [hx, hl, arrive, blank]
  have e2 : texts c o = l.map Elem.path := by unfold texts; rw [getLst_eq hl]
  obtain ⟨h1, h2⟩ := arrive_texts o l
  rw [e2]
  unfold texts
  rw [e]
  exact ⟨h1, fun h => h2 (fun _ => h)⟩

end Confs

/-- C75: if a client lets the server set what is included and excluded, all the server's settings of that kind arrive:
those that are no lists have the same values, and lists have the same elements, in the same order if they were in order
on the server. Everything else stays as it was on the client. Options of the client's command line come after that.
Directories to start from, and file systems that are crossed, are worked out from what has arrived and are left out
here. -/
theorem C75_includes {env : Env} {c d d' : Confs} {act : Act} {cl : List Setting} {rest : List Str}
    (hc : WellKinded c) (hd : WellKinded d) (hs : Sendable (·.incexc) c)
    (ha : act = .backup ∨ act = .backupTimed ∨ act = .timerCheck) (ho : getInt d .SERVER_CAN_OVERRIDE_INCLUDES ≠ 0)
    (h : clientSincexc env true (doSends (·.incexc) c ++ bytes "sincexc end" :: rest) act none d = some d')
    (hcl : Said env env.cli cl) (o : Opt) (hm : ¬ Mentions o.info.field cl) :
    (o.info.flags.incexc = true → ¬ o.isList → d' o = c o) ∧
    (o.info.flags.incexc = true → o.isList → o ≠ .FSCHGDIR → o ≠ .INCLUDE →
      (texts d' o).Perm (texts c o) ∧ (InOrder (texts c o) → texts d' o = texts c o)) ∧
    (o = .INCLUDE → ∀ x ∈ texts c o, x ∈ texts d' o) ∧
    (o = .INCLUDE → texts c .INCGLOB = [] → ¬ Mentions Opt.INCGLOB.info.field cl →
      (texts d' o).Perm (texts c o) ∧ (InOrder (texts c o) → texts d' o = texts c o)) ∧
    (o.info.flags.incexc = false → o ∉ derived → d' o = d o) := by
  obtain ⟨buf, e1, e2⟩ := arrives env (·.incexc) incexc_good hc hs (freeIncexcs_kind hd) (bytes "sincexc end")
    (by decide) (doSends_ne _ rfl hc) rest
  unfold clientSincexc at h
  rw [if_pos ⟨ha, rfl, rfl⟩, if_pos ho, e1] at h
  simp only at h
  unfold parseIncexcsBuf at h
  rw [e2] at h
  simp only [Out.bind] at h
  generalize hx : (fun o : Opt => if o.info.flags.incexc = true then arrive o (freeIncexcs d o) (c o) else freeIncexcs d o) = x at h
  have h : finalise env x = .ok d' := by
    cases e : finalise env x <;> rw [e] at h
    · cases h
    · cases h
    · injection h with h; subst h; rfl
  have hin : ∀ p : Opt, p.info.flags.incexc = true → x p = arrive p (blank (d p)) (c p) := by
    intro p hp
    rw [← hx]
    simp only [hp, freeIncexcs, if_true]
  have hout : ∀ p : Opt, p.info.flags.incexc = false → x p = d p := by
    intro p hp
    rw [← hx]
    simp [hp, freeIncexcs]
  have hl : ∀ p : Opt, p.info.flags.incexc = true → p.isList →
      (texts x p).Perm (texts c p) ∧ (InOrder (texts c p) → texts x p = texts c p) := by
    intro p hp hpl
    have := arrive_list (d := d) (c := c) hpl (hd p) (hc p)
    rw [texts_eq (c := x) (d := fun o => arrive o (blank (d o)) (c o)) (hin p hp)]
    exact this
  obtain ⟨k1, k2, k3, k4⟩ := finalise_keeps h hcl hm
  have key : ∀ p : Opt, p.info.flags.incexc = true → p ∉ derived ∨ p ∈ [Opt.EXCFS, .INCFS, .INCEXT, .EXCEXT, .EXCOM] ∨
      (p = .FSCHGDIR ∨ p = .INCLUDE) := by
    have : Opt.all.all (fun p => !p.info.flags.incexc || (decide (p ∉ derived) ||
      (decide (p ∈ [Opt.EXCFS, .INCFS, .INCEXT, .EXCEXT, .EXCOM]) || (decide (p = .FSCHGDIR) || decide (p = .INCLUDE))))) = true := by
      decide +kernel
    intro p hp
    have := List.all_eq_true.mp this p (mem_all p)
    simpa [hp] using this
  refine ⟨?_, ?_, ?_, ?_, ?_⟩
  · intro hi hnl
    have hdv : o ∉ derived := by
      rcases key o hi with k | k | k | k
      · exact k
      · exfalso; apply hnl
        simp only [List.mem_cons, List.not_mem_nil, or_false] at k
        rcases k with rfl | rfl | rfl | rfl | rfl <;> decide
      · subst k; exact absurd (by decide) hnl
      · subst k; exact absurd (by decide) hnl
    rw [k1 hdv, hin o hi, arrive_scalar hnl (hd o) (hc o)]
  · intro hi hil n1 n2
    have : texts d' o = texts x o := by
      rcases key o hi with k | k | k | k
      · exact texts_eq (k1 k)
      · exact k2 k
      · exact absurd k n1
      · exact absurd k n2
    rw [this]; exact hl o hi hil
  · intro hi y hy
    refine k4 hi y ?_
    subst hi
    exact ((hl .INCLUDE (by decide) (by decide)).1.mem_iff).mpr hy
  · intro hi hg hmg
    have : texts x .INCGLOB = [] := by
      have := (hl .INCGLOB (by decide) (by decide)).1
      rw [hg] at this
      exact List.perm_nil.mp this
    rw [k3 hi hmg this]
    subst hi
    exact hl .INCLUDE (by decide) (by decide)
  · intro hi hdv
    rw [k1 hdv, hout o hi]

/-- C75: if a client lets the server ask for a restore, the client does a restore with the server's settings for it: what
is included and excluded, the regular expression, the backup, and so on. Where the server has no text, the client's own
one stays if it is not one for includes and excludes. Where to restore to is the subject of C74. -/
theorem C75_restore {env : Env} {c d d' : Confs} {act act' : Act} {cl : List Setting} {rest : List Str} {b : Option Str}
    (hc : WellKinded c) (hd : WellKinded d) (hs : Sendable (·.incexcRestore) c) (ha : act ≠ .monitor)
    (ho : getInt d .SERVER_CAN_RESTORE ≠ 0)
    (h : clientSrestore env true (doSends (·.incexcRestore) c ++ bytes "srestore end" :: rest) act d = some (act', d', b))
    (hcl : Said env env.cli cl) (o : Opt) (hm : ¬ Mentions o.info.field cl) :
    act' = .restore ∧
    (o.info.flags.incexcRestore = true → ¬ o.isList → o ≠ .RESTOREPREFIX → c o ≠ .str none → d' o = c o) ∧
    (o ∈ [Opt.STRIP_FROM_PATH, .BACKUP, .ORIG_CLIENT] → c o = .str none → d' o = d o) ∧
    (o = .REGEX → d' o = c o) ∧
    (o = .EXCLUDE → (texts d' o).Perm (texts c o)) ∧
    (o = .INCLUDE → ¬ Mentions Opt.INCGLOB.info.field cl → (texts d' o).Perm (texts c o)) ∧
    (o.info.flags.incexc = false → o.info.flags.incexcRestore = false → o ∉ derived → d' o = d o) := by
  have hk : WellKinded (set (freeIncexcs d) .RESTOREPREFIX (.str none)) := by
    intro p
    by_cases e : p = .RESTOREPREFIX
    · subst e; rw [set_same]; exact trivial
    · rw [set_ne _ _ e]; exact freeIncexcs_kind hd p
  obtain ⟨buf, e1, e2⟩ := arrives env (·.incexcRestore) restore_good hc hs hk (bytes "srestore end")
    (by decide) (doSends_ne _ rfl hc) rest
  unfold clientSrestore at h
  rw [if_neg (by decide), if_neg ha, if_pos ho, e1] at h
  simp only at h
  cases e3 : parseIncexcsSrestore env d buf with
  | undefined => rw [e3] at h; cases h
  | error => rw [e3] at h; cases h
  | ok d'' =>
  rw [e3] at h
  simp only [Option.some.injEq, Prod.mk.injEq] at h
  obtain ⟨rfl, rfl, rfl⟩ := h
  refine ⟨rfl, ?_⟩
  unfold parseIncexcsSrestore at e3
  cases hp : getStr d .RESTOREPREFIX with
  | none => rw [hp] at e3; cases e3
  | some old =>
  rw [hp] at e3
  simp only at e3
  rw [e2] at e3
  simp only [Out.bind] at e3
  generalize hx : (fun o : Opt => if o.info.flags.incexcRestore = true then
    arrive o (set (freeIncexcs d) .RESTOREPREFIX (.str none) o) (c o)
    else set (freeIncexcs d) .RESTOREPREFIX (.str none) o) = x at e3
  have hfin : ∃ y, finalise env x = .ok y ∧ ∀ p : Opt, p ≠ .RESTOREPREFIX → d'' p = y p := by
    cases e : finalise env x with
    | undefined => rw [e] at e3; cases e3
    | error => rw [e] at e3; cases e3
    | ok y =>
      rw [e] at e3
      simp only at e3
      refine ⟨y, rfl, ?_⟩
      intro p hp
      cases hs : getStr y .RESTOREPREFIX with
      | none =>
        rw [hs] at e3; injection e3 with e3; rw [← e3, set_ne _ _ hp]
      | some srv =>
        rw [hs] at e3
        simp only at e3
        split at e3
        · cases e3
        · injection e3 with e3; rw [← e3, set_ne _ _ hp]
  obtain ⟨y, hy, hyd⟩ := hfin
  obtain ⟨k1, k2, k3, k4⟩ := finalise_keeps hy hcl hm
  have hin : ∀ p : Opt, p.info.flags.incexcRestore = true → p.info.flags.incexc = true → x p = arrive p (blank (d p)) (c p) := by
    intro p h1 h2
    rw [← hx]
    have : p ≠ .RESTOREPREFIX := by rintro rfl; revert h2; decide
    simp only [h1, h2, freeIncexcs, if_true, set_ne _ _ this]
  have hin2 : ∀ p : Opt, p.info.flags.incexcRestore = true → p.info.flags.incexc = false → p ≠ .RESTOREPREFIX →
      x p = arrive p (d p) (c p) := by
    intro p h1 h2 this
    rw [← hx]
    simp only [h1, h2, freeIncexcs, if_true, Bool.false_eq_true, if_false, set_ne _ _ this]
  have hl : ∀ p : Opt, p.info.flags.incexcRestore = true → p.info.flags.incexc = true → p.isList →
      (texts x p).Perm (texts c p) := by
    intro p h1 h2 hpl
    have := arrive_list (d := d) (c := c) hpl (hd p) (hc p)
    rw [texts_eq (c := x) (d := fun o => arrive o (blank (d o)) (c o)) (hin p h1 h2)]
    exact this.1
  have key : ∀ p : Opt, p.info.flags.incexcRestore = true → ¬ p.isList → p ∉ derived := by
    have : Opt.all.all (fun p => !p.info.flags.incexcRestore || (decide p.isList || decide (p ∉ derived))) = true := by
      decide +kernel
    intro p hp hl
    have := List.all_eq_true.mp this p (mem_all p)
    simpa [hp, hl] using this
  refine ⟨?_, ?_, ?_, ?_, ?_, ?_⟩
  · intro hi hnl hne hns
    rw [hyd o hne, k1 (key o hi hnl)]
    cases hii : o.info.flags.incexc with
    | true => rw [hin o hi hii, arrive_scalar hnl (hd o) (hc o)]
    | false =>
      rw [hin2 o hi hii hne]
      have := not_list_kind hnl (hc o)
      cases hco : c o with
      | str s =>
        cases s with
        | none => exact absurd hco hns
        | some s => rfl
      | lst l => exact absurd hco (this l)
      | _ => rfl
  · intro hi hco
    simp only [List.mem_cons, List.not_mem_nil, or_false] at hi
    rcases hi with rfl | rfl | rfl <;>
    · rw [hyd _ (by decide), k1 (by decide), hin2 _ (by decide) (by decide) (by decide), hco]
      rfl
  · rintro rfl
    rw [hyd _ (by decide), k1 (by decide), hin _ (by decide) (by decide), arrive_scalar (by decide) (hd _) (hc _)]
  · rintro rfl
    rw [texts_eq (hyd .EXCLUDE (by decide)), texts_eq (k1 (by decide))]
    exact hl _ (by decide) (by decide) (by decide)
  · intro hi hg
    subst hi
    have hgl : texts x .INCGLOB = [] := by
      rw [← hx]
      unfold texts getLst
      simp only [show Opt.INCGLOB.info.flags.incexcRestore = false from rfl, Bool.false_eq_true, if_false]
      rw [set_ne _ _ (by decide)]
      unfold freeIncexcs
      rw [if_pos (by decide)]
      have k := hd .INCGLOB
      rw [show Opt.INCGLOB.info.default = .lst [] from rfl] at k
      obtain ⟨l, hl⟩ := k.lst
      rw [hl]; rfl
    rw [texts_eq (hyd .INCLUDE (by decide)), k3 rfl hg hgl]
    exact hl _ (by decide) (by decide) (by decide)
  · intro h1 h2 h3
    have hne : o ≠ .RESTOREPREFIX := by rintro rfl; revert h2; decide
    rw [hyd o hne, k1 h3, ← hx]
    simp [h1, h2, freeIncexcs, set_ne _ _ hne]

/-! ### Examples, and where it fails -/

namespace Confs

/-- What comes of settings after the lines of a file have been read. -/
def ofLoaded {α : Type} (lines : List Str) (f : Confs → Option Confs) (g : Confs → α) : Option α :=
  match loadGlobal (exEnv []) (bytes "/etc/burp/burp.conf") lines with
  | .ok c => (f c).map g
  | _ => none

/-- Settings of a server for a client. -/
def exServer : Confs :=
  set (set (set init .EXCLUDE (.lst [⟨bytes "/home/bob", 0⟩, ⟨bytes "/tmp", 0⟩])) .INCLUDE (.lst [⟨bytes "/home", 1⟩]))
    .MAX_FILE_SIZE (.size 1000)

/-- Settings of a client: mode client, the server may set includes and ask for a restore, which goes to `/restore`. -/
def exClient : Confs :=
  set (set (set (set (set init .BURP_MODE (.mode .client)) .SERVER_CAN_OVERRIDE_INCLUDES (.int 1)) .SERVER_CAN_RESTORE
    (.int 1)) .RESTOREPREFIX (.str (some (bytes "/restore")))) .INCLUDE (.lst [⟨bytes "/etc", 1⟩])

theorem exServer_ok : WellKinded exServer ∧ Sendable (·.incexc) exServer ∧ Sendable (·.incexcRestore) exServer := by
  have val : ∀ o, o = .EXCLUDE ∨ o = .INCLUDE ∨ o = .MAX_FILE_SIZE ∨ exServer o = o.info.default := by
    intro o
    by_cases h1 : o = .EXCLUDE
    · exact Or.inl h1
    · by_cases h2 : o = .INCLUDE
      · exact Or.inr (Or.inl h2)
      · by_cases h3 : o = .MAX_FILE_SIZE
        · exact Or.inr (Or.inr (Or.inl h3))
        · right; right; right
          unfold exServer
          rw [set_ne _ _ h3, set_ne _ _ h2, set_ne _ _ h1]
          rfl
  have e1 : exServer .EXCLUDE = .lst [⟨bytes "/home/bob", 0⟩, ⟨bytes "/tmp", 0⟩] := rfl
  have e2 : exServer .INCLUDE = .lst [⟨bytes "/home", 1⟩] := rfl
  have e3 : exServer .MAX_FILE_SIZE = .size 1000 := rfl
  have plain : ∀ (a b : Byte) (m v : Str), v = a :: m → newline ∉ v → v.getLast? = some b → Timer.isSpace a = false →
      Timer.isSpace b = false → a ≠ 39 → a ≠ 34 → PlainText v :=
    fun a b m v h1 h2 h3 h4 h5 h6 h7 => ⟨h2, a, m, b, h1, h3, h4, h5, h6, h7⟩
  have key : ∀ o, o.info.flags.incexc = true ∨ o.info.flags.incexcRestore = true →
      (∀ s, exServer o = .str (some s) → PlainText s) ∧ (∀ l, exServer o = .lst l → ∀ e ∈ l, PlainText e.path) ∧
      (∀ n, exServer o = .size n → n < 2 ^ 64) := by
    intro o ho
    rcases val o with rfl | rfl | rfl | h
    · rw [e1]
      refine ⟨fun s h => (by cases h), fun l h e he => ?_, fun n h => (by cases h)⟩
      cases h
      simp only [List.mem_cons, List.not_mem_nil, or_false] at he
      rcases he with rfl | rfl
      · exact plain 47 98 (bytes "home/bob") _ rfl (by decide) (by decide) (by decide) (by decide) (by decide) (by decide)
      · exact plain 47 112 (bytes "tmp") _ rfl (by decide) (by decide) (by decide) (by decide) (by decide) (by decide)
    · rw [e2]
      refine ⟨fun s h => (by cases h), fun l h e he => ?_, fun n h => (by cases h)⟩
      cases h
      simp only [List.mem_cons, List.not_mem_nil, or_false] at he
      subst he
      exact plain 47 101 (bytes "home") _ rfl (by decide) (by decide) (by decide) (by decide) (by decide) (by decide)
    · rw [e3]
      refine ⟨fun s h => (by cases h), fun l h => (by cases h), fun n h => ?_⟩
      injection h with h; subst h; decide
    · rw [h]
      have g := (goodSent_kind (sent_good o ho)).1
      rcases g with g | ⟨n, g⟩ | ⟨n, g⟩ | g
      · rw [g]; exact ⟨fun s h => (by cases h), fun l h => (by cases h), fun n h => (by cases h)⟩
      · rw [g]; exact ⟨fun s h => (by cases h), fun l h => (by cases h), fun n h => (by cases h)⟩
      · have : Opt.all.all (fun o => match o.info.default with | .size n => decide (n < 2 ^ 64) | _ => true) = true := by
          decide +kernel
        have := List.all_eq_true.mp this o (mem_all o)
        rw [g] at this ⊢
        refine ⟨fun s h => (by cases h), fun l h => (by cases h), fun m h => ?_⟩
        injection h with h; subst h; simpa using this
      · rw [show o.info.default = .lst [] from g]
        refine ⟨fun s h => (by cases h), fun l h e he => ?_, fun n h => (by cases h)⟩
        cases h; cases he
  refine ⟨?_, fun o ho => key o (Or.inl ho), fun o ho => key o (Or.inr ho)⟩
  intro o
  rcases val o with rfl | rfl | rfl | h
  · exact trivial
  · exact trivial
  · exact trivial
  · rw [h]; exact init_kind o

theorem exClient_kind : WellKinded exClient := by
  intro o
  unfold exClient
  by_cases h1 : o = .INCLUDE
  · subst h1; exact trivial
  · by_cases h2 : o = .RESTOREPREFIX
    · subst h2; exact trivial
    · by_cases h3 : o = .SERVER_CAN_RESTORE
      · subst h3; exact trivial
      · by_cases h4 : o = .SERVER_CAN_OVERRIDE_INCLUDES
        · subst h4; exact trivial
        · by_cases h5 : o = .BURP_MODE
          · subst h5; exact trivial
          · rw [set_ne _ _ h1, set_ne _ _ h2, set_ne _ _ h3, set_ne _ _ h4, set_ne _ _ h5]; exact init_kind o

end Confs

example : (clientSincexc (exEnv []) true (doSends (·.incexc) exServer ++ [bytes "sincexc end"]) .backup none exClient).map
      (fun d => (texts d .INCLUDE, texts d .EXCLUDE, getSize d .MAX_FILE_SIZE, getStr d .RESTOREPREFIX)) =
    some ([bytes "/home"], [bytes "/home/bob", bytes "/tmp"], 1000, some (bytes "/restore")) := by
  decide +kernel

example : (clientSrestore (exEnv []) true (doSends (·.incexcRestore)
      (set exServer .RESTOREPREFIX (.str (some (bytes "/old")))) ++ [bytes "srestore end"]) .timerCheck exClient).map
      (fun r => (r.1, texts r.2.1 .INCLUDE, texts r.2.1 .EXCLUDE, getStr r.2.1 .RESTOREPREFIX)) =
    some (.restore, [bytes "/home"], [bytes "/home/bob", bytes "/tmp"], some (bytes "/restore/old")) := by
  decide +kernel

example : Said (exEnv []) (exEnv []).cli [] := ⟨[], rfl, .nil⟩

/-- C74 fails: a client that only lets the server set what is included and excluded can be told any setting. With
`backup_script_pre` the server can run a program of its choice on the client. -/
theorem C74_script_violated :
    (clientSincexc (exEnv []) true [bytes "include = /home", bytes "backup_script_pre = /bin/rm", bytes "sincexc end"]
      .backup none exClient).map (fun d => getStr d .B_SCRIPT_PRE) = some (some (bytes "/bin/rm")) := by
  decide +kernel

/-- C74 fails: a server that may set what is included can also give itself the right to ask for restores, and choose
where they go to. -/
theorem C74_rights_violated :
    (clientSincexc (exEnv []) true [bytes "include = /home", bytes "server_can_restore = 1", bytes "restoreprefix = /",
        bytes "sincexc end"] .backup none (set exClient .SERVER_CAN_RESTORE (.int 0))).map
      (fun d => (getInt d .SERVER_CAN_RESTORE, getStr d .RESTOREPREFIX)) = some (1, some (bytes "/")) := by
  decide +kernel

/-- C75 fails for what is left out of a backup: the list by which paths are included and excluded is not emptied before
the server's settings are added to it. What the client's own file excluded stays excluded. -/
theorem C75_own_excludes_violated :
    ofLoaded [bytes "mode = client", bytes "include = /home", bytes "exclude = /home/bob", bytes "server_can_override_includes = 1"]
      (fun d => clientSincexc (exEnv []) true [bytes "include = /home", bytes "sincexc end"] .backup none d)
      (fun d => (texts d .INCLUDE, texts d .EXCLUDE, getLst d .INCEXCDIR)) =
      some ([bytes "/home"], [], [⟨bytes "/home", 1⟩, ⟨bytes "/home/bob", 0⟩]) := by
  decide +kernel

/-- C75 fails: if the server includes what the client's own file excludes, the client stops with an error. -/
theorem C75_include_excluded_violated :
    ofLoaded [bytes "mode = client", bytes "include = /home", bytes "exclude = /home/bob", bytes "server_can_override_includes = 1"]
      (fun d => clientSincexc (exEnv []) true [bytes "include = /home/bob", bytes "sincexc end"] .backup none d)
      (fun _ => ()) = none := by
  decide +kernel

/-- C75 fails: a value that needs quotes arrives without its white space. -/
theorem C75_spaces_violated :
    ((incexcRecv (bytes "sincexc end") (doSends (·.incexc) (set init .EXCLUDE (.lst [⟨bytes "/a ", 0⟩])) ++
      [bytes "sincexc end"])).map (fun buf => match loadBuf (exEnv []) init buf with
        | .ok c => texts c .EXCLUDE
        | _ => [])) = some [bytes "/a"] := by
  decide +kernel

/-- C75 fails: a value that begins and ends with a quote arrives without the quotes. A regular expression becomes
another one. -/
theorem C75_quotes_violated :
    ((incexcRecv (bytes "sincexc end") (doSends (·.incexc) (set init .EXCREG (.lst [⟨bytes "\"foo\"", 0⟩])) ++
      [bytes "sincexc end"])).map (fun buf => match loadBuf (exEnv []) init buf with
        | .ok c => texts c .EXCREG
        | _ => [])) = some [bytes "foo"] := by
  decide +kernel

end Verif
