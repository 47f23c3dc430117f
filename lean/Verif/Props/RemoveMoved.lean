import Verif.Props.RemoveBackup

namespace Verif
open Confine Remove

/-- What is in the directory of a client is not what is put aside. -/
theorem Remove.Layout.target_apart {w : World} {fs : FS} {d : Dirs} {base target : Name} {o : List Name} {n : Name}
    (L : Layout w fs d base target o n) {c : Name} (hc : ¬ d.client ++ [c] <+: d.deleteme) (x : List Name) :
    ¬ d.client ++ [c] <+: d.deleteme ++ [target] ++ x := by
  intro hp
  rcases Nat.le_total (d.client ++ [c]).length (d.deleteme ++ [target]).length with hle | hle
  · rcases prefix_cases (List.prefix_of_prefix_length_le hp (List.prefix_append _ _) hle) with e | e
    · exact L.apart.1 (snoc_eq e).1.symm
    · exact hc e
  · rcases prefix_cases (List.prefix_of_prefix_length_le (List.prefix_append _ _) hp hle) with e | e
    · exact L.apart.1 (snoc_eq e).1
    · exact L.apart.2.2.2.2 e

theorem freeName_suffixed (fs : FS) (deleteme : List Name) (path : Name) :
    ∀ n k, ∃ j, k ≤ j ∧ j ≤ k + n ∧ freeName fs deleteme path n k = suffixed path j
  | 0, k => ⟨k, Nat.le_refl _, Nat.le_refl _, rfl⟩
  | n + 1, k => by
    unfold freeName
    split
    · exact ⟨k, Nat.le_refl _, by omega, rfl⟩
    · obtain ⟨j, h1, h2, h3⟩ := freeName_suffixed fs deleteme path n (k + 1)
      exact ⟨j, by omega, by omega, h3⟩

theorem mkpathLimit_aside {s : State} {o : List Name} {n : Name} (ho : RealDir s.fs o)
    (hn : isStay n = false ∧ isUp n = false) (hd : s.fs (o ++ [n]) = none ∨ s.fs (o ++ [n]) = some .dir) :
    mkpathLimit s (o ++ [n]) = (true, if s.fs (o ++ [n]) = none then s.entry (o ++ [n]) (some .dir) else s) := by
  have hnow := (names_real ho hn).now
  have hl : Confine.lstat s.fs (o ++ [n]) = s.fs (o ++ [n]) := lstat_entry hnow
  have hlo : Confine.lstat s.fs o = some .dir := by
    rw [lstat_canon ho.canon]; exact ho.dirs o (List.prefix_refl o)
  unfold mkpathLimit
  rcases hd with h | h
  · rw [if_neg (by rw [hl, h]; simp), if_neg (by rw [List.dropLast_concat, hlo]; simp), if_pos h]
    unfold mkdir make
    rw [hnow]
    dsimp only
    rw [if_pos h]
  · rw [if_pos (by rw [hl, h]; simp), if_neg (by rw [h]; simp)]

/-- An unfinished backup that is moved out of the way is put aside as a whole, but for its `timestamp`, at a
place where there was nothing; nothing else changes. -/
theorem C89_moved (w : World) (s : State) (d : Dirs) (base path : Str) (o : List Name) (n : Name)
    (L : ∀ k, k ≤ 100 → Layout w s.fs d base (suffixed path k) o n)
    (h : (deletemeMove w s d (d.client ++ [base]) path).1 = true) :
    let fs' := (deletemeMove w s d (d.client ++ [base]) path).2.fs
    ∃ k, k ≤ 100 ∧
      let t := d.deleteme ++ [suffixed path k]
      (∀ x, ¬ [bytes "timestamp"] <+: x → fs' (t ++ x) = s.fs (d.client ++ [base] ++ x)) ∧
      Gone (d.client ++ [base]) fs' ∧
      (∀ x, x ≠ [] → s.fs (t ++ x) = none) ∧ (s.fs t = none ∨ s.fs t = some .dir) ∧
      ∀ y, ¬ d.client ++ [base] <+: y → ¬ t <+: y → y ≠ d.deleteme → fs' y = s.fs y := by
  have L0 := L 0 (Nat.zero_le _)
  have hdir : s.fs (o ++ [n]) = none ∨ s.fs (o ++ [n]) = some .dir := L0.deleteme ▸ L0.dir
  have hl : Confine.lstat s.fs (d.client ++ [base]) = some .dir := by
    rw [lstat_entry (names_real L0.client L0.baseName).now]; exact L0.there
  dsimp only
  unfold deletemeMove at h ⊢
  rw [if_neg (by rw [hl]; simp), L0.deleteme, mkpathLimit_aside L0.outer ⟨L0.plain.1, L0.plain.2.1⟩ hdir] at h ⊢
  dsimp only at h ⊢
  generalize hs1 : (if s.fs (o ++ [n]) = none then s.entry (o ++ [n]) (some .dir) else s) = s1 at h ⊢
  have hod : s.fs o = some .dir := L0.outer.dirs o (List.prefix_refl o)
  have same1 : ∀ y, y ≠ o ++ [n] → s1.fs y = s.fs y := by
    intro y hy
    rw [← hs1]
    split
    · exact if_neg hy
    · rfl
  have dir1 : s1.fs (o ++ [n]) = some .dir := by
    rw [← hs1]
    split
    · exact if_pos rfl
    · rename_i hx; exact hdir.resolve_left hx
  have fits1 : Fits w s1.fs := by
    rw [← hs1]
    split
    · rename_i hx
      exact L0.fits.make hod (L0.fits.good.names o (by rw [hod]; simp)) L0.plain (by rw [hx]; simp) L0.named.1
    · exact L0.fits
  obtain ⟨k, -, hk, hfree⟩ := freeName_suffixed s1.fs (o ++ [n]) path 100 0
  rw [hfree] at h ⊢
  have Lk := L k (by omega)
  have hab : ¬ d.client ++ [base] <+: o ++ [n] := L0.deleteme ▸ L0.apart.2.1
  have real_base : RealDir s1.fs (d.client ++ [base]) := by
    refine ⟨fun q hq => ?_, fun x hx => ?_⟩
    · rcases prefix_cases hq with rfl | hq
      · rw [same1 _ fun e => hab (e ▸ List.prefix_refl _)]; exact L0.there
      · by_cases e : q = o ++ [n]
        · rw [e]; exact dir1
        · rw [same1 q e]; exact L0.client.dirs q hq
    · rcases List.mem_append.mp hx with hx | hx
      · exact L0.client.plain x hx
      · rw [List.mem_singleton.mp hx]; exact L0.baseName
  have hu := (unlink_step (w := w) (names_real (c := bytes "timestamp") real_base (by decide +kernel)) fits1).1
  generalize unlink w s1 (d.client ++ [base] ++ [bytes "timestamp"]) = r at h hu ⊢
  obtain ⟨b, s2⟩ := r
  dsimp only at h hu ⊢
  have only2 : ∀ y, ¬ d.client ++ [base] ++ [bytes "timestamp"] <+: y → s2.fs y = s1.fs y := hu.only
  have above : ∀ y, ¬ d.client ++ [base] <+: y → s2.fs y = s1.fs y :=
    fun y hy => only2 y fun hp => hy ((List.prefix_append _ _).trans hp)
  have dir2 : s2.fs (o ++ [n]) = some .dir := (above _ hab).trans dir1
  have L2 : Layout w s2.fs d base (suffixed path k) o n := by
    refine ⟨hu.fits, ⟨fun q hq => ?_, Lk.client.plain⟩, Lk.baseName, ?_, Lk.other, Lk.deleteme,
      ⟨fun q hq => ?_, Lk.outer.plain⟩, Lk.plain, .inr (Lk.deleteme ▸ dir2), Lk.apart, Lk.targetName, Lk.named⟩
    · rw [above q fun hp => not_below_child _ _ (hp.trans hq)]
      exact real_base.dirs q (hq.trans (List.prefix_append _ _))
    · rw [only2 _ (not_below_child _ _)]; exact real_base.dirs _ (List.prefix_refl _)
    · rw [above q fun hp => hab ((hp.trans hq).trans (List.prefix_append _ _)),
        same1 q fun e => not_below_child o n (e ▸ hq)]
      exact Lk.outer.dirs q hq
  have hA := rename_aside L2 (s1 := s2) (fun _ _ => rfl) dir2 hu.fits h
  have hbelow : ∀ x, ¬ d.client ++ [base] <+: o ++ [n] ++ [suffixed path k] ++ x := by
    have := Lk.target_apart Lk.apart.2.1
    rwa [Lk.deleteme] at this
  have tne : ∀ x, o ++ [n] ++ [suffixed path k] ++ x ≠ o ++ [n] := by
    intro x e
    have := congrArg List.length e
    simp at this
  have hA4 := hA.free
  have hA5 := hA.empty
  have hA2 := hA.there
  have hA7 := hA.same
  rw [Lk.deleteme] at hA2 hA4 hA5 hA7
  refine ⟨k, by omega, fun x hx => ?_, hA.gone, fun x hx => ?_, ?_, fun y h1 h2 h3 => ?_⟩
  · rw [hA2 x, only2, same1]
    · exact fun e => hab (e ▸ List.prefix_append _ _)
    · rintro ⟨t, ht⟩
      rw [List.append_assoc] at ht
      exact hx ⟨t, List.append_cancel_left ht⟩
  · have := hA5 x hx
    rwa [above _ (hbelow x), same1 _ (tne x)] at this
  · have hb := hbelow []
    have ht := tne []
    rw [List.append_nil] at hb ht
    rwa [above _ hb, same1 _ ht] at hA4
  · rw [hA7 y h1 h2 h3, above y h1, same1 y h3]

end Verif
