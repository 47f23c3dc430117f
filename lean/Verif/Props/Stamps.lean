import Verif.Spec.Stamps

/-!
# C128: the time of a backup is read as it was written
-/

namespace Verif
open Stamps

/-- **C128, in part.** The time that is read is the one that was written, if clocks show that time at no other moment. -/
theorem C128_read_partial (hasZ : Bool) (z : Zone) (mk : Int → Int) (hm : IsMktime z mk) (t : Int)
    (h1 : ∀ u, u + z u = t + z t → u = t) : toLong mk (write hasZ z t) = t :=
  h1 _ (hm t)

/-- **C128.** So it is always, in a zone in which clocks are never changed. -/
theorem C128_fixed (hasZ : Bool) (off : Int) (mk : Int → Int) (hm : IsMktime (fun _ => off) mk) (t : Int) :
    toLong mk (write hasZ (fun _ => off) t) = t :=
  C128_read_partial hasZ _ mk hm t (fun u h => by omega)

/-- **C128.** What is written is different for different moments, if the system has `%z`. -/
theorem C128_distinct (z : Zone) (t u : Int) (h : write true z t = write true z u) : t = u := by
  unfold write at h
  simp only [if_true, Stamp.mk.injEq, Option.some.injEq] at h
  omega

/-- C128 fails in the hour that comes twice in autumn, whichever of the two moments `mktime` takes: one of the two is read
as the other, although what was written says which it was. -/
theorem C128_autumn_violated (mk : Int → Int) : ∃ t u : Int, write true autumn t ≠ write true autumn u
    ∧ (toLong mk (write true autumn t) ≠ t ∨ toLong mk (write true autumn u) ≠ u) := by
  refine ⟨999000, 1002600, by decide, ?_⟩
  have e : (write true autumn 999000).shown = (write true autumn 1002600).shown := by decide
  unfold toLong
  rw [e]
  by_cases h : mk (write true autumn 1002600).shown = 1002600
  · left; omega
  · right; exact h

/-- C128 fails if the server's time zone has been changed since: what is read is wrong by the difference. -/
theorem C128_zone_violated (a b : Int) (hab : a ≠ b) (mk : Int → Int) (hm : IsMktime (fun _ => b) mk) (t : Int) :
    toLong mk (write true (fun _ => a) t) = t + (a - b) ∧ toLong mk (write true (fun _ => a) t) ≠ t := by
  have h := hm (t + a - b)
  have e : t + a - b + b = t + a := by omega
  simp only [e] at h
  have h2 : toLong mk (write true (fun _ => a) t) = mk (t + a) := rfl
  rw [h2]
  omega

/-- **C128.** What is read is never wrong by more than clocks are ever changed. -/
theorem C128_bound (hasZ : Bool) (z : Zone) (mk : Int → Int) (hm : IsMktime z mk) (lo hi : Int)
    (hz : ∀ t, lo ≤ z t ∧ z t ≤ hi) (t : Int) :
    toLong mk (write hasZ z t) - t ≤ hi - lo ∧ t - toLong mk (write hasZ z t) ≤ hi - lo := by
  have h := hm t
  have h1 := hz t
  have h2 := hz (mk (t + z t))
  have e : toLong mk (write hasZ z t) = mk (t + z t) := rfl
  rw [e]
  omega

/-- **C128.** So a client that is to be backed up at intervals is not backed up earlier than the interval after the last
time, nor refused later than that, but for what clocks are ever changed by; and exactly so if they are not. -/
theorem C128_interval (hasZ : Bool) (z : Zone) (mk : Int → Int) (hm : IsMktime z mk) (lo hi : Int)
    (hz : ∀ t, lo ≤ z t ∧ z t ≤ hi) (t seconds now : Int) :
    (due mk (write hasZ z t) seconds now = true → t + seconds - (hi - lo) < now)
    ∧ (t + seconds + (hi - lo) < now → due mk (write hasZ z t) seconds now = true) := by
  have h := C128_bound hasZ z mk hm lo hi hz t
  unfold due
  rw [decide_eq_true_iff]
  constructor <;> intro h2 <;> omega

/-- There is such a `mktime` for the zone with an autumn; the times that clocks show but once are read as they were
written. -/
example : ∃ mk, IsMktime autumn mk ∧ toLong mk (write true autumn 5) = 5 ∧ (∀ t, 3600 ≤ autumn t ∧ autumn t ≤ 7200) := by
  refine ⟨fun l => if l - 7200 < 1000000 then l - 7200 else l - 3600, ?_, by decide, ?_⟩
  · have au : ∀ t, autumn t = if t < 1000000 then 7200 else 3600 := fun _ => rfl
    have key : ∀ l : Int, (if l - 7200 < 1000000 then l - 7200 else l - 3600)
        + autumn (if l - 7200 < 1000000 then l - 7200 else l - 3600) = l := by
      intro l
      by_cases h : l - 7200 < 1000000
      · rw [if_pos h, au, if_pos h]; omega
      · rw [if_neg h, au, if_neg (by omega)]; omega
    exact fun t => key (t + autumn t)
  · intro t
    simp only [autumn]
    split <;> omega

end Verif
