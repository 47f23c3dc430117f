import Verif.Model.Quota

/-!
# C34: quotas
-/

namespace Verif
open Verif.Quota

/-- The size of a scan, added up without any limit. -/
def scanSize (scan : List (Cmd × Int)) : Int :=
  ((scan.filter (fun e => e.1.isEstimatable)).map (fun e => e.2)).sum

theorem estimate_aux (scan : List (Cmd × Int)) (h : ∀ e ∈ scan, 0 ≤ e.2) : ∀ n : Nat,
    ((scan.foldl (fun n e => if e.1.isEstimatable then (n + (e.2 % 2 ^ 64).toNat) % 2 ^ 64 else n) n : Nat) : Int)
      % 2 ^ 64 = ((n : Int) + scanSize scan) % 2 ^ 64 ∧
    (n < 2 ^ 64 → scan.foldl (fun n e => if e.1.isEstimatable then (n + (e.2 % 2 ^ 64).toNat) % 2 ^ 64 else n) n
      < 2 ^ 64) := by
  induction scan with
  | nil => intro n; simp [scanSize]
  | cons e scan ih =>
    intro n
    have ih := ih (fun x hx => h x (by simp [hx]))
    rw [List.foldl_cons]
    obtain ⟨h1, h2⟩ := ih (if e.1.isEstimatable then (n + (e.2 % 2 ^ 64).toNat) % 2 ^ 64 else n)
    refine ⟨?_, ?_⟩
    · rw [h1]
      by_cases he : e.1.isEstimatable
      · have hs : scanSize (e :: scan) = e.2 + scanSize scan := by simp [scanSize, he]
        rw [hs, if_pos he]
        have := h e (by simp)
        omega
      · have hs : scanSize (e :: scan) = scanSize scan := by simp [scanSize, he]
        rw [hs, if_neg he]
    · intro hn
      apply h2
      split
      · exact Nat.mod_lt _ (by decide)
      · exact hn

/-- C34: a backup is refused exactly when there is a hard quota and the files that count are larger
together; otherwise, the client is warned exactly when there is a soft quota and they are larger than
that. A quota of 0 is none. The sum has to be below 2^64 bytes. -/
theorem C34_quota (scan : List (Cmd × Int)) (hard soft : Nat) (h : ∀ e ∈ scan, 0 ≤ e.2)
    (hs : scanSize scan < 2 ^ 64) :
    (checkQuota (estimate scan) hard soft = .refused ↔ 0 < hard ∧ (hard : Int) < scanSize scan) ∧
    (checkQuota (estimate scan) hard soft = .warned ↔
      ¬ (0 < hard ∧ (hard : Int) < scanSize scan) ∧ 0 < soft ∧ (soft : Int) < scanSize scan) := by
  have e : (estimate scan : Int) = scanSize scan := by
    unfold estimate
    have hp : 0 ≤ scanSize scan := by
      clear hs
      unfold scanSize
      induction scan with
      | nil => simp
      | cons e scan ih =>
        have ih := ih (fun x hx => h x (by simp [hx]))
        by_cases he : e.1.isEstimatable
        · simp only [List.filter_cons, he, if_true, List.map_cons, List.sum_cons]
          have := h e (by simp)
          omega
        · simpa [List.filter_cons, he] using ih
    obtain ⟨h1, h2⟩ := estimate_aux scan h 0
    have h2 := h2 (by decide)
    omega
  unfold checkQuota
  constructor
  · split
    · simp; omega
    · split <;> simp <;> omega
  · split
    · simp; omega
    · split <;> simp <;> omega

/-- The hypothesis on the sum matters: the estimate is kept in 64 bits. -/
example : checkQuota (estimate [(.file, 2 ^ 63 - 1), (.file, 2 ^ 63 - 1), (.file, 2)]) 1000 0 = .fine := by
  decide

example : checkQuota (estimate [(.file, 600), (.directory, 4096), (.file, 500)]) 1000 0 = .refused ∧
    checkQuota (estimate [(.file, 600), (.directory, 4096), (.file, 400)]) 1000 900 = .warned ∧
    scanSize [(.file, 600), (.directory, 4096), (.file, 500)] = 1100 := by decide

end Verif
