import Verif.Model.Correlation
import Mathlib.Algebra.BigOperators.Ring.Finset
import Mathlib.Tactic.Ring
import Mathlib.Tactic.FieldSimp
import Mathlib.Tactic.LinearCombination
import Mathlib.Tactic.Positivity

/-!
# Facts about the squared correlation
-/

namespace Esat

variable {K : Type*} [Field K] [LinearOrder K] [IsStrictOrderedRing K] {n : ℕ}

theorem vmean_smul (c : K) (x : Fin n → K) : vmean (fun i => c * x i) = c * vmean x := by
  simp only [vmean, ← Finset.mul_sum, mul_div_assoc]

theorem scov_smul_left (c : K) (x y : Fin n → K) : scov (fun i => c * x i) y = c * scov x y := by
  simp only [scov, vmean_smul, Finset.mul_sum]
  exact Finset.sum_congr rfl fun i _ => by ring

theorem scov_comm (x y : Fin n → K) : scov x y = scov y x :=
  Finset.sum_congr rfl fun _ _ => mul_comm _ _

theorem scov_smul_right (c : K) (x y : Fin n → K) : scov x (fun i => c * y i) = c * scov x y := by
  rw [scov_comm, scov_smul_left, scov_comm]

theorem scov_self_nonneg (x : Fin n → K) : 0 ≤ scov x x :=
  Finset.sum_nonneg fun _ _ => mul_self_nonneg _

/-- The squared correlation is symmetric. -/
theorem r2_comm (x y : Fin n → K) : r2 x y = r2 y x := by
  simp only [r2, scov_comm x y, or_comm, mul_comm]

/-- It does not change when one vector is scaled. -/
theorem r2_smul_left (c : K) (hc : c ≠ 0) (x y : Fin n → K) : r2 (fun i => c * x i) y = r2 x y := by
  simp only [r2, scov_smul_left, scov_smul_right]
  have h : c * (c * scov x x) = 0 ↔ scov x x = 0 := by simp [hc]
  simp only [h]
  split
  · rfl
  · rename_i h0
    push Not at h0
    obtain ⟨h1, h2⟩ := h0
    congr 1
    field_simp

theorem r2_smul_right (c : K) (hc : c ≠ 0) (x y : Fin n → K) : r2 x (fun i => c * y i) = r2 x y := by
  rw [r2_comm, r2_smul_left c hc, r2_comm]

/-- The squared correlation lies between 0 and 1. -/
theorem r2_bounds (x y : Fin n → K) (r : K) (h : r2 x y = some r) : 0 ≤ r ∧ r ≤ 1 := by
  unfold r2 at h
  split at h
  · simp at h
  · rename_i h0
    push Not at h0
    have hx := lt_of_le_of_ne (scov_self_nonneg x) (Ne.symm h0.1)
    have hy := lt_of_le_of_ne (scov_self_nonneg y) (Ne.symm h0.2)
    have hxy := mul_pos hx hy
    have cs : scov x y ^ 2 ≤ scov x x * scov y y := by
      have := Finset.sum_mul_sq_le_sq_mul_sq Finset.univ (fun i => x i - vmean x) (fun i => y i - vmean y)
      simpa [scov, pow_two] using this
    simp only [Option.some.injEq] at h
    subst h
    exact ⟨div_nonneg (sq_nonneg _) hxy.le, (div_le_one hxy).2 cs⟩

/-- A vector that is not constant correlates perfectly with itself. -/
theorem r2_self (x : Fin n → K) (h : scov x x ≠ 0) : r2 x x = some 1 := by
  simp only [r2, h, or_self, if_false]
  congr 1
  field_simp

end Esat
