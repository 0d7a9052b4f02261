import Verif.Model.Metrics
import Mathlib.Tactic.Ring
import Mathlib.Algebra.BigOperators.Field
import Mathlib.Tactic.Linarith
import Mathlib.Tactic.FieldSimp
import Mathlib.Tactic.Positivity
import Mathlib.Tactic.NormNum
import Mathlib.Tactic.FinCases
import Mathlib.Data.Fin.VecNotation

/-!
# Properties C09, C10, C11: the loss functions of `esat/metrics.py`

Spec: `residual` (data minus reconstruction, written as an explicit sum) and `huber` (square below the threshold,
linear above).
-/

namespace Esat

open Finset

/-! ## Spec -/

/-- Data minus reconstruction in cell `(i, j)`. -/
def residual {K : Type*} [Field K] {m n k : ℕ} (V : Mat m n K) (W : Mat m k K) (H : Mat k n K)
    (i : Fin m) (j : Fin n) : K := V i j - ∑ a, W i a * H a j

/-- Huber-type cell loss: `s²` up to the threshold, `α s` beyond. -/
noncomputable def huber (α s : ℝ) : ℝ := if s ≤ α then s ^ 2 else α * s

section
variable {K : Type*} [Field K] [LinearOrder K] [IsStrictOrderedRing K] {m n k : ℕ}

/-! ## C09 -/

/-- **C09.** `q_loss` is the sum of squared uncertainty-scaled residuals. -/
theorem C09_formula (V U : Mat m n K) (W : Mat m k K) (H : Mat k n K) :
    qLoss V U W H = ∑ i, ∑ j, (residual V W H i j / U i j) ^ 2 := by
  simp only [qLoss, if_true, residual, mmul, pow_two]

/-- **C09.** `q_loss(..., uncertainty=False)` is the plain sum of squared residuals. -/
theorem C09_formula_unweighted (V U : Mat m n K) (W : Mat m k K) (H : Mat k n K) :
    qLoss V U W H false = ∑ i, ∑ j, residual V W H i j ^ 2 := by
  simp [qLoss, residual, mmul, pow_two]

/-- **C09.** `calculate_Q` of the residual matrix is `q_loss`. -/
theorem C09_calculate_Q_agrees (V U : Mat m n K) (W : Mat m k K) (H : Mat k n K) :
    calculateQ (fun i j => residual V W H i j) U = qLoss V U W H := by
  rw [C09_formula]; rfl

/-- **C09.** Q(true) is non-negative. -/
theorem C09_nonneg (V U : Mat m n K) (W : Mat m k K) (H : Mat k n K) : 0 ≤ qLoss V U W H := by
  rw [C09_formula]
  exact sum_nonneg fun i _ => sum_nonneg fun j _ => sq_nonneg _

/-- **C09.** Q(true) is zero exactly for a perfect reconstruction. -/
theorem C09_zero_iff (V U : Mat m n K) (hU : ∀ i j, U i j ≠ 0) (W : Mat m k K) (H : Mat k n K) :
    qLoss V U W H = 0 ↔ ∀ i j, V i j = ∑ a, W i a * H a j := by
  rw [C09_formula]
  constructor
  · intro h i j
    have h1 := (sum_eq_zero_iff_of_nonneg (fun i _ => sum_nonneg fun j _ => sq_nonneg _)).1 h i (mem_univ _)
    have h2 := (sum_eq_zero_iff_of_nonneg (fun j _ => sq_nonneg _)).1 h1 j (mem_univ _)
    have h3 := pow_eq_zero_iff two_ne_zero |>.1 h2
    rcases div_eq_zero_iff.1 h3 with h4 | h4
    · exact sub_eq_zero.1 h4
    · exact absurd h4 (hU i j)
  · intro h
    refine sum_eq_zero fun i _ => sum_eq_zero fun j _ => ?_
    rw [residual, h i j, sub_self, zero_div]; ring

/-- **C09.** The sign of the uncertainties is irrelevant, cell by cell. -/
theorem C09_sign_of_uncertainty (V U U' : Mat m n K) (h : ∀ i j, U' i j = U i j ∨ U' i j = - U i j)
    (W : Mat m k K) (H : Mat k n K) : qLoss V U' W H = qLoss V U W H := by
  simp only [C09_formula]
  refine sum_congr rfl fun i _ => sum_congr rfl fun j _ => ?_
  rcases h i j with h | h <;> rw [h]
  rw [div_neg, neg_sq]

/-- **C09.** A change of unit (data, uncertainty and contributions multiplied by `c ≠ 0`) does not change Q(true). -/
theorem C09_unit_invariance (c : K) (hc : c ≠ 0) (V U : Mat m n K) (W : Mat m k K) (H : Mat k n K) :
    qLoss (fun i j => c * V i j) (fun i j => c * U i j) (fun i a => c * W i a) H = qLoss V U W H := by
  simp only [C09_formula]
  refine sum_congr rfl fun i _ => sum_congr rfl fun j _ => ?_
  have : residual (fun i j => c * V i j) (fun i a => c * W i a) H i j = c * residual V W H i j := by
    simp only [residual, mul_sub, mul_sum]
    congr 1
    exact sum_congr rfl fun a _ => by ring
  rw [this, mul_div_mul_left _ _ hc]

/-- **C09.** Larger uncertainties (in absolute value) never give a larger Q(true). -/
theorem C09_antitone_in_uncertainty (V U U' : Mat m n K) (hU : ∀ i j, 0 < U i j) (h : ∀ i j, U i j ≤ U' i j)
    (W : Mat m k K) (H : Mat k n K) : qLoss V U' W H ≤ qLoss V U W H := by
  simp only [C09_formula]
  refine sum_le_sum fun i _ => sum_le_sum fun j _ => ?_
  rw [div_pow, div_pow]
  exact div_le_div_of_nonneg_left (sq_nonneg _) (pow_pos (hU i j) 2)
    (pow_le_pow_left₀ (hU i j).le (h i j) 2)

/-- Non-vacuity of C09: nonzero uncertainties of both signs, imperfect and perfect reconstructions. -/
example : qLoss (K := ℚ) ![![1, 2]] ![![1, -2]] ![![1]] ![![1, 4]] = 1 := by decide +kernel
example : qLoss (K := ℚ) ![![1, 4]] ![![1, -2]] ![![1]] ![![1, 4]] = 0 :=
  (C09_zero_iff _ _ (by intro i j; fin_cases i; fin_cases j <;> simp) _ _).2
    (by intro i j; fin_cases i; fin_cases j <;> simp)

/-! ## C11 -/

/-- **C11.** For a model whose reconstruction is positive everywhere the (unrounded) per-factor contributions of `q_factor`
add up to Q(true). -/
theorem C11_sum (V U : Mat m n K) (W : Mat m k K) (H : Mat k n K) (hpos : ∀ i j, 0 < ∑ a, W i a * H a j) :
    ∑ f, qFactor V U W H f = ∑ i, ∑ j, (residual V W H i j / U i j) ^ 2 := by
  have hf : floorPos (W ⬝ H) = fun i j => ∑ a, W i a * H a j := by
    funext i j
    exact if_neg (not_le.2 (hpos i j))
  simp only [qFactor, hf]
  rw [sum_comm]
  refine sum_congr rfl fun i _ => ?_
  rw [sum_comm]
  refine sum_congr rfl fun j _ => ?_
  rw [← mul_sum, ← Finset.sum_div, div_self (hpos i j).ne', mul_one]
  rfl

/-- **C11.** Each contribution is non-negative when the factors are. -/
theorem C11_nonneg (V U : Mat m n K) (W : Mat m k K) (H : Mat k n K)
    (hW : ∀ i a, 0 ≤ W i a) (hH : ∀ a j, 0 ≤ H a j) (f : Fin k) : 0 ≤ qFactor V U W H f := by
  refine sum_nonneg fun i _ => sum_nonneg fun j _ => ?_
  refine mul_nonneg (sq_nonneg _) (div_nonneg (mul_nonneg (hW i f) (hH f j)) ?_)
  simp only [floorPos]
  split
  · positivity
  · exact (lt_of_not_ge ‹_›).le

/-- **C11 (as returned).** With the rounding of the code (any rounding with error at most `ε` per entry; `np.round(·, 4)`
has `ε = 5·10⁻⁵`) the reported contributions add up to Q(true) up to `k·ε`. -/
theorem C11_rounded_sum (round4 : K → K) (ε : K) (hr : ∀ x, |round4 x - x| ≤ ε)
    (V U : Mat m n K) (W : Mat m k K) (H : Mat k n K) (hpos : ∀ i j, 0 < ∑ a, W i a * H a j) :
    |∑ f, qFactorRounded round4 V U W H f - qLoss V U W H| ≤ k * ε := by
  rw [C09_formula, ← C11_sum V U W H hpos, ← sum_sub_distrib]
  refine (abs_sum_le_sum_abs _ _).trans ?_
  calc ∑ f, |qFactorRounded round4 V U W H f - qFactor V U W H f| ≤ ∑ _f : Fin k, ε :=
        sum_le_sum fun f _ => hr _
    _ = k * ε := by simp

/-- Non-vacuity of C11. -/
example : ∑ f, qFactor (K := ℚ) ![![1, 2]] ![![1, 2]] ![![1, 1]] ![![1, 1], ![2, 1]] f
    = ∑ i, ∑ j, (residual (K := ℚ) ![![1, 2]] ![![1, 1]] ![![1, 1], ![2, 1]] i j / (![![1, 2]] : Mat 1 2 ℚ) i j) ^ 2 :=
  C11_sum _ _ _ _ (by intro i j; fin_cases i; fin_cases j <;> simp [Fin.sum_univ_two] <;> norm_num)

end

/-! ## C10 -/

section
variable {m n k : ℕ}

theorem sub_mmul_eq_residual (V : Mat m n ℝ) (W : Mat m k ℝ) (H : Mat k n ℝ) (i j) :
    V i j - (W ⬝ H) i j = residual V W H i j := by
  simp only [residual, mmul]

theorem robust_cell (α r u : ℝ) (hα : 0 < α) (hu : 0 < u) :
    let s := |r / u|
    let ru0 := Real.sqrt (s / α) * u
    let ru := if ru0 ≤ 0 then 1 / 10 ^ 12 else ru0
    s > α → ru = ru0 ∧ 0 < ru ∧ |r / ru| = Real.sqrt (α * s) ∧ |r / ru| > α := by
  intro s ru0 ru hs
  have hs0 : 0 < s := hα.trans hs
  have hq : 0 < Real.sqrt (s / α) := Real.sqrt_pos.2 (div_pos hs0 hα)
  have hru0 : 0 < ru0 := mul_pos hq hu
  have hru : ru = ru0 := if_neg (not_le.2 hru0)
  have h3 : |r / ru| = Real.sqrt (α * s) := by
    rw [hru, abs_div, abs_of_pos hru0]
    have e1 : |r| = s * u := by
      simp only [s, abs_div, abs_of_pos hu]; field_simp
    have e2 : Real.sqrt (α * s) = α * Real.sqrt (s / α) := by
      rw [show α * s = α ^ 2 * (s / α) by field_simp, Real.sqrt_mul (sq_nonneg α), Real.sqrt_sq hα.le]
    have e3 : Real.sqrt (s / α) * Real.sqrt (s / α) = s / α := Real.mul_self_sqrt (div_pos hs0 hα).le
    rw [e1, e2]
    simp only [ru0]
    rw [div_eq_iff (mul_pos hq hu).ne']
    have : α * Real.sqrt (s / α) * (Real.sqrt (s / α) * u) = α * (Real.sqrt (s / α) * Real.sqrt (s / α)) * u := by ring
    rw [this, e3]; field_simp
  refine ⟨hru, by rw [hru]; exact hru0, h3, ?_⟩
  rw [h3]
  refine Real.lt_sqrt_of_sq_lt ?_
  rw [pow_two]; exact mul_lt_mul_of_pos_left hs hα

/-- **C10.** `qr_loss` is the Huber-type loss of the absolute scaled residuals. -/
theorem C10_is_huber (V U : Mat m n ℝ) (W : Mat m k ℝ) (H : Mat k n ℝ) (α : ℝ) (hα : 0 < α)
    (hU : ∀ i j, 0 < U i j) :
    (qrLoss V U W H α).1 = ∑ i, ∑ j, huber α |residual V W H i j / U i j| := by
  simp only [qrLoss]
  refine sum_congr rfl fun i _ => sum_congr rfl fun j _ => ?_
  have h := robust_cell α (residual V W H i j) (U i j) hα (hU i j)
  simp only [sub_mmul_eq_residual, huber]
  by_cases hs : |residual V W H i j / U i j| > α
  · obtain ⟨h1, h2, h3, h4⟩ := h hs
    rw [if_pos hs, if_neg (not_le.2 hs), h3, Real.sq_sqrt]
    exact mul_nonneg hα.le (abs_nonneg _)
  · rw [if_neg hs, if_pos (not_lt.1 hs)]

theorem huber_le_sq {α s : ℝ} (hs : 0 ≤ s) : huber α s ≤ s ^ 2 := by
  unfold huber; split
  · exact le_rfl
  · rename_i h; nlinarith [not_le.1 h]

/-- **C10.** Q(robust) ≤ Q(true). -/
theorem C10_le_true (V U : Mat m n ℝ) (W : Mat m k ℝ) (H : Mat k n ℝ) (α : ℝ) (hα : 0 < α)
    (hU : ∀ i j, 0 < U i j) : (qrLoss V U W H α).1 ≤ qLoss V U W H := by
  rw [C10_is_huber V U W H α hα hU, C09_formula]
  refine sum_le_sum fun i _ => sum_le_sum fun j _ => ?_
  rw [← sq_abs (residual V W H i j / U i j)]
  exact huber_le_sq (abs_nonneg _)

/-- **C10.** Equality holds exactly when no absolute scaled residual exceeds the threshold. -/
theorem C10_eq_true_iff (V U : Mat m n ℝ) (W : Mat m k ℝ) (H : Mat k n ℝ) (α : ℝ) (hα : 0 < α)
    (hU : ∀ i j, 0 < U i j) :
    (qrLoss V U W H α).1 = qLoss V U W H ↔ ∀ i j, |residual V W H i j / U i j| ≤ α := by
  rw [C10_is_huber V U W H α hα hU, C09_formula]
  have hle : ∀ i j, huber α |residual V W H i j / U i j| ≤ (residual V W H i j / U i j) ^ 2 := fun i j => by
    rw [← sq_abs (residual V W H i j / U i j)]; exact huber_le_sq (abs_nonneg _)
  constructor
  · intro h i j
    have h1 := (sum_eq_sum_iff_of_le (fun i _ => sum_le_sum fun j _ => hle i j)).1 h i (mem_univ _)
    have h2 := (sum_eq_sum_iff_of_le (fun j _ => hle i j)).1 h1 j (mem_univ _)
    rw [← sq_abs (residual V W H i j / U i j)] at h2
    by_contra hc
    rw [huber, if_neg hc] at h2
    have := not_le.1 hc
    nlinarith
  · intro h
    refine sum_congr rfl fun i _ => sum_congr rfl fun j _ => ?_
    rw [huber, if_pos (h i j), sq_abs]

/-- **C10.** Q(robust) is monotone in the threshold. -/
theorem C10_mono_alpha (V U : Mat m n ℝ) (W : Mat m k ℝ) (H : Mat k n ℝ) (α β : ℝ) (hα : 0 < α) (hαβ : α ≤ β)
    (hU : ∀ i j, 0 < U i j) : (qrLoss V U W H α).1 ≤ (qrLoss V U W H β).1 := by
  rw [C10_is_huber V U W H α hα hU, C10_is_huber V U W H β (hα.trans_le hαβ) hU]
  refine sum_le_sum fun i _ => sum_le_sum fun j _ => ?_
  have hs := abs_nonneg (residual V W H i j / U i j)
  unfold huber
  split <;> split
  · exact le_rfl
  · rename_i h1 h2; exact absurd (h1.trans hαβ) h2
  · rename_i h1 h2; have := not_le.1 h1; nlinarith
  · nlinarith

/-- **C10.** The returned uncertainty equals `U` wherever the scaled residual is within the threshold and is strictly
larger exactly at the outlying cells. -/
theorem C10_updated_uncertainty (V U : Mat m n ℝ) (W : Mat m k ℝ) (H : Mat k n ℝ) (α : ℝ) (hα : 0 < α)
    (hU : ∀ i j, 0 < U i j) (i : Fin m) (j : Fin n) :
    (|residual V W H i j / U i j| ≤ α → (qrLoss V U W H α).2 i j = U i j) ∧
    (α < |residual V W H i j / U i j| → U i j < (qrLoss V U W H α).2 i j) := by
  have h := robust_cell α (residual V W H i j) (U i j) hα (hU i j)
  simp only [qrLoss, sub_mmul_eq_residual]
  constructor
  · intro hs
    rw [if_neg]
    rw [if_neg (not_lt.2 hs)]; exact not_lt.2 hs
  · intro hs
    obtain ⟨h1, h2, h3, h4⟩ := h hs
    rw [if_pos (by rw [if_pos hs]; exact h4), h1]
    have : 1 < Real.sqrt (|residual V W H i j / U i j| / α) := by
      refine Real.lt_sqrt_of_sq_lt ?_
      rw [one_pow]; exact (one_lt_div hα).2 hs
    nlinarith [hU i j]

/-- **C10.** Re-evaluating Q(true) with the returned uncertainty gives Q(robust). -/
theorem C10_reweighting (V U : Mat m n ℝ) (W : Mat m k ℝ) (H : Mat k n ℝ) (α : ℝ) (hα : 0 < α)
    (hU : ∀ i j, 0 < U i j) :
    qLoss V (qrLoss V U W H α).2 W H = (qrLoss V U W H α).1 := by
  rw [C10_is_huber V U W H α hα hU, C09_formula]
  refine sum_congr rfl fun i _ => sum_congr rfl fun j _ => ?_
  have h := robust_cell α (residual V W H i j) (U i j) hα (hU i j)
  by_cases hs : |residual V W H i j / U i j| ≤ α
  · rw [((C10_updated_uncertainty V U W H α hα hU i j).1 hs), huber, if_pos hs, sq_abs]
  · obtain ⟨h1, h2, h3, h4⟩ := h (not_le.1 hs)
    rw [huber, if_neg hs]
    have e : (qrLoss V U W H α).2 i j = Real.sqrt (|residual V W H i j / U i j| / α) * U i j := by
      simp only [qrLoss, sub_mmul_eq_residual]
      rw [if_pos (by rw [if_pos (not_le.1 hs)]; exact h4), h1]
    have h5 : |residual V W H i j / (qrLoss V U W H α).2 i j| ^ 2 = α * |residual V W H i j / U i j| := by
      rw [e, ← h1, h3, Real.sq_sqrt (mul_nonneg hα.le (abs_nonneg _))]
    rw [← sq_abs, h5]

/-- **C10.** The compiled robust loss equals the Python one. -/
theorem C10_compiled_agrees (V U : Mat m n ℝ) (W : Mat m k ℝ) (H : Mat k n ℝ) (α : ℝ) (hα : 0 < α)
    (hU : ∀ i j, 0 < U i j) : qRobustRust V U W H α = (qrLoss V U W H α).1 := by
  simp only [qRobustRust, qrLoss, matrixMerge]
  refine sum_congr rfl fun i _ => sum_congr rfl fun j _ => ?_
  have h := robust_cell α (V i j - (W ⬝ H) i j) (U i j) hα (hU i j)
  by_cases hs : |(V i j - (W ⬝ H) i j) / U i j| > α
  · obtain ⟨h1, -⟩ := h hs
    simp only [if_pos hs]
    rw [h1, pow_two]
  · simp only [if_neg hs]; rw [pow_two]

/-- Non-vacuity of C10: one cell with scaled residual 10 > α = 4 and one with 1 ≤ 4; the hypotheses hold and the robust
loss differs from the true one. -/
example : (qrLoss (k := 1) ![![11, 2]] ![![1, 1]] ![![1]] ![![1, 1]] 4).1 = 41 := by
  rw [C10_is_huber _ _ _ _ 4 (by norm_num) (by intro i j; fin_cases i; fin_cases j <;> simp)]
  simp [residual, huber, Fin.sum_univ_two]
  norm_num [abs_of_pos]

end

/-! ### The theorems applied to concrete numbers -/

/-- Case for `C09_sign_of_uncertainty`: one of two uncertainties negated. -/
example : qLoss (K := ℚ) ![![1, 2]] ![![1, -2]] ![![1]] ![![1, 4]] = qLoss ![![1, 2]] ![![1, 2]] ![![1]] ![![1, 4]] :=
  C09_sign_of_uncertainty _ _ _ (by intro i j; fin_cases i; fin_cases j <;> simp) _ _

/-- Case for `C09_unit_invariance`: micrograms to nanograms. -/
example : qLoss (K := ℚ) (fun i j => 1000 * ![![1, 2]] i j) (fun i j => 1000 * ![![1, 2]] i j) (fun i a => 1000 * ![![1]] i a)
      ![![1, 4]] = 1 := by
  rw [C09_unit_invariance (m := 1) (n := 2) (k := 1) (1000 : ℚ) (by norm_num)]; decide +kernel

/-- Case for `C11_nonneg`. -/
example (f : Fin 2) : 0 ≤ qFactor (K := ℚ) ![![1, 2]] ![![1, 2]] ![![1, 1]] ![![1, 1], ![2, 1]] f :=
  C11_nonneg _ _ _ _ (by intro i a; fin_cases i; fin_cases a <;> simp) (by intro a j; fin_cases a <;> fin_cases j <;> simp) f

/-- Case for `C10_le_true`, `C10_mono_alpha`, `C10_eq_true_iff`, `C10_reweighting`: the residuals are 10 and 1, both with
uncertainty 1, so the robust loss with threshold 4 is below the true loss and the one with threshold 20 equals it. -/
example :
    (qrLoss (k := 1) ![![11, 2]] ![![1, 1]] ![![1]] ![![1, 1]] 4).1 ≤ qLoss (K := ℝ) ![![11, 2]] ![![1, 1]] ![![1]] ![![1, 1]] ∧
    (qrLoss (k := 1) ![![11, 2]] ![![1, 1]] ![![1]] ![![1, 1]] 4).1 ≤ (qrLoss (k := 1) ![![11, 2]] ![![1, 1]] ![![1]] ![![1, 1]] 20).1 ∧
    (qrLoss (k := 1) ![![11, 2]] ![![1, 1]] ![![1]] ![![1, 1]] 20).1 = qLoss ![![11, 2]] ![![1, 1]] ![![1]] ![![1, 1]] ∧
    (qrLoss (k := 1) ![![11, 2]] ![![1, 1]] ![![1]] ![![1, 1]] 4).1 ≠ qLoss ![![11, 2]] ![![1, 1]] ![![1]] ![![1, 1]] ∧
    qLoss ![![11, 2]] (qrLoss (k := 1) ![![11, 2]] ![![1, 1]] ![![1]] ![![1, 1]] 4).2 ![![1]] ![![1, 1]]
      = (qrLoss (k := 1) ![![11, 2]] ![![1, 1]] ![![1]] ![![1, 1]] 4).1 := by
  have hU : ∀ (i : Fin 1) (j : Fin 2), 0 < (![![1, 1]] : Mat 1 2 ℝ) i j := by
    intro i j; fin_cases i; fin_cases j <;> simp
  refine ⟨C10_le_true _ _ _ _ 4 (by norm_num) hU, C10_mono_alpha _ _ _ _ 4 20 (by norm_num) (by norm_num) hU,
    (C10_eq_true_iff _ _ _ _ 20 (by norm_num) hU).2 ?_, fun h => ?_, C10_reweighting _ _ _ _ 4 (by norm_num) hU⟩
  · intro i j
    fin_cases i; fin_cases j <;> simp [residual] <;> norm_num [abs_of_pos]
  · have := (C10_eq_true_iff _ _ _ _ 4 (by norm_num) hU).1 h 0 0
    simp [residual] at this
    norm_num [abs_of_pos] at this

end Esat
