import Verif.Model.Gpu
import Verif.Props.Metrics

/-!
# Property C203: the robust loss on the GPU
-/

namespace Esat

section values
variable {m n k : ℕ}

/-- The GPU formula in closed form, independent of the intermediate matrices: the square of the scaled residual below `alpha`, `alpha` times its
absolute value from there on. -/
theorem C203_value (V U : Mat m n ℝ) (W : Mat m k ℝ) (H : Mat k n ℝ) (α : ℝ) (hα : 0 < α) (hU : ∀ i j, 0 < U i j) :
    qRobustGpu V U W H α = ∑ i, ∑ j, (if |(V i j - ∑ a, W i a * H a j) / U i j| < α then ((V i j - ∑ a, W i a * H a j) / U i j) ^ 2
      else α * |(V i j - ∑ a, W i a * H a j) / U i j|) := by
  simp only [qRobustGpu]
  refine Finset.sum_congr rfl fun i _ => Finset.sum_congr rfl fun j _ => ?_
  have e : (W ⬝ H) i j = ∑ a, W i a * H a j := rfl
  rw [e]
  generalize V i j - ∑ a, W i a * H a j = r
  have hu := hU i j
  generalize U i j = u at hu
  by_cases h : |r / u| < α
  · rw [if_pos h, if_pos h, ← sq, sq_abs]
  · rw [if_neg h, if_neg h]
    have hs : 0 < |r / u| := lt_of_lt_of_le hα (not_lt.1 h)
    have h1 : |r / (Real.sqrt (|r / u| / α) * u)| = |r / u| / Real.sqrt (|r / u| / α) := by
      rw [mul_comm, ← div_div, abs_div, abs_of_nonneg (Real.sqrt_nonneg _)]
    rw [h1, div_mul_div_comm, Real.mul_self_sqrt (by positivity)]
    field_simp

/-- Robust loss on the CPU and on the GPU are the same number for a positive `alpha`: the strict comparisons in opposite directions only differ at
`alpha`, where both branches give the same value. -/
theorem C203_same (V U : Mat m n ℝ) (W : Mat m k ℝ) (H : Mat k n ℝ) (α : ℝ) (hα : 0 < α) (hU : ∀ i j, 0 < U i j) :
    qRobustGpu V U W H α = qRobustRust V U W H α := by
  simp only [qRobustGpu, qRobustRust, matrixMerge]
  refine Finset.sum_congr rfl fun i _ => Finset.sum_congr rfl fun j _ => ?_
  generalize V i j - (W ⬝ H) i j = r
  have hu := hU i j
  generalize U i j = u at hu
  rcases lt_trichotomy (|r / u|) α with h | h | h
  · rw [if_pos h, if_neg (not_lt.2 h.le)]
  · rw [if_neg (not_lt.2 h.ge), if_neg (not_lt.2 h.le)]
    rw [h, div_self hα.ne', Real.sqrt_one, one_mul, h]
  · rw [if_neg (not_lt.2 h.le), if_pos h]

/-- A residual of exactly `alpha` (2) and one of twice it (4): 2² + 2·4. -/
example : qRobustGpu (m := 1) (n := 2) (k := 1) (fun _ j => 3 + 2 * (j.1 : ℝ)) (fun _ _ => 1) (fun _ _ => 1) (fun _ _ => 1) 2 = 12 := by
  rw [C203_value _ _ _ _ _ (by norm_num) (by norm_num)]
  norm_num [Fin.sum_univ_two]

end values

/-- **Disagreement.** Whatever the factors are, the robust loss of a data matrix raises an error on the GPU: the tensor holding `alpha` has another
shape than the residuals. -/
theorem C203_shapes (dtypeCheck : Bool) (m n : ℕ) (u w h : Shp) : gpuQRobust dtypeCheck [m, n] u w h = none := by
  unfold gpuQRobust
  cases w.matmul h with
  | none => rfl
  | some wh =>
    by_cases h1 : [m, n] = wh
    · by_cases h2 : [m, n] = u
      · simp [Shp.zip, ← h1, ← h2]
      · simp [Shp.zip, ← h1, h2]
    · simp [Shp.zip, h1]

/-- **Disagreement.** Training on the GPU therefore never ends well, even if every iteration succeeds: the last iteration, which is the one that
converges or the one with number `max_iter`, reports the robust loss. This holds for any iteration step, any times of the reports and any
convergence, without the check of the element type. -/
theorem C203_train (dtypeCheck : Bool) (m n : ℕ) (u : Shp) (iter : ℕ → Shp × Shp → Option (Shp × Shp)) (timer conv : ℕ → Bool) (maxIter : ℕ)
    (hpos : 0 < maxIter) (s : Shp × Shp) :
    gpuTrainReport iter (fun s => gpuQRobust dtypeCheck [m, n] u s.1 s.2) timer conv maxIter 0 s = .falseReturned := by
  suffices h : ∀ f i s, gpuTrainReport iter (fun s => gpuQRobust dtypeCheck [m, n] u s.1 s.2) timer conv (f + 1) i s = .falseReturned by
    obtain ⟨f, rfl⟩ : ∃ f, maxIter = f + 1 := ⟨maxIter - 1, by omega⟩
    exact h f 0 s
  intro f
  induction f with
  | zero =>
    intro i s
    rw [gpuTrainReport]
    cases iter i s with
    | none => rfl
    | some s' => simp [C203_shapes]
  | succ f ih =>
    intro i s
    rw [gpuTrainReport]
    cases iter i s with
    | none => rfl
    | some s' =>
      dsimp only
      split
      · rw [C203_shapes]
      · exact ih (i + 1) s'

/-- The loop itself can succeed: with a loss that can be computed, all iterations of GPU WS-NMF with fixed profiles end in a trained model, and the
report is made in the last one. -/
theorem C203_loop (m n k : ℕ) (timer conv : ℕ → Bool) (maxIter : ℕ) :
    gpuTrainReport (fun _ s => wsGpuIter false false [m, n] [m, n] [m, n] s.1 s.2) (fun s => if s = ([m, k], [k, n]) then some () else none)
      timer conv maxIter 0 ([m, k], [k, n]) = .trained := by
  have hi : wsGpuIter false false [m, n] [m, n] [m, n] [m, k] [k, n] = some ([m, k], [k, n]) := by
    simp [wsGpuIter, Shp.zip, Shp.matmul, Shp.t, gpuQ, Shp.toScalarF32]
  suffices h : ∀ f i, gpuTrainReport (fun _ s => wsGpuIter false false [m, n] [m, n] [m, n] s.1 s.2)
      (fun s => if s = ([m, k], [k, n]) then some () else none) timer conv f i ([m, k], [k, n]) = .trained from h maxIter 0
  intro f
  induction f with
  | zero => intro i; rfl
  | succ f ih =>
    intro i
    rw [gpuTrainReport, hi]
    dsimp only
    rw [if_pos rfl]
    dsimp only
    split
    · split
      · rfl
      · exact ih (i + 1)
    · exact ih (i + 1)

end Esat
