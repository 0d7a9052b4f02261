import Verif.Model.LsNmf
import Mathlib.Analysis.SpecialFunctions.Sqrt
import Mathlib.Analysis.SpecialFunctions.Pow.Real

/-!
# Model of `esat/metrics.py` and of the loss functions of `rust/lib.rs`

Field / real number idealisation. Divisions are only meaningful for uncertainties that are nonzero (the `SA` constructor
guarantees `U ≥ 1e-12`, `sa.py:76`); the theorems carry that hypothesis.
-/

namespace Esat


section
variable {K : Type*} [Field K] {m n k : ℕ}

/-- `calculate_Q(residuals, uncertainty)` (`metrics.py:10-11`). -/
def calculateQ (R U : Mat m n K) : K := ∑ i, ∑ j, (R i j / U i j) ^ 2

/-- `q_loss(V, U, W, H, uncertainty)` (`metrics.py:14-23`); with `uncertainty = true` also
`calculate_q_cpu` (`lib.rs:911-921`). -/
def qLoss (V U : Mat m n K) (W : Mat m k K) (H : Mat k n K)
    (uncertainty : Bool := true) : K :=
  let wh := W ⬝ H
  let residuals : Mat m n K := fun i j => V i j - wh i j
  if uncertainty then
    let ru : Mat m n K := fun i j => residuals i j / U i j
    ∑ i, ∑ j, ru i j * ru i j
  else
    ∑ i, ∑ j, residuals i j * residuals i j

/-- The weights of the SA constructor, `We = 1 / U**2` (`sa.py:79`). -/
def weights (U : Mat m n K) : Mat m n K := fun i j => 1 / U i j ^ 2

end

section
variable {K : Type*} [Field K] [LinearOrder K] {m n k : ℕ}

/-- `A[A <= 0.0] = 1e-12` (`metrics.py:31,43`, `sa.py:291,301`, and several other places). -/
def floorPos (A : Mat m n K) : Mat m n K :=
  fun i j => if A i j ≤ 0 then 1 / 10 ^ 12 else A i j

/-- The unrounded per-factor contributions of `q_factor(V, U, W, H)` (`metrics.py:41-55`); the code additionally applies
`np.round(·, 4)` to every entry (see `qFactorRounded`). -/
def qFactor (V U : Mat m n K) (W : Mat m k K) (H : Mat k n K) :
    Fin k → K :=
  let wh := floorPos (W ⬝ H)
  let u2 : Mat m n K := fun i j => ((V i j - wh i j) / U i j) ^ 2
  fun f => ∑ i, ∑ j, u2 i j * ((W i f * H f j) / wh i j)

/-- `q_factor` with its rounding step (`metrics.py:53`); the rounding function is a parameter. -/
def qFactorRounded (round4 : K → K) (V U : Mat m n K) (W : Mat m k K)
    (H : Mat k n K) : Fin k → K := fun f => round4 (qFactor V U W H f)

end

section
variable {m n k : ℕ}

/-- `qr_loss(V, U, W, H, alpha)` (`metrics.py:26-38`): returns the robust loss and the updated uncertainty.
The in-place update of `scaled_residuals` (line 33) is visible to the mask of line 37, which is why `s2` is used there. -/
noncomputable def qrLoss (V U : Mat m n ℝ) (W : Mat m k ℝ)
    (H : Mat k n ℝ) (alpha : ℝ) : ℝ × Mat m n ℝ :=
  let residuals : Mat m n ℝ := fun i j => V i j - (W ⬝ H) i j
  let s : Mat m n ℝ := fun i j => |residuals i j / U i j|
  let ru0 : Mat m n ℝ := fun i j => Real.sqrt (s i j / alpha) * U i j
  let ru : Mat m n ℝ := fun i j => if ru0 i j ≤ 0 then 1 / 10 ^ 12 else ru0 i j
  let rr : Mat m n ℝ := fun i j => |residuals i j / ru i j|
  let s2 : Mat m n ℝ := fun i j => if s i j > alpha then rr i j else s i j
  let q := ∑ i, ∑ j, s2 i j ^ 2
  let u2 : Mat m n ℝ := fun i j => if s2 i j > alpha then ru i j else U i j
  (q, u2)

/-- `matrix_merge` (`lib.rs:980-1002`), entrywise: first component of the returned pair. -/
noncomputable def matrixMerge (m1 m2 : Mat m n ℝ) (alpha : ℝ) : Mat m n ℝ :=
  fun i j => if m1 i j > alpha then m2 i j else m1 i j

/-- `calculate_q_robust_cpu` (`lib.rs:924-941`). Cells with a zero residual give `0/0` in `robust_residuals`, but such
cells are never selected by `matrix_merge`. -/
noncomputable def qRobustRust (V U : Mat m n ℝ) (W : Mat m k ℝ)
    (H : Mat k n ℝ) (alpha : ℝ) : ℝ :=
  let residuals : Mat m n ℝ := fun i j => V i j - (W ⬝ H) i j
  let s : Mat m n ℝ := fun i j => |residuals i j / U i j|
  let ru : Mat m n ℝ := fun i j => Real.sqrt (s i j / alpha) * U i j
  let rr : Mat m n ℝ := fun i j => |residuals i j / ru i j|
  let mr := matrixMerge s rr alpha
  ∑ i, ∑ j, mr i j * mr i j

/-- The values `calculate_q_robust_gpu` asks for (`lib.rs:959-977`), were its operations broadcast: the scaled residual where it is below `alpha`,
the robust one elsewhere. -/
noncomputable def qRobustGpu (V U : Mat m n ℝ) (W : Mat m k ℝ) (H : Mat k n ℝ) (alpha : ℝ) : ℝ :=
  let residuals : Mat m n ℝ := fun i j => V i j - (W ⬝ H) i j
  let s : Mat m n ℝ := fun i j => |residuals i j / U i j|
  let ru : Mat m n ℝ := fun i j => Real.sqrt (s i j / alpha) * U i j
  let rr : Mat m n ℝ := fun i j => |residuals i j / ru i j|
  let mr : Mat m n ℝ := fun i j => if s i j < alpha then s i j else rr i j
  ∑ i, ∑ j, mr i j * mr i j

end

end Esat
