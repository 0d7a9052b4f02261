import Verif.Model.Mat

/-!
# The squared correlation used throughout the package

`np.corrcoef(x, y)[0, 1] ** 2` (`esat/utils.py:57-63`, `esat/error/bootstrap.py:225-250`,
`eval/factor_comparison.py:414-424`). In exact arithmetic the square of the correlation coefficient is
`S_xy² / (S_xx S_yy)`: the factor `1/(n-1)` of the covariance and the square roots cancel, and the clipping to `[-1, 1]`
has no effect. A constant vector has variance 0, and NumPy returns NaN (`none`).
-/

namespace Esat

variable {K : Type*} [Field K] [LinearOrder K] {n : ℕ}

/-- `x.mean()`. -/
def vmean (x : Fin n → K) : K := (∑ i, x i) / n

/-- `Σ (x - mean x)(y - mean y)`. -/
def scov (x y : Fin n → K) : K := ∑ i, (x i - vmean x) * (y i - vmean y)

/-- Squared correlation; `none` is NaN. -/
def r2 (x y : Fin n → K) : Option K :=
  if scov x x = 0 ∨ scov y y = 0 then none else some (scov x y ^ 2 / (scov x x * scov y y))

end Esat
