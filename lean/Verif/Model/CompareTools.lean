import Mathlib.Algebra.BigOperators.Group.Finset.Basic
import Mathlib.Algebra.Order.Group.Unbundled.Abs
import Mathlib.Algebra.Order.Field.Basic
import Mathlib.Data.Fintype.Basic
import Verif.Model.Mat

/-!
# Model of `esat/data/test_tools.py` (class `CompareAnalyzer`)

The numbers and choices behind the figures; the figures themselves, time stamps and the alignment of the tables by date are
not modelled.  NaN is `none`.
-/

namespace Esat

variable {K : Type*} {k m n : ℕ}

/-- `_standardize` (`test_tools.py:45-49`) for one feature: the row divided by its sum; NaN or infinite if the sum is zero. -/
def cmpStandardize [Field K] [DecidableEq K] (row : Fin k → K) : Option (Fin k → K) :=
  if ∑ f, row f = 0 then none else some fun f => row f / ∑ g, row g

/-- `_matmul` (`test_tools.py:51-56`): contributions (samples × factors) times the transposed profile (features × factors). -/
def cmpMatmul [Field K] (C : Mat m k K) (P : Mat n k K) : Mat m n K := fun i j => ∑ f, C i f * P j f

/-- The time series of one factor (`test_tools.py:160-166`, with `factor_columns[factor_n]` or the mapped column `f`). -/
def cmpFactorSeries [Field K] (C : Mat m k K) (P : Mat n k K) (f : Fin k) : Mat m n K := fun i j => C i f * P j f

/-- Python's `features[i]`; `none` = `IndexError`. -/
def cmpIndex {α : Type*} (l : List α) (i : ℤ) : Option α :=
  if 0 ≤ i then l[i.toNat]? else if -(l.length : ℤ) ≤ i then l[(i + l.length).toNat]? else none

/-- The feature shown by `plot_factor_contribution` (`test_tools.py:58-60`); `none` = an exception (no features). -/
def cmpPickWrapped (features : List String) (feature : Option String) (i : ℤ) : Option String :=
  match feature with
  | some f => if f ∈ features then some f else
      if features.length = 0 then none else cmpIndex features (i % (features.length : ℤ))
  | none => if features.length = 0 then none else cmpIndex features (i % (features.length : ℤ))

/-- The feature shown by `timeseries_plot` and `feature_histogram` (`test_tools.py:213-214,243-244`). -/
def cmpPick (features : List String) (feature : Option String) (i : ℤ) : Option String :=
  match feature with
  | some f => if f ∈ features then some f else cmpIndex features i
  | none => cmpIndex features i

/-- `plot_factors` (`test_tools.py:129-156`): the traces are added row by row to a grid of six rows; `false` = exception. -/
def cmpPlotFactors (factorN lsLen wsLen : ℕ) : Bool :=
  (List.range factorN).all fun f => f < wsLen && f < lsLen && f + 1 ≤ 6

/-- The last row of the table of `feature_histogram` (`test_tools.py:257-259`): number of `|r| ≥ threshold`. -/
def cmpCount [Field K] [LinearOrder K] (threshold : K) (r : List K) : ℕ :=
  (r.filter fun x => decide (threshold ≤ |x|)).length

end Esat
