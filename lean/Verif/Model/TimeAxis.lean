import Verif.Model.Utils
import Verif.Model.InputFigures

/-!
# The time axis of the figures of a solution (`esat/data/analysis.py:371-385,450-454,802-806`)

`plot_estimated_timeseries`, `plot_factor_profile` and `plot_factor_contributions` build a frame whose index is
`pd.to_datetime` of the index of the data, sort it, and call `resample(min_timestep(frame)).mean()`. `resample(None)` raises
(`None` has no `rule_code`). Time stamps are seconds, `none` is NaN, which `mean` skips.
-/

namespace Esat

variable {K : Type*} [Field K]

/-- The mean of column `x` over the rows of day `d` (`resample("D").mean()`); NaN is skipped, an empty bin gives NaN. -/
def dayMean {m : ℕ} (time : Fin m → ℤ) (x : Fin m → Option K) (d : ℤ) : Option K :=
  let vals := ((List.finRange m).filter fun i => tsDay (time i) = d).filterMap x
  if vals = [] then none else some (vals.sum / (vals.length : K))

/-- `frame.sort_index()` and `frame.resample(min_timestep(frame)).mean()` (`analysis.py:375-377,452-454,803-806`) for one column:
days and values; `none` is the exception of `resample(None)`. The order of the rows with equal stamps has no influence on
`min_timestep` or the means. -/
def resampled {m : ℕ} (time : Fin m → ℤ) (x : Fin m → Option K) : Option (List (ℤ × Option K)) :=
  match minTimestep (((List.finRange m).map time).mergeSort (fun a b => decide (a ≤ b))) with
  | none => none
  | some _ => some ((tsDays ((List.finRange m).map fun i => tsDay (time i))).map fun d => (d, dayMean time x d))

/-- The three curves of `plot_estimated_timeseries` (`analysis.py:371-386`): observed, predicted, residuals (NaN if one of the
two is NaN). -/
def estimatedCurves {m : ℕ} (time : Fin m → ℤ) (obs pred : Fin m → Option K) :
    Option (List (ℤ × Option K × Option K × Option K)) :=
  (resampled time obs).bind fun o => (resampled time pred).map fun p =>
    (o.zip p).map fun q => (q.1.1, q.1.2, q.2.2, q.1.2.bind fun a => q.2.2.map fun b => a - b)

/-- The contribution curve of `plot_factor_profile` (`analysis.py:448-454,473-474`): `W[:, f] / W[:, f].mean()` by days. -/
def contributionCurve {m k : ℕ} [LinearOrder K] (time : Fin m → ℤ) (W : Mat m k K) (f : Fin k) : Option (List (ℤ × Option K)) :=
  resampled time (profileContr fun i => W i f)

/-- The curves of `plot_factor_contributions` (`analysis.py:800-810`): `100 * W / W.sum(axis=0)` by days. -/
def percentCurve {m k : ℕ} [LinearOrder K] (time : Fin m → ℤ) (W : Mat m k K) (f : Fin k) : Option (List (ℤ × Option K)) :=
  resampled time (contrPlot fun i => W i f)

end Esat
