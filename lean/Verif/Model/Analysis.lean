import Verif.Model.Mat
import Verif.Model.Correlation
import Verif.Model.SaveLoad
import Mathlib.Analysis.SpecialFunctions.Log.Base
import Mathlib.Analysis.SpecialFunctions.Pow.Real

/-!
# Model of the model and batch analysis (`esat/data/analysis.py`)

The numbers computed for the tables and plots are modelled; the `plotly` figures are represented by the data handed to
them. `scipy.stats.linregress` is modelled by its documented formulas, `numpy.linalg.lstsq` by its specification (some
minimiser of the squared error). The normality tests (Shapiro, Anderson, Kolmogorov-Smirnov), time axis resampling and
colours are not modelled. Division by zero is `none`.
-/

namespace Esat

open Finset

variable {m n k : ℕ}

/-! ### Tables -/

/-- `features_metrics`, column `RMSE` before rounding (`analysis.py:104`):
`np.sqrt(np.sum((V[:, c] - est_V[:, c]) ** 2)) / 14`. -/
noncomputable def reportedRmse (v e : Fin m → ℝ) : ℝ := Real.sqrt (∑ i, (v i - e i) ^ 2) / 14

/-- Slope of `stats.linregress(x, y)` (`analysis.py:154`); the call raises if all `x` are equal. -/
noncomputable def lrSlope (x y : Fin m → ℝ) : ℝ := scov x y / scov x x

/-- Intercept of `stats.linregress(x, y)`. -/
noncomputable def lrIntercept (x y : Fin m → ℝ) : ℝ := vmean y - lrSlope x y * vmean x

/-- Square of `stats.linregress(x, y).rvalue`; zero if `y` is constant. -/
noncomputable def lrR2 (x y : Fin m → ℝ) : ℝ :=
  if scov x x * scov y y = 0 then 0 else scov x y ^ 2 / (scov x x * scov y y)

/-- `np.std` (population standard deviation). -/
noncomputable def npStd (y : Fin m → ℝ) : ℝ := Real.sqrt (scov y y / m)

/-- `calculate_statistics`, column `SE Regression` (`analysis.py:161`). -/
noncomputable def seRegression (x y : Fin m → ℝ) : ℝ := Real.sqrt (1 - lrR2 x y) * npStd y

/-- Squared error of the line `s * x + c`. -/
def lineError (x y : Fin m → ℝ) (s c : ℝ) : ℝ := ∑ i, (y i - (s * x i + c)) ^ 2

/-- What `np.linalg.lstsq([x, 1], y)` returns (`analysis.py:310-311`): some minimiser. -/
def IsLstsq (x y : Fin m → ℝ) (s c : ℝ) : Prop := ∀ s' c', lineError x y s c ≤ lineError x y s' c'

/-! ### Normalised factors -/

variable {K : Type*} [Field K] [LinearOrder K] [IsStrictOrderedRing K]

/-- `100 * (H / H.sum(axis=0))` (`plot_factor_fingerprints`, `plot_factor_profile`, `plot_factor_contributions`;
`analysis.py:446,698,781`). -/
def fingerprint (H : Mat k n K) (f : Fin k) (j : Fin n) : Option K :=
  if ∑ g, H g j = 0 then none else some (100 * (H f j / ∑ g, H g j))

/-- `factor_contribution / factor_contribution.mean()` (`plot_factor_profile`, `analysis.py:448`). -/
def profileContr (w : Fin m → K) (i : Fin m) : Option K := if vmean w = 0 then none else some (w i / vmean w)

/-- `factors_contr / factors_contr.sum(axis=0)` (`plot_g_space`, `analysis.py:739`); the axes are labelled
"Contributions (avg=1)". -/
def gSpaceContr (w : Fin m → K) (i : Fin m) : Option K := if ∑ l, w l = 0 then none else some (w i / ∑ l, w l)

/-- `100 * (factors_contr / factors_contr.sum(axis=0))` (`plot_factor_contributions`, `analysis.py:801`); the title says
"Factor Contributions (avg=1)". -/
def contrPlot (w : Fin m → K) (i : Fin m) : Option K := if ∑ l, w l = 0 then none else some (100 * (w i / ∑ l, w l))

/-- The test `50.0 > contribution_threshold < 0` (`analysis.py:775`), a chained comparison. -/
def thresholdRejected (t : K) : Bool := decide (50 > t ∧ t < 0)

/-- The entries of the pie chart (`analysis.py:787-793`): labels (counting from one) and values in the order of the loop
`range(k-1, -1, -1)`. -/
def pieEntries (contr : Fin k → K) (t : K) : List (ℕ × K) :=
  ((List.finRange k).reverse.filter (fun f => t < contr f)).map (fun f => (f.val + 1, contr f))

/-- `factor_conc_sums` (`analysis.py:441-444`, also `:518-521`): column sums of `w hᵀ`, zeros replaced by `tiny` = 1e-12. -/
def concSums (tiny : K) (w : Fin m → K) (h : Fin n → K) (j : Fin n) : K :=
  if ∑ i, w i * h j = 0 then tiny else ∑ i, w i * h j

/-- The range of the logarithmic concentration axis, in powers of ten: `[0, log10(max)]` (`analysis.py:462-465`). -/
noncomputable def concAxis [NeZero n] (c : Fin n → ℝ) : ℝ × ℝ :=
  (0, univ.sup' univ_nonempty (fun j => Real.logb 10 (c j)))

/-- `percent_matrices[f]` of `plot_factor_surface` (`analysis.py:878-885`): `f_matrix / V`. -/
def surfacePct (V : Mat m n K) (W : Mat m k K) (H : Mat k n K) (f : Fin k) (i : Fin m) (j : Fin n) : Option K :=
  if V i j = 0 then none else some (W i f * H f j / V i j)

/-! ### Data for the plots -/

/-- `aggregate_factors_for_plotting` for a data set that needs no aggregation (`analysis.py:49-73`,
`datahandler.py:480-488` with empty bins): the sum of the outer products. -/
def vPrimePlot (W : Mat m k K) (H : Mat k n K) : Mat m n K :=
  fun i j => ((List.finRange k).map (fun f => W i f * H f j)).sum

/-- The attributes written by `DataHandler._aggregate_data` (`datahandler.py:437-467`). -/
structure PlotAttrs (D : Type*) where
  /-- `input_data_plot` -/
  inputPlot : Option D
  /-- `uncertainty_data_plot` -/
  uncPlot : Option D
  /-- `V_prime_plot` -/
  vPrime : Option D

/-- `_aggregate_data` called by the constructor with the plot attributes `None`: with more than `maxN` samples the
aggregated input is assigned to `V_prime_plot` and `input_data_plot` is left alone. -/
def aggregateData {D : Type*} (nSamples maxN : ℕ) (input unc aggIn aggUnc : D) (s : PlotAttrs D) : PlotAttrs D :=
  if nSamples ≤ maxN then { s with inputPlot := some input, uncPlot := some unc }
  else { s with vPrime := some aggIn, uncPlot := some aggUnc }

/-- Plot methods that use `dh.input_data_plot[...]` (`analysis.py:305,371,1013`, `datahandler.py:494-826`). -/
def useInputPlot {D R : Type*} (f : D → R) (s : PlotAttrs D) : Outcome R :=
  match s.inputPlot with
  | none => .raised
  | some d => .ret (f d)

/-- The titles `f"... Model {self.selected_model+1}"` of the plot methods (`analysis.py:390,467,475,535,703,746,795,812`);
`selected_model` defaults to `None` (`analysis.py:36`). -/
def titleModel (selected : Option Int) : Outcome Int :=
  match selected with
  | none => .raised
  | some i => .ret (i + 1)

/-- `plot_all_factors_3d` (`analysis.py:639-648`): one trace is added whatever the type; for `both` the second one is
then hidden (`fig.data[1]`, an `IndexError`). The value is the kind of data shown, `true` for concentrations. -/
def plot3d (plotType : String) : Outcome Bool :=
  let conc := plotType.toLower = "conc" ∨ plotType.toLower = "both"
  let traces : List Bool := [decide conc]
  if plotType.toLower = "both" then
    match traces[1]? with
    | none => .raised
    | some _ => .ret (decide conc)
  else .ret (decide conc)

/-- A curve of the residual plot: label number, initially visible, model. -/
structure Trace (R : Type*) where
  label : ℕ
  visible : Bool
  model : R

/-- `plot_temporal_residuals` without a data handler (`analysis.py:1005-1011,1031-1044`): failed models are removed before
the remaining ones are numbered. -/
def residualTraces {R : Type*} (results : List (Option R)) (best : ℕ) : List (Trace R) :=
  (results.filterMap id).mapIdx (fun i r => ⟨i + 1, i = best, r⟩)

/-- `plot_temporal_residuals` with a data handler (`analysis.py:1012-1022,1031-1044`): the position in the batch is kept. -/
def residualTracesDh {R : Type*} (results : List (Option R)) (best : ℕ) : List (Trace R) :=
  (results.mapIdx (fun i r => r.map (fun r => (⟨i + 1, i = best, r⟩ : Trace R)))).filterMap id

end Esat
