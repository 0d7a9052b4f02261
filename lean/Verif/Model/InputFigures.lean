import Verif.Model.Mat
import Verif.Model.Analysis
import Verif.Model.Constrained
import Verif.Model.Utils
import Mathlib.Analysis.SpecialFunctions.Pow.Real
import Mathlib.Analysis.SpecialFunctions.Exp

/-!
# Model of the figures of the input data (`esat/data/datahandler.py:490-879`, `esat/cli/esat_cli.py:366-418`)

A frame is the list of its column labels, its time stamps in seconds and its cells; `none` is a missing value (NaN, and in
`plot_feature_data` also an infinite one, which the mask drops in the same way). Column labels of a frame are distinct, so a
label obtained from a position leads back to the column at that position. A figure is the data handed to `plotly`: names,
values, visibility, titles, axis ranges; colours other than their numbers, sizes, hover texts and `show` are left out.
-/

namespace Esat

/-! ### Concentration against uncertainty -/

/-- A scatter trace of `plot_data_uncertainty` (`datahandler.py:510-518`). -/
structure DuTrace (m m' : ℕ) (K : Type*) where
  /-- `name` -/
  name : String
  /-- `x` -/
  x : Fin m → Option K
  /-- `y` -/
  y : Fin m' → Option K
  /-- `visible` -/
  visible : Bool

/-- An entry of the dropdown menu (`datahandler.py:521-530`): its label and the visibilities and the title it sets. -/
structure DuButton where
  /-- `label` -/
  label : String
  /-- `args[0]["visible"]` -/
  visible : List Bool
  /-- `args[1]["title.text"]` -/
  title : String

/-- The figure of `plot_data_uncertainty`. -/
structure DuFig (m m' : ℕ) (K : Type*) where
  /-- `data` -/
  traces : List (DuTrace m m' K)
  /-- `layout.updatemenus`, `none` without a menu -/
  menu : Option (List DuButton)
  /-- `layout.title` -/
  title : String

/-- The title text for a feature (`datahandler.py:527,543`). -/
def duTitle (label : String) : String := "Concentration/Uncertainty Scatter Plot - " ++ label

/-- The features shown (`datahandler.py:498-501`); `none` is the `IndexError` of `columns[feature_idx]`. -/
def duFeatures (n : ℕ) (menu : Bool) (idx : Option ℤ) : Option (List (Fin n)) :=
  match menu, idx with
  | false, some i => (axisIndex n i).map fun j => [j]
  | _, _ => some (List.finRange n)

/-- `frame[label]` (`datahandler.py:507`): the column with that label; `none` is the `KeyError`. -/
def colOf {n : ℕ} (cols : Fin n → String) (label : String) : Option (Fin n) :=
  (List.finRange n).find? fun j => cols j = label

/-- The trace of the feature `j`, the `p`-th of the loop (`datahandler.py:505-519`); the uncertainty is looked up by the
label. -/
def duTrace {m n m' n' : ℕ} {K : Type*} (cols : Fin n → String) (cell : Fin m → Fin n → Option K) (ucols : Fin n' → String)
    (ucell : Fin m' → Fin n' → Option K) (menu : Bool) (p : ℕ) (j : Fin n) : Option (DuTrace m m' K) :=
  (colOf ucols (cols j)).map fun u => ⟨cols j, fun i => cell i j, fun i => ucell i u, p == 0 || !menu⟩

/-- The entry of the menu for the `p`-th of `len` features (`datahandler.py:521-530`). -/
def duButton (len p : ℕ) (label : String) : DuButton :=
  ⟨label, (List.range len).map fun i => i == p, duTitle label⟩

/-- `plot_data_uncertainty` with loaded data (`datahandler.py:498-553`): `none` is an exception, either an index out of
range (also `features[0]` of a frame without columns, line 543) or a label the uncertainty does not have. -/
def duFigure {m n m' n' : ℕ} {K : Type*} (cols : Fin n → String) (cell : Fin m → Fin n → Option K) (ucols : Fin n' → String)
    (ucell : Fin m' → Fin n' → Option K) (menu : Bool) (idx : Option ℤ) : Option (DuFig m m' K) :=
  (duFeatures n menu idx).bind fun fs =>
    (fs.zipIdx.mapM fun q => duTrace cols cell ucols ucell menu q.2 q.1).bind fun traces =>
      fs.head?.map fun first =>
        ⟨traces, if menu then some (fs.zipIdx.map fun q => duButton fs.length q.2 (cols q.1)) else none,
          duTitle (cols first)⟩

/-- The command `analysis-input plot-feature` (`esat_cli.py:366-382`): `plot_data_uncertainty(feature_idx=feature_idx)`, the
menu has its default `True`. -/
def cliPlotFeature {m n m' n' : ℕ} {K : Type*} (cols : Fin n → String) (cell : Fin m → Fin n → Option K)
    (ucols : Fin n' → String) (ucell : Fin m' → Fin n' → Option K) (featureIdx : ℤ) : Option (DuFig m m' K) :=
  duFigure cols cell ucols ucell true (some featureIdx)

/-! ### Feature against feature -/

/-- The figure of `plot_feature_data`. -/
structure XyFig where
  /-- the points, `x_data_clean` and `y_data_clean` -/
  pts : List (ℝ × ℝ)
  /-- `y` of the trace `Regression` -/
  regression : List ℝ
  /-- `y` of the trace `One-to-One` -/
  oneToOne : List ℝ
  /-- end of the horizontal axis, which begins at 0; `none` is NaN -/
  xEnd : Option ℝ
  /-- end of the vertical axis -/
  yEnd : Option ℝ
  /-- title of the horizontal axis -/
  xTitle : String
  /-- title of the vertical axis -/
  yTitle : String

/-- What `plot_feature_data` does. -/
inductive XyOut
  /-- message about the x index with the number it contains -/
  | badX (n : ℕ)
  /-- message about the y index -/
  | badY (n : ℕ)
  /-- figure -/
  | fig (f : XyFig)

/-- The rows kept by the mask (`datahandler.py:579-582`). -/
def xyPoints {m : ℕ} (x y : Fin m → Option ℝ) : List (ℝ × ℝ) :=
  (List.finRange m).filterMap fun i => (x i).bind fun a => (y i).map fun b => (a, b)

/-- The figure for two columns (`datahandler.py:575-628`). `ls x y` is the result of `np.linalg.lstsq([x, 1], y)`. -/
noncomputable def xyFig {m : ℕ} (ls : (l : ℕ) → (Fin l → ℝ) → (Fin l → ℝ) → ℝ × ℝ) (xl yl : String)
    (x y : Fin m → Option ℝ) : XyFig :=
  let pts := xyPoints x y
  let px : Fin pts.length → ℝ := fun i => (pts.get i).1
  let py : Fin pts.length → ℝ := fun i => (pts.get i).2
  let a := ls pts.length px py
  let b := ls pts.length px px
  { pts := pts
    regression := pts.map fun q => a.1 * q.1 + a.2
    oneToOne := pts.map fun q => b.1 * q.1 + b.2
    xEnd := (pts.map fun q => q.1).max?.map fun t => t + 1 / 2
    yEnd := (pts.map fun q => q.2).max?.map fun t => t + 1 / 2
    xTitle := xl
    yTitle := yl }

/-- `plot_feature_data` (`datahandler.py:555-632`), also the command `analysis-input plot-data` (`esat_cli.py:385-403`). -/
noncomputable def plotFeatureData {m n : ℕ} (ls : (l : ℕ) → (Fin l → ℝ) → (Fin l → ℝ) → ℝ × ℝ) (cols : Fin n → String)
    (cell : Fin m → Fin n → Option ℝ) (x y : ℤ) : XyOut :=
  if hx : x > (n : ℤ) - 1 ∨ x < 0 then .badX n
  else if hy : y > (n : ℤ) - 1 ∨ y < 0 then .badY n
  else
    let jx : Fin n := ⟨x.toNat, by omega⟩
    let jy : Fin n := ⟨y.toNat, by omega⟩
    .fig (xyFig ls (cols jx) (cols jy) (fun i => cell i jx) (fun i => cell i jy))

/-! ### Time series -/

/-- What is handed to `plot_feature_timeseries` (`datahandler.py:644-652`). -/
inductive TsSel
  /-- an `int` -/
  | int (i : ℤ)
  /-- a list of positions -/
  | list (l : List ℤ)
  /-- anything else is used as a label -/
  | label (s : String)

/-- The columns of the selection (`datahandler.py:644-652,668`); `none` is an exception: remainder by zero, a position out of
range, a label that does not occur. A single number is taken modulo `shape[0]`, the number `m` of rows. -/
def tsColumns {n : ℕ} (m : ℕ) (cols : Fin n → String) : TsSel → Option (List (Fin n))
  | .int i => if m = 0 then none else (axisIndex n (i % (m : ℤ))).map fun j => [j]
  | .list l => l.mapM (axisIndex n)
  | .label s => (colOf cols s).map fun j => [j]

section
variable {K : Type*} [Field K]

/-- The rows left by `dropna` (`datahandler.py:656`): those without a missing value in any column. -/
def tsKept {m n : ℕ} (cell : Fin m → Fin n → Option K) : List (Fin m) :=
  (List.finRange m).filter fun i => (List.finRange n).all fun j => (cell i j).isSome

/-- The day of a time stamp, the bins of `resample("D")`. -/
def tsDay (t : ℤ) : ℤ := t / 86400

/-- The frequency (`datahandler.py:660-662`) for the sorted stamps. -/
def tsFreq (ts : List ℤ) : String :=
  match minTimestep ts with
  | none => "D"
  | some f => if f = "" ∨ f = "0s" then "D" else f

/-- The bins of `resample("D")` (`datahandler.py:663`): all days from the first to the last one. -/
def tsDays (days : List ℤ) : List ℤ :=
  match days.min?, days.max? with
  | some a, some b => (List.range (b - a + 1).toNat).map fun d : ℕ => a + (d : ℤ)
  | _, _ => []

/-- `mean()` of the bin of day `d` for column `j` (`datahandler.py:663`); an empty bin gives NaN. -/
def tsMean {m n : ℕ} (time : Fin m → ℤ) (cell : Fin m → Fin n → Option K) (j : Fin n) (d : ℤ) : Option K :=
  let rows := (tsKept cell).filter fun i => tsDay (time i) = d
  if rows = [] then none else some ((rows.map fun i => (cell i j).getD 0).sum / (rows.length : K))

/-- The trace of a column (`datahandler.py:664-670`): days and values. -/
def tsTrace {m n : ℕ} (time : Fin m → ℤ) (cell : Fin m → Fin n → Option K) (j : Fin n) : List (ℤ × Option K) :=
  (tsDays ((tsKept cell).map fun i => tsDay (time i))).map fun d => (d, tsMean time cell j d)

/-- `plot_feature_timeseries` (`datahandler.py:634-677`): names and data of the traces. The frequency is always a day
(`tsFreq_day` in `Props/InputFigures.lean`), so the trace is written for days only. -/
def plotTimeseries {m n : ℕ} (cols : Fin n → String) (time : Fin m → ℤ) (cell : Fin m → Fin n → Option K) (s : TsSel) :
    Option (List (String × List (ℤ × Option K))) :=
  (tsColumns m cols s).map fun js => js.map fun j => (cols j, tsTrace time cell j)

/-- `list(x)` of a selection; an `int` is not iterable (`TypeError`). A text gives the list of its characters, which are
not positions. -/
def pyListOf : TsSel → Option (List ℤ)
  | .int _ => none
  | .list l => some l
  | .label _ => none

/-- The command `analysis-input plot-timeseries` (`esat_cli.py:406-424`): the option has `type=int`, the call passes
`list(feature_idx)`. -/
def cliPlotTimeseries {m n : ℕ} (cols : Fin n → String) (time : Fin m → ℤ) (cell : Fin m → Fin n → Option K)
    (featureIdx : ℤ) : Option (List (String × List (ℤ × Option K))) :=
  (pyListOf (.int featureIdx)).bind fun l => plotTimeseries cols time cell (.list l)

end

/-! ### Correlation heat map, histograms -/

/-- An entry of `input_data_plot.corr(method="pearson")` (`datahandler.py:697`): pandas uses the rows in which both columns
have a value; `none` is NaN, which results from a zero variance (in particular for fewer than two rows). -/
noncomputable def heatCell {m n : ℕ} (cell : Fin m → Fin n → Option ℝ) (j l : Fin n) : Option ℝ :=
  let pts := xyPoints (fun i => cell i j) (fun i => cell i l)
  let x : Fin pts.length → ℝ := fun i => (pts.get i).1
  let y : Fin pts.length → ℝ := fun i => (pts.get i).2
  if scov x x * scov y y = 0 then none else some (scov x y / Real.sqrt (scov x x * scov y y))

/-- The number of the colour of the `i`-th histogram (`datahandler.py:728-737`): the palette has ten colours. -/
def histColour (i : ℕ) : ℕ := i % 10

/-! ### Ridge lines -/

/-- The distance of the base lines (`datahandler.py:820-821`) for `n` features; `none` is the division by zero. -/
noncomputable def ridgeSpacing (maxHeight minSpacing maxSpacing : ℝ) (n : ℕ) : Option ℝ :=
  if n = 0 then none else some (min maxSpacing (max minSpacing ((maxHeight - 100) / n / 50)))

/-- Bandwidth of `scipy.stats.gaussian_kde` with Scott's rule: `n^(-1/5)` times the sample standard deviation. -/
noncomputable def kdeWidth {l : ℕ} (x : Fin l → ℝ) : ℝ := (l : ℝ) ^ (-(1 / 5 : ℝ)) * Real.sqrt (scov x x / (l - 1))

/-- `gaussian_kde(x)` evaluated at `t` (`datahandler.py:833-834,842-843`). -/
noncomputable def kdeAt {l : ℕ} (x : Fin l → ℝ) (t : ℝ) : ℝ :=
  (∑ i, Real.exp (-((t - x i) ^ 2 / (2 * kdeWidth x ^ 2)))) / (l * (Real.sqrt (2 * Real.pi) * kdeWidth x))

/-- The values of a feature used by the ridge line (`datahandler.py:826-829`): the logarithms of the positive ones with
`log_x`, else all. -/
noncomputable def ridgeData {m : ℕ} (logX : Bool) (col : Fin m → Option ℝ) : List ℝ :=
  let data := (List.finRange m).filterMap col
  if logX then (data.filter fun v => 0 < v).map fun v => Real.logb 10 v else data

/-- `np.linspace(lo, hi, nbins)`; a single point is `lo`. -/
noncomputable def gridAt (lo hi : ℝ) (nbins q : ℕ) : ℝ := lo + q * ((hi - lo) / (nbins - 1))

/-- The curve of one feature (`datahandler.py:825-862`) at base line `b`: `none` is an exception (no value for
`min`, or `gaussian_kde` with fewer than two values or a zero variance), `some none` a feature left out (only without
`log_x`), else the points. -/
noncomputable def ridgeCurve {m : ℕ} (logX : Bool) (nbins : ℕ) (b : ℝ) (col : Fin m → Option ℝ) :
    Option (Option (List (ℝ × ℝ))) :=
  let data := ridgeData logX col
  if logX = false ∧ data.length < 2 then some none
  else
    let x : Fin data.length → ℝ := fun i => data.get i
    match data.min?, data.max? with
    | some lo, some hi =>
      if data.length < 2 ∨ scov x x = 0 then none
      else some (some ((List.range nbins).map fun q => (gridAt lo hi nbins q, kdeAt x (gridAt lo hi nbins q) + b)))
    | _, _ => none

/-- `plot_ridgeline` (`datahandler.py:793-879`): label, base line and curve of the features shown; the base line of the
`i`-th feature is `i * spacing` whether or not earlier features were left out. -/
noncomputable def plotRidgeline {m n : ℕ} (cols : Fin n → String) (cell : Fin m → Fin n → Option ℝ) (logX : Bool)
    (maxHeight minSpacing maxSpacing : ℝ) (nbins : ℕ) : Option (List (String × ℝ × List (ℝ × ℝ))) :=
  (ridgeSpacing maxHeight minSpacing maxSpacing n).bind fun sp =>
    ((List.finRange n).mapM fun j =>
      (ridgeCurve logX nbins (j.1 * sp) fun i => cell i j).map fun c => c.map fun pts => (cols j, j.1 * sp, pts)).map
        fun cs => cs.filterMap id

end Esat
