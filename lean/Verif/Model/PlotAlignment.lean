import Verif.Model.Constrained
import Verif.Model.SaveLoad
import Verif.Model.InputFigures

/-!
# Rows and columns of the figures that compare data and estimates

`BatchAnalysis.plot_temporal_residuals` with a data handler (`esat/data/analysis.py:997-1056`), `plot_estimated_observed` (300-317), the frame of
`plot_estimated_timeseries` (368-374), the scaled residuals of `calculate_statistics` (143-149) and of `plot_residual_histogram` (232). They use the frames
of all data (`input_data_plot`, `uncertainty_data`), of the processed data (`input_data_df`, `features`, set by `get_data`,
`esat/data/datahandler.py:282-341`) and the estimate of the model, which has the rows and columns of the processed data. The data set has at most
`max_plotting_n` samples, so `input_data_plot` is `input_data` and `aggregate_output` returns its argument with `features` as columns
(`datahandler.py:448-452,479-488`). The replacement of zeros by `EPSILON` (`datahandler.py:336-337`) is left out. Names of columns and of rows are distinct. NaN is `none`.
-/

namespace Esat

/-- The frames a figure reads. -/
structure FigData (m : ℕ) (K : Type*) where
  /-- `input_data.columns` -/
  cols : List String
  /-- columns that are left in the processed data: not in `drop_col`, `loc_cols`, not categorised as bad -/
  used : String → Bool
  /-- rows that are left in the processed data -/
  ok : Fin m → Bool
  /-- `input_data` -/
  raw : Fin m → String → Option K
  /-- `uncertainty_data` -/
  unc : Fin m → String → Option K
  /-- features categorised as weak -/
  weak : String → Bool

variable {m : ℕ} {K : Type*} [Field K]

/-- `features`, the columns of `input_data_df` (`datahandler.py:310-313`). -/
def FigData.feats (d : FigData m K) : List String := d.cols.filter d.used

/-- The rows of `input_data_df` (`datahandler.py:321-324`). -/
def FigData.kept (d : FigData m K) : List (Fin m) := (List.finRange m).filter d.ok

/-- `WH` of a model trained on the processed data. -/
abbrev FigData.Est (d : FigData m K) := Fin d.kept.length → Fin d.feats.length → K

/-- The column of a frame with columns `features` for a label; `none` = `KeyError`. -/
def FigData.byLabel (d : FigData m K) (label : String) : Option (Fin d.feats.length) :=
  colOf (fun q : Fin d.feats.length => d.feats.get q) label

/-- `a - b` for one-dimensional arrays: equal lengths, or one of them has one entry; `none` = `ValueError`. -/
def arraySub (a : List (Option K)) (b : List K) : Option (List (Option K)) :=
  if a.length = b.length then some (List.zipWith (fun x y => x.map fun v => v - y) a b)
  else match a, b with
    | _, [y] => some (a.map fun x => x.map fun v => v - y)
    | [x], _ => some (b.map fun y => x.map fun v => v - y)
    | _, _ => none

/-- One residual curve of `plot_temporal_residuals` (`analysis.py:1013-1044`): the label, the input curve and the residuals. The input is taken by
position from all columns, the estimate by the label. -/
def temporalCurve (d : FigData m K) (est : d.Est) (idx : ℤ) : Outcome (String × List (Option K) × List (Option K)) :=
  match axisIndex d.feats.length idx, axisIndex d.cols.length idx with
  | some q, some c =>
    let input := (List.finRange m).map fun i => d.raw i (d.cols.get c)
    match (d.byLabel (d.feats.get q)).bind fun q' => arraySub input ((List.finRange d.kept.length).map fun p => est p q') with
    | some res => .ret (d.feats.get q, input, res)
    | none => .raised
  | _, _ => .raised

/-- What a figure does with its arguments: nothing (a message), raise or draw. -/
inductive FigOut (α : Type*)
  /-- a message -/
  | message
  /-- an exception -/
  | raised
  /-- a figure -/
  | drawn (x : α)
  deriving DecidableEq

/-- The points of `plot_estimated_observed` (`analysis.py:288-317`) for a feature given by number: observations by the name of the feature from all rows,
predictions by position from the processed rows; `lstsq` raises for different lengths. What `lstsq` makes of a missing observation is not modelled. -/
def scatterPoints (d : FigData m K) (est : d.Est) (idx : ℤ) : FigOut (List (Option K × K)) :=
  if h : 0 ≤ idx ∧ idx < d.feats.length then
    let q : Fin d.feats.length := ⟨idx.toNat, by omega⟩
    let obs := (List.finRange m).map fun i => d.raw i (d.feats.get q)
    let pred := (List.finRange d.kept.length).map fun p => est p q
    if obs.length = pred.length then .drawn (obs.zip pred) else .raised
  else .message

/-- The position of a row in the processed data. -/
def FigData.rowAt (d : FigData m K) (i : Fin m) : Option (Fin d.kept.length) :=
  (List.finRange d.kept.length).find? fun p => decide (d.kept.get p = i)

/-- The frame of `plot_estimated_timeseries` (`analysis.py:368-372`), row by row: the predictions are a series and are aligned by the name of the row. -/
def seriesRows (d : FigData m K) (est : d.Est) (idx : ℤ) : FigOut (List (Option K × Option K)) :=
  if h : 0 ≤ idx ∧ idx < d.feats.length then
    let q : Fin d.feats.length := ⟨idx.toNat, by omega⟩
    .drawn ((List.finRange m).map fun i => (d.raw i (d.feats.get q), (d.rowAt i).map fun p => est p q))
  else .message

/-- `scaled_residuals[label]` of `calculate_statistics` (`analysis.py:143-149`) in row `i` of the union of the two indices: residuals of the processed data
divided by the uncertainties of all rows, before the tripling; `none` = NaN (a division by zero included). -/
def statScaled [DecidableEq K] (d : FigData m K) (est : d.Est) (q : Fin d.feats.length) (i : Fin m) : Option K :=
  (d.rowAt i).bind fun p => (d.raw i (d.feats.get q)).bind fun v => (d.unc i (d.feats.get q)).bind fun u =>
    if u = 0 then none else some ((v - est p q) / u)

/-- The uncertainty of the model (`datahandler.py:306-307`): tripled for weak features. -/
def FigData.modelUnc (d : FigData m K) (i : Fin m) (f : String) : Option K := (d.unc i f).map fun u => if d.weak f then u * 3 else u

/-- `residuals_data` of `plot_residual_histogram` (`analysis.py:232`): the data and uncertainties of the model. -/
def histScaled [DecidableEq K] (d : FigData m K) (est : d.Est) (q : Fin d.feats.length) (p : Fin d.kept.length) : Option K :=
  (d.raw (d.kept.get p) (d.feats.get q)).bind fun v => (d.modelUnc (d.kept.get p) (d.feats.get q)).bind fun u =>
    if u = 0 then none else some ((v - est p q) / u)

end Esat
