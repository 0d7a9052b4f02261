import Verif.Model.Analysis
import Verif.Model.Cli
import Verif.Model.Batch
import Verif.Model.ConstrainedViews

/-!
# Model of the solution commands

The group `analysis_solution` of `esat/cli/esat_cli.py` (487-705) with `get_model_analysis` (76-83), and the methods of `ModelAnalysis` that it
calls (`esat/data/analysis.py`): which figures are shown, and whether the command ends with an exception. `plot_residual_histogram` (187-268) and
`plot_factor_composition` (821-842) are modelled with their numbers; the numbers of the other figures are in `Model/Analysis.lean`. Models have at
least one factor. Reading the configuration, creating the data handler and loading the batch either give a value or do not; whether the functions of
`scipy`, `plotly` and the treatment of dates work on given numbers is a parameter.
-/

namespace Esat

open Finset

/-- What the figures use of a model of a batch. -/
structure SaView (K : Type*) where
  /-- samples -/
  m : ℕ
  /-- features -/
  n : ℕ
  /-- factors -/
  k : ℕ
  /-- `V` -/
  V : Mat m n K
  /-- `U` -/
  U : Mat m n K
  /-- `WH` -/
  WH : Mat m n K
  /-- `W` -/
  W : Mat m k K
  /-- `H` -/
  H : Mat k n K

/-- What the figures use of a data handler. -/
structure AnHandler (L : Type*) where
  /-- `features` -/
  features : List String
  /-- index and number of columns of `input_data_df`; `None` before `get_data` (`datahandler.py:90`) -/
  df : Option (List L × ℕ)
  /-- number of rows of `input_data_plot`, `None` if the data were aggregated -/
  plotRows : Option ℕ

/-- A `ModelAnalysis` object (`analysis.py:33-47`). -/
structure AnObj (K L : Type*) where
  /-- `dh` -/
  dh : AnHandler L
  /-- `model` -/
  model : Option (SaView K)
  /-- `selected_model` -/
  selected : Option ℤ

/-- Which calls of libraries work. -/
structure FigEnv (K L : Type*) where
  /-- `ff.create_distplot` -/
  distplot : List K → Bool
  /-- `pd.to_datetime` of the index, `min_timestep` and `resample` -/
  dates : List L → Bool
  /-- the tests and regressions of `calculate_statistics` -/
  stats : SaView K → Bool

/-- The figures, with the number in the title where there is one; factors and features are counted from zero. -/
inductive Fig (K : Type*)
  /-- residual histogram -/
  | residuals (feature : String) (values : List K)
  /-- the table of `calculate_statistics` -/
  | table
  /-- observed and estimated values -/
  | estimated (feature : ℤ)
  /-- time series -/
  | timeseries (feature : ℤ) (model : ℤ)
  /-- profile -/
  | profile (factor : ℕ) (model : ℤ)
  /-- contributions of one factor -/
  | contribution (factor : ℕ) (model : ℤ)
  /-- fingerprints: factor and bars, in the order in which they are stacked -/
  | fingerprints (model : ℤ) (bars : List (ℕ × List (Option K)))
  /-- two contributions -/
  | gspace (model : ℤ) (x y : List (Option K))
  /-- the factors in a feature -/
  | pie (feature : ℤ) (model : ℤ)
  /-- contributions of all factors -/
  | contributions (model : ℤ)
  /-- shares of the factors, one curve for each factor -/
  | composition (curves : List (List (Option K)))
  /-- surface of a factor -/
  | surface (factor : ℕ)
  deriving DecidableEq

/-- What `plot_residual_histogram` does. -/
inductive HistResult (K L : Type*)
  /-- exception -/
  | raised
  /-- a message only -/
  | nothing
  /-- `show=True`: the figure is shown -/
  | shown (feature : String) (values : List K)
  /-- `show=False`: figure and table are returned -/
  | returned (feature : String) (values : List K) (table : List (L × K))
  deriving DecidableEq

section methods
variable {K L : Type*} [Field K] [LinearOrder K]

/-- `(V[:, j] - est_V[:, j]) / U[:, j]` (`analysis.py:231`). -/
def residualColumn {m n : ℕ} (V U est : Mat m n K) (j : Fin n) : List K := List.ofFn fun i => (V i j - est i j) / U i j

/-- The choice of the feature (`analysis.py:216-229`): `none` = a message, otherwise name and index. -/
def chosenFeature (features : List String) (idx : Option ℤ) (name : Option String) : Option (String × ℤ) :=
  match idx with
  | some i => if i < 0 ∨ (features.length : ℤ) ≤ i then none else (features[i.toNat]?).map fun f => (f, i)
  | none =>
    match name with
    | some f => if f ∈ features then some (f, (features.idxOf f : ℤ)) else none
    | none => none

/-- The rows of the table (`analysis.py:264-266`). -/
def residualTable (labels : List L) (values : List K) (threshold : K) : List (L × K) :=
  if threshold ≠ -1 then (labels.zip values).filter fun p => threshold < |p.2| else labels.zip values

/-- `plot_residual_histogram` (`analysis.py:187-268`) with `est_V=None`. -/
def residualHistogram (E : FigEnv K L) (a : AnObj K L) (idx : Option ℤ) (name : Option String) (threshold : K) (display : Bool) :
    HistResult K L :=
  match a.model with
  | none => .raised
  | some M =>
    match chosenFeature a.dh.features idx name with
    | none => .nothing
    | some (f, i) =>
      match wrapAxis M.n i with
      | none => .raised
      | some j =>
        let r := residualColumn M.V M.U M.WH j
        if E.distplot r then
          if display then .shown f r
          else
            match a.dh.df with
            | none => .raised
            | some (labels, _) => if labels.length = M.m then .returned f r (residualTable labels r threshold) else .raised
        else .raised

/-- `self.selected_model+1` (see `titleModel`). -/
def titled (a : AnObj K L) (figs : ℤ → List (Fig K)) : List (Fig K) × Bool :=
  match titleModel a.selected with
  | .raised => ([], false)
  | .ret t => (figs t, true)

/-- `calculate_statistics` (`analysis.py:113-185`). -/
def anStatistics (E : FigEnv K L) (a : AnObj K L) : List (Fig K) × Bool :=
  match a.model, a.dh.df with
  | some M, some _ => if E.stats M then ([.table], true) else ([], false)
  | _, _ => ([], false)

/-- The frame `V_prime_plot` and the observed data fit together (`analysis.py:49-73,302-306,368-373`): the shapes of the model, of
`features`, of `input_data_df` and of `input_data_plot` agree. -/
def estimatedFits (a : AnObj K L) : Bool :=
  match a.model, a.dh.df, a.dh.plotRows with
  | some M, some (labels, c), some q => decide (M.n = a.dh.features.length ∧ labels.length = M.m ∧ c = M.n ∧ q = M.m)
  | _, _, _ => false

/-- `plot_estimated_observed` (`analysis.py:270-333`). -/
def anEstimated (a : AnObj K L) (i : ℤ) : List (Fig K) × Bool :=
  if i < 0 ∨ (a.dh.features.length : ℤ) ≤ i then ([], true)
  else if estimatedFits a then ([.estimated i], true) else ([], false)

/-- `plot_estimated_timeseries` (`analysis.py:335-402`). -/
def anTimeseries (E : FigEnv K L) (a : AnObj K L) (i : ℤ) : List (Fig K) × Bool :=
  if i < 0 ∨ (a.dh.features.length : ℤ) ≤ i then ([], true)
  else
    match a.dh.df with
    | some (labels, _) => if estimatedFits a ∧ E.dates labels then titled a fun t => [.timeseries i t] else ([], false)
    | none => ([], false)

/-- `plot_factor_profile` (`analysis.py:404-483`): two figures. -/
def anProfile (E : FigEnv K L) (a : AnObj K L) (i : ℤ) : List (Fig K) × Bool :=
  match a.model with
  | none => ([], false)
  | some M =>
    match shownFactor M.k i with
    | none => ([], true)
    | some f =>
      match a.dh.df with
      | none => ([], false)
      | some (labels, _) =>
        if labels.length = M.m ∧ E.dates labels then titled a fun t => [.profile f t, .contribution f t] else ([], false)

/-- `plot_factor_fingerprints` (`analysis.py:691-710`): the bars from the last factor to the first. -/
def anFingerprints (a : AnObj K L) : List (Fig K) × Bool :=
  match a.model with
  | none => ([], false)
  | some M => titled a fun t => [.fingerprints t (List.ofFn fun f => (f.1, List.ofFn fun j => fingerprint M.H f j)).reverse]

/-- `plot_g_space` (`analysis.py:713-753`). -/
def anGspace (a : AnObj K L) (x y : ℤ) : List (Fig K) × Bool :=
  match a.model with
  | none => ([], false)
  | some M =>
    match shownFactor M.k x with
    | none => ([], true)
    | some fx =>
      match shownFactor M.k y with
      | none => ([], true)
      | some fy =>
        if h : fx < M.k ∧ fy < M.k then
          titled a fun t => [.gspace t (List.ofFn fun i => gSpaceContr (fun l => M.W l ⟨fx, h.1⟩) i)
            (List.ofFn fun i => gSpaceContr (fun l => M.W l ⟨fy, h.2⟩) i)]
        else ([], false)

/-- `plot_factor_contributions` (`analysis.py:755-819`) with the default threshold: the pie chart is shown before the dates are looked at. -/
def anContributions (E : FigEnv K L) (a : AnObj K L) (i : ℤ) : List (Fig K) × Bool :=
  match a.dh.df with
  | none => ([], false)
  | some (labels, c) =>
    if (c : ℤ) - 1 < i ∨ i < 0 then ([], true)
    else
      match a.model with
      | none => ([], false)
      | some M =>
        match wrapAxis M.n i, titleModel a.selected with
        | some _, .ret t =>
          if labels.length = M.m ∧ E.dates labels then ([.pie i t, .contributions t], true) else ([.pie i t], false)
        | _, _ => ([], false)

/-- `plot_factor_composition` (`analysis.py:821-842`): `H / H.sum(axis=0)`, row by row. -/
def anComposition (a : AnObj K L) : List (Fig K) × Bool :=
  match a.model with
  | none => ([], false)
  | some M =>
    ([.composition (List.ofFn fun f => List.ofFn fun j => if ∑ g, M.H g j = 0 then none else some (M.H f j / ∑ g, M.H g j))], true)

/-- `plot_factor_surface` (`analysis.py:844-930`) as it is called by the command: the factor is a number or `None`, the features are a tuple or `None`.
A tuple cannot be compared with a number. -/
def anSurface (a : AnObj K L) (factor : Option ℤ) (features : Option (List ℤ)) : List (Fig K) × Bool :=
  match factor, features with
  | none, none => ([], true)
  | none, some _ => ([], false)
  | some i, fs =>
    match a.model with
    | none => ([], false)
    | some M =>
      match shownFactor M.k i with
      | none => ([], true)
      | some f =>
        match fs, a.dh.df with
        | none, some _ => ([.surface f], true)
        | _, _ => ([], false)

end methods

/-! ### The commands -/

/-- What `get_model_analysis` uses of a batch. -/
structure BatchFile (K : Type*) where
  /-- `best_model` -/
  best : Option ℤ
  /-- `results` -/
  results : List (Option (SaView K))

/-- What a project directory holds. -/
structure Project (K L : Type*) where
  /-- the data handler made from the section `data`; `none` = an exception or `sys.exit` -/
  handler : Option (AnHandler L)
  /-- `get_batchsa`; `none` = an exception or `None` -/
  batch : Option (BatchFile K)

/-- The commands with their options. -/
inductive SolutionCmd
  /-- `plot-residuals -i` -/
  | residuals (i : ℤ)
  /-- `statistics` -/
  | statistics
  /-- `plot-estimated -i` -/
  | estimated (i : ℤ)
  /-- `plot-timeseries -i` -/
  | timeseries (i : ℤ)
  /-- `plot-profile -i` -/
  | profile (i : ℤ)
  /-- `plot-fingerprints` -/
  | fingerprints
  /-- `plot-gspace -x -y` -/
  | gspace (x y : ℤ)
  /-- `plot-contributions -i` -/
  | contributions (i : ℤ)
  /-- `plot-composition` -/
  | composition
  /-- `plot-surface -i -f -f …` -/
  | surface (i : ℤ) (features : List ℤ)

section commands
variable {K L : Type*} [Field K] [LinearOrder K]

/-- `get_model_analysis` (`esat_cli.py:76-83`); `none` = an exception. -/
def modelAnalysis (P : Project K L) (selected : ℤ) : Option (AnObj K L) :=
  match P.handler, P.batch with
  | some dh, some b =>
    match (if selected = -1 then b.best else some selected) with
    | none => none
    | some i => (pyIndex b.results i).map fun M => ⟨dh, M, some i⟩
  | _, _ => none

/-- The methods the commands call (`esat_cli.py:487-705`). -/
def solutionMethod (E : FigEnv K L) (a : AnObj K L) : SolutionCmd → List (Fig K) × Bool
  | .residuals i =>
    match residualHistogram E a (some i) none 3 true with
    | .raised => ([], false)
    | .shown f r => ([.residuals f r], true)
    | _ => ([], true)
  | .statistics => anStatistics E a
  | .estimated i => anEstimated a i
  | .timeseries i => anTimeseries E a i
  | .profile i => anProfile E a i
  | .fingerprints => anFingerprints a
  | .gspace x y => anGspace a x y
  | .contributions i => anContributions E a i
  | .composition => anComposition a
  | .surface i fs => anSurface a (if i ≠ -1 then some i else none) (if fs.length > 0 then some fs else none)

/-- A command: the figures shown, and false after an exception. -/
def solutionCmd (E : FigEnv K L) (P : Project K L) (selected : ℤ) (c : SolutionCmd) : List (Fig K) × Bool :=
  match modelAnalysis P selected with
  | none => ([], false)
  | some a => solutionMethod E a c

end commands

end Esat
