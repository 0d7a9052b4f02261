import Verif.Model.Analysis
import Verif.Model.Quantile
import Mathlib.Data.Real.Archimedean

/-!
# The tables of a solution, the panels of all factors and the surface (`esat/data/analysis.py:75-184,485-541,843-925`)

The statistics of the normality tests (`stats.shapiro`, `stats.anderson`, `stats.ks_1samp`) are arguments.
-/

namespace Esat

open Finset

section tables
variable {m n n' : ℕ}

/-- A row of the table of `features_metrics` (`analysis.py:110-117`). -/
structure MetricsRow where
  /-- `Feature` -/
  feature : String
  /-- `Input Mean` -/
  mean : ℝ
  /-- `Input Var` -/
  var : ℝ
  /-- `Est Mean` -/
  estMean : ℝ
  /-- `Est Var` -/
  estVar : ℝ
  /-- `RMSE` -/
  rmse : ℝ

/-- `x.var()` of a numpy array (`analysis.py:101,103`). -/
noncomputable def npVar (x : Fin m → ℝ) : ℝ := scov x x / m

/-- `features_metrics` (`analysis.py:75-119`) for at least one row; `est_V` has the rows of `V` and any number of columns. `none` is an exception:
`est_V` has too few columns, or the columns of the frame differ in length. -/
noncomputable def featuresMetrics (features : List String) (V : Mat m n ℝ) (est : Mat m n' ℝ) : Option (List MetricsRow) :=
  if h : n ≤ n' then
    if features.length = n then
      some (List.ofFn fun j : Fin n =>
        ⟨features.getD j.1 "", roundTo 4 (vmean fun i => V i j), roundTo 4 (npVar fun i => V i j),
          roundTo 4 (vmean fun i => est i (j.castLE h)), roundTo 4 (npVar fun i => est i (j.castLE h)),
          roundTo 4 (reportedRmse (fun i => V i j) fun i => est i (j.castLE h))⟩)
    else none
  else none

/-- Column `SE` of `calculate_statistics` (`analysis.py:152`): `np.std(residuals) / np.sqrt(len(residuals))`. -/
noncomputable def statSE (r : Fin m → ℝ) : ℝ := npStd r / Real.sqrt m

end tables

section labels
variable {K : Type*} [LinearOrder K]

/-- Column `Anderson Normal Residual` (`analysis.py:163-167`): the significance level beside the first critical value above the statistic;
`none` is the text `No`. -/
def andersonLabel (crit : List (K × K)) (stat : K) : Option K := (crit.find? fun c => stat < c.1).map (·.2)

end labels

section panels
variable {m n k : ℕ} {K : Type*} [Field K] [LinearOrder K]

/-- One panel of `plot_all_factors`. -/
structure FactorPanel (n : ℕ) (K : Type*) where
  /-- the number of the row of subplots, from one -/
  row : ℕ
  /-- heights of the bars -/
  conc : Fin n → K
  /-- the markers; `none` is NaN -/
  pct : Fin n → Option K
  /-- whether the panel has entries in the legend -/
  legend : Bool

/-- `plot_all_factors` (`analysis.py:485-541`): the titles of the subplots and the panels drawn; `none` is the exception of the title without a
selected model. -/
def allFactors (tiny : K) (selected : Option ℤ) (W : Mat m k K) (H : Mat k n K) (factorList : Option (List ℤ)) :
    Option (List ℕ × List (FactorPanel n K)) :=
  selected.map fun _ => ((List.range k).map (· + 1),
    ((List.finRange k).filter fun f => match factorList with
      | none => true
      | some l => decide ((f.1 : ℤ) ∈ l)).map fun f => ⟨f.1 + 1, concSums tiny (fun i => W i f) (H f), fingerprint H f, decide (f.1 = 0)⟩)

end panels

section surface
variable {m n k : ℕ} {K : Type*} [Field K] [LinearOrder K]

/-- A floating point value: finite, infinite or NaN. -/
inductive Ext (K : Type*)
  /-- finite -/
  | fin (x : K)
  /-- `inf` -/
  | posInf
  /-- `-inf` -/
  | negInf
  /-- NaN -/
  | nan
  deriving DecidableEq

/-- `x / v` in numpy, zeros being positive. -/
def extDiv (x v : K) : Ext K :=
  if v = 0 then if x = 0 then .nan else if 0 < x then .posInf else .negInf else .fin (x / v)

/-- `_z[_z < zero_threshold] = np.nan` (`analysis.py:907`). -/
def extCut (t : K) : Ext K → Ext K
  | .fin x => if x < t then .nan else .fin x
  | .negInf => .nan
  | e => e

/-- What `plot_factor_surface` draws. -/
structure SurfaceFig (K : Type*) where
  /-- labels of the columns -/
  x : List String
  /-- the heights, row by row -/
  z : List (List (Ext K))
  /-- `ticktext` -/
  ticks : List String

/-- The heights before the threshold (`analysis.py:876-884`). -/
def surfaceZ (V : Mat m n K) (W : Mat m k K) (H : Mat k n K) (percentage : Bool) (f : Fin k) (i : Fin m) (j : Fin n) : Ext K :=
  if percentage then extDiv (W i f * H f j) (V i j) else .fin (W i f * H f j)

/-- A number from one that must be at most `c` (`analysis.py:866-875`): `none` is the warning. -/
def surfaceIdx (c : ℕ) (i : ℤ) : Option (Fin c) :=
  if h : 1 ≤ i ∧ i ≤ c then some ⟨(i - 1).toNat, by omega⟩ else none

/-- `plot_factor_surface` (`analysis.py:843-925`); `none` = a warning instead of the figure. -/
def factorSurface (features : Fin n → String) (V : Mat m n K) (W : Mat m k K) (H : Mat k n K) (factor feature : Option ℤ)
    (percentage : Bool) (t : K) : Option (SurfaceFig K) :=
  match factor, feature with
  | none, none => none
  | none, some j => (surfaceIdx n j).map fun j =>
      let x := (List.finRange k).map fun f : Fin k => s!"Factor {f.1 + 1}"
      ⟨x, List.ofFn fun i => List.ofFn fun f => surfaceZ V W H percentage f i j, x⟩
  | some f, j => (surfaceIdx k f).bind fun f =>
      if (match j with | none => true | some j => (surfaceIdx n j).isSome) then
        let z := fun i j => extCut t (surfaceZ V W H percentage f i j)
        some ⟨List.ofFn features, List.ofFn fun i => List.ofFn (z i),
          ((List.finRange n).filter fun j => !(List.finRange m).all fun i => decide (z i j = .nan)).map features⟩
      else none

end surface

end Esat
