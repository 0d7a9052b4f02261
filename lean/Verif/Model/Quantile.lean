import Mathlib.Data.List.Sort
import Mathlib.Algebra.Order.Floor.Semiring
import Mathlib.Algebra.Order.Floor.Ring
import Mathlib.Algebra.Field.Basic
import Mathlib.Algebra.BigOperators.Group.Finset.Basic
import Verif.Model.Mat

/-!
# Model of the percentile columns

`DataFrame.quantile`, `DataFrame.median`, `np.percentile` (all with linear interpolation), rounding to a number of decimals, and the
tables computed from them: the statistics of the bootstrap runs (`esat/error/bootstrap.py:599-640`), the metrics of the input data
(`esat/data/datahandler.py:395-414`), the statistics of the perturbations (`eval/perturbation.py:211-271`) and the aggregation of long
data sets for plots (`esat/data/datahandler.py:437-488`). NaN is `none`; numbers are exact.
-/

namespace Esat

section
variable {K : Type*} [Field K] [LinearOrder K] [FloorRing K]

/-- The `i`-th smallest value, the last one beyond the end. -/
def node (s : List K) (i : ℕ) : K := s.getD (min i (s.length - 1)) 0

/-- Linear interpolation between the sorted values at position `x`. -/
def interp (s : List K) (x : K) : K := node s ⌊x⌋₊ + (node s (⌊x⌋₊ + 1) - node s ⌊x⌋₊) * (x - ⌊x⌋₊)

/-- `Series.quantile(p)` and `np.percentile(values, 100 p)` of the values that are present: position `p (N - 1)` in the sorted values;
`none` = NaN. -/
def quantile (p : K) (l : List K) : Option K :=
  if l = [] then none else some (interp (l.insertionSort (· ≤ ·)) (p * ((l.length - 1 : ℕ) : K)))

/-- `Series.median()`: the middle value, the mean of the two middle values of an even number of values. -/
def median (l : List K) : Option K :=
  if l = [] then none
  else some ((node (l.insertionSort (· ≤ ·)) ((l.length - 1) / 2) + node (l.insertionSort (· ≤ ·)) (l.length / 2)) / 2)

/-- `np.rint`: the nearest integer, the even one halfway between two. -/
def rint (x : K) : ℤ :=
  if x - ⌊x⌋ < 1 / 2 then ⌊x⌋ else if 1 / 2 < x - ⌊x⌋ then ⌊x⌋ + 1 else if ⌊x⌋ % 2 = 0 then ⌊x⌋ else ⌊x⌋ + 1

/-- `np.round(x, d)`. -/
def roundTo (d : ℕ) (x : K) : K := rint (x * 10 ^ d) / 10 ^ d

/-- `a[a < cut] = 0.0`. -/
def cutBelow (cut x : K) : K := if x < cut then 0 else x

/-- Arithmetic mean; `none` = NaN. -/
def listMean (l : List K) : Option K := if l = [] then none else some (l.sum / l.length)

/-- `Series.var()` with one degree of freedom less; `none` = NaN for fewer than two values. -/
def sampleVar (l : List K) : Option K :=
  if l.length < 2 then none
  else some ((l.map fun x => (x - l.sum / l.length) ^ 2).sum / ((l.length - 1 : ℕ) : K))

/-! ### Bootstrap -/

/-- What the table keeps of one run's profile value (`bootstrap.py:562-565` and `627`). -/
def bsTableValue (x : K) : K := cutBelow (1 / 10 ^ 5) (roundTo 4 (cutBelow (1 / 10 ^ 8) x))

/-- One row of the table of `show_factor_results`, before the rounding to six digits (`bootstrap.py:632-640`). The column of the standard
deviation is represented by its square. -/
structure BsStatRow (K : Type*) where
  /-- `Base Run Profile` -/
  base : K
  /-- `Within IQR`; comparisons with NaN are false -/
  within : Bool
  /-- `BS Mean` -/
  mean : Option K
  /-- square of `BS Std. Dev.` -/
  var : Option K
  /-- `BS 5th` -/
  p5 : Option K
  /-- `BS 25th` -/
  p25 : Option K
  /-- `BS Median` -/
  med : Option K
  /-- `BS 75th` -/
  p75 : Option K
  /-- `BS 95th` -/
  p95 : Option K

/-- The row of one feature (`bootstrap.py:625-640`): `b` is the entry of the base profile, `runs` are the entries of the runs. -/
def bsStatRow (b : K) (runs : List K) : BsStatRow K :=
  let v := runs.map bsTableValue
  let b' := cutBelow (1 / 10 ^ 5) b
  { base := b'
    within := match quantile (1 / 4) v, quantile (3 / 4) v with
      | some q1, some q3 => decide (q1 ≤ b' ∧ b' ≤ q3)
      | _, _ => false
    mean := listMean v
    var := sampleVar v
    p5 := quantile (1 / 20) v
    p25 := quantile (1 / 4) v
    med := median v
    p75 := quantile (3 / 4) v
    p95 := quantile (19 / 20) v }

/-- The table of the losses (`bootstrap.py:599-605`): minimum, quartiles, median and maximum, rounded to whole numbers. -/
def bsQRow (qs : List K) : List (Option ℤ) :=
  [qs.min?, quantile (1 / 4) qs, median qs, quantile (3 / 4) qs, qs.max?].map fun x => x.map rint

/-! ### Metrics of the input data -/

/-- `Min`, `25th`, `50th`, `75th`, `Max` of a column (`datahandler.py:400-404`): NaN is skipped. -/
def columnMetrics (col : List (Option K)) : List (Option K) :=
  let v := col.filterMap id
  [v.min?, quantile (1 / 4) v, median v, quantile (3 / 4) v, v.max?]

/-! ### Perturbation -/

/-- `multiplier_stats` (`perturbation.py:211-218`): the means over the models of five percentiles of the multipliers; `none` = the
exception or NaN for an empty list. -/
def multiplierStats (ms : List (List K)) : Option (List K) :=
  if ms = [] then none
  else ([1 / 100, 1 / 4, 1 / 2, 3 / 4, 99 / 100] : List K).mapM fun p =>
    (ms.mapM (quantile p)).map fun l => l.sum / l.length

/-- One entry of the table of the perturbed profiles (`perturbation.py:243-262`) from the normalised base entry and those of the models:
mean, `% diff` (before the assignment of zeros NaN for 0/0), population variance, minimum and maximum. -/
structure PerturbRow (K : Type*) where
  /-- `Base` -/
  base : K
  /-- `Mean Perturb` -/
  mean : K
  /-- `% diff` -/
  diff : Option K
  /-- square of `STD Perturb` -/
  var : K
  /-- `Min Perturb` -/
  min : Option K
  /-- `Max Perturb` -/
  max : Option K

/-- The row for one feature; `vals` are the entries of the perturbed models. -/
def perturbRow (base : K) (vals : List K) : PerturbRow K :=
  let mean := vals.sum / vals.length
  let diff : Option K := if (mean + base) / 2 = 0 then none else some (roundTo 4 (100 * (mean - base) / ((mean + base) / 2)))
  { base := base, mean := mean
    diff := if mean < 1 / 10 ^ 6 then some 0 else diff
    var := (vals.map fun x => (x - mean) ^ 2).sum / vals.length
    min := vals.min?, max := vals.max? }

/-- The table (`perturbation.py:248-262`): `factor_i = 1` is the second factor, the only one shown; `none` = `IndexError`. `base` and the
models are normalised per feature and the models are mapped to the base factors. -/
def perturbTable {k n : ℕ} (base : Mat k n K) (models : List (Mat k n K)) : Option (Fin n → PerturbRow K) :=
  if h : 1 < k then some fun j => perturbRow (base ⟨1, h⟩ j) (models.map fun M => M ⟨1, h⟩ j) else none

/-! ### Aggregation for plots -/

/-- The edges of the bins (`datahandler.py:453,457`): the quantiles at `0, 1/B, …, 1`. -/
def aggEdges (B : ℕ) (l : List K) : Option (List K) := (List.range (B + 1)).mapM fun i : ℕ => quantile ((i : K) / B) l

/-- The bin of a value in `pd.cut(…, include_lowest=True)`: the number of edges below it, minus one; the lowest edge belongs to the first
bin; `none` = outside (NaN). -/
def cutBin (edges : List K) (x : K) : Option ℕ :=
  let id := if edges.head? = some x then 1 else edges.countP fun e => decide (e < x)
  if id = 0 ∨ id = edges.length then none else some (id - 1)

/-- `groupby(binned, observed=True)[col].mean().reset_index(drop=True)`: the means of the bins which are not empty. -/
def binMeans (edges : List K) (B : ℕ) (l : List K) : List K :=
  (List.range B).filterMap fun b => listMean (l.filter fun x => decide (cutBin edges x = some b))

/-- `pd.cut` with equal edges (`duplicates='drop'`): the equal edges are dropped, so that the number of labels does not fit, unless there
are only two edges (`labels = range(max_plotting_n)`): `ValueError`. -/
def cutAccepts (edges : List K) : Bool := decide (edges.length = 2 ∨ edges.Nodup)

/-- The aggregated column of the input (`datahandler.py:456-460`) for `B = max_plotting_n`; `none` = `ValueError`. -/
def aggregateColumn (B : ℕ) (col : List (Option K)) : Option (List K) :=
  (aggEdges B (col.filterMap id)).bind fun e => if cutAccepts e then some (binMeans e B (col.filterMap id)) else none

/-- `aggregate_output` for one column (`datahandler.py:479-485`): the bins of the input applied to another column. -/
def aggregateOutput (B : ℕ) (input : List (Option K)) (col : List K) : Option (List K) :=
  (aggEdges B (input.filterMap id)).bind fun e => if cutAccepts e then some (binMeans e B col) else none

end

end Esat
