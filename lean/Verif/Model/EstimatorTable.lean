import Verif.Model.Estimator
import Verif.Model.Quantile

/-!
# Model of a run of the factor estimator and its table

`FactorEstimator.run` (`esat/estimator.py:90-155`) with the random draws, the pool and its callbacks, the table of `_results`
(157-195) and the lines of `plot` (197-233). Numbers are exact. NaN and the infinities of a division by zero are `none`; the outer `none` is an
exception. The number of processes is in `Model/BsRun.lean`.
-/

namespace Esat

section table
variable {K : Type*} [Field K] [LinearOrder K]

/-- A difference of floats, NaN if one of them is. -/
def subNan (x y : Option K) : Option K := x.bind fun a => y.map fun b => a - b

/-- `np.mean` of values that may be NaN (`estimator.py:150-153`). -/
def meanNan (l : List (Option K)) : Option K := if l.all Option.isSome then meanOpt (l.filterMap id) else none

/-- `np.max`: NaN if a value is NaN. -/
def maxNan (l : List (Option K)) : Option K := if l.all Option.isSome then (l.filterMap id).max? else none

/-- `delta_mse_r` (`estimator.py:158-161`). -/
def deltaMse (test : List (Option K)) : List (Option K) :=
  (List.range (test.length - 1)).map fun f => subNan (test.getD f none) (test.getD (f + 1) none)

/-- `c * (a / b)`, not finite for `b = 0`. -/
def ratioNan (c a b : Option K) : Option K := c.bind fun c => a.bind fun a => b.bind fun b => if b = 0 then none else some (c * (a / b))

/-- `ratio_delta` (`estimator.py:162-168`). -/
def ratioDelta (test : List (Option K)) : List (Option K) :=
  none :: ((List.range (test.length - 2)).map fun f =>
    ratioNan ((maxNan (deltaMse test)).map fun x => 101 / 100 * x) ((deltaMse test).getD f none) ((deltaMse test).getD (f + 1) none)) ++ [none]

/-- `results_df` (`estimator.py:184-194`) and `estimated_factor`. -/
structure EstTable (K : Type*) where
  /-- `Factors` -/
  factors : List ℕ
  /-- `Test MSE` -/
  test : List (Option K)
  /-- `Train MSE` -/
  train : List (Option K)
  /-- `Delta MSE` -/
  delta : List (Option K)
  /-- `Delta Ratio` -/
  ratio : List (Option K)
  /-- `K Estimate` -/
  kEstimate : List (Option K)
  /-- `Q(True)` -/
  qtrue : List (Option K)
  /-- `Q(Robust)` -/
  qrobust : List (Option K)
  /-- `estimated_factor` -/
  estimated : ℤ

/-- `_results` (`estimator.py:157-195`) for the means of the four lists; `np.max` of an empty list and columns of different lengths raise. -/
def estResults (minF maxF : ℕ) (pw : ℕ → K) (test train qtrue qrobust : List (Option K)) : Option (EstTable K) :=
  (estimate minF pw test).bind fun est =>
    let T : EstTable K := ⟨(List.range (maxF + 1 - minF)).map (minF + ·), test, train, none :: deltaMse test, ratioDelta test, kEst minF pw test,
      qtrue, qrobust, est⟩
    if [T.test.length, T.train.length, T.delta.length, T.ratio.length, T.kEstimate.length, T.qtrue.length, T.qrobust.length].all
      (· = T.factors.length) then some T else none

/-- The table for finished samples, in the order in which they finished (`estimator.py:142-155`). -/
def estFinish (minF maxF : ℕ) (pw : ℕ → K) (rs : List (Sample (Option K))) : Option (EstTable K) :=
  let l := collect minF maxF rs
  estResults minF maxF pw (l.test.map meanNan) (l.train.map meanNan) (l.qtrue.map meanNan) (l.qrobust.map meanNan)

/-- The vertical lines of `plot` (`estimator.py:224-229`): the actual number if one is given that is not zero, then the estimate. -/
def estLines (T : EstTable K) (actual : Option ℤ) : List ℤ :=
  (match actual with | none => [] | some a => if a = 0 then [] else [a]) ++ [T.estimated]

end table

section run
variable {K : Type*} [Field K] [LinearOrder K] [FloorRing K] {m n : ℕ} {S : Type*}

/-- The generator of the estimator (`estimator.py:44`): seeds, factor numbers between the bounds (`none` = `ValueError` for an empty range) and a
matrix of uniform numbers. -/
structure EstGen (m n : ℕ) (K S : Type*) where
  /-- `rng.integers(low=100, high=1e6)` -/
  seed : S → ℕ × S
  /-- `rng.integers(low=min_factors, high=max_factors + 1)` -/
  factor : ℕ → ℕ → S → Option (ℕ × S)
  /-- `rng.random(size=n)` for every row -/
  draw : S → Mat m n K × S

/-- The parameters of the samples (`estimator.py:130-135`). -/
def estTasks (g : EstGen m n K S) (thr : K) (minF maxF : ℕ) : ℕ → S → Option (List (ℕ × ℕ × Mat m n ℤ))
  | 0, _ => some []
  | r + 1, s =>
    let (seed, s1) := g.seed s
    (g.factor minF maxF s1).bind fun p =>
      let (d, s3) := g.draw p.2
      (estTasks g thr minF maxF r s3).map fun ts => (seed, p.1, getMask thr d) :: ts

/-- `_random_sample` (`estimator.py:71-88`); `train` is the training of a model with the given seed and number of factors: its `WH` and losses,
`none` = an exception. -/
def estSample (V : Mat m n K) (train : ℕ → ℕ → Option (Mat m n K × K × K)) (t : ℕ × ℕ × Mat m n ℤ) : Option (Sample (Option K)) :=
  (train t.1 t.2.1).map fun r =>
    ⟨maskedMse (roundTo 5) t.2.2 V r.1, maskedMse (roundTo 5) (testMask t.2.2) V r.1, t.2.1, some r.2.1, some r.2.2⟩

/-- `run` (`estimator.py:90-155`): `sched` is the order in which the samples finish. A sample that raises is noticed after all have finished. -/
def estRun (g : EstGen m n K S) (thr : K) (minF maxF samples : ℕ) (pw : ℕ → K) (V : Mat m n K)
    (train : ℕ → ℕ → Option (Mat m n K × K × K)) (sched : List (ℕ × ℕ × Mat m n ℤ) → List (ℕ × ℕ × Mat m n ℤ)) (s : S) : Option (EstTable K) :=
  (estTasks g thr minF maxF samples s).bind fun ts =>
    let rs := (sched ts).map (estSample V train)
    if rs.all Option.isSome then estFinish minF maxF pw (rs.filterMap id) else none

end run

end Esat
