import Verif.Model.Mat
import Mathlib.Data.List.Basic
import Mathlib.Algebra.Order.BigOperators.Group.List

/-!
# Model of the factor estimator (`esat/estimator.py`)

`_get_mask` (56-61), `_random_sample` (71-88), `_update_pbar` (63-69), the aggregation in `run` (90-155) and `_results`
(157-195). The random draws are inputs. Arithmetic is exact; NaN is `none`; rounding to five digits is a function `rnd`.
-/

namespace Esat

section sample
variable {K : Type*} [Field K] [LinearOrder K] {m n : ℕ}

/-- `_get_mask` (`estimator.py:56-61`): 1 where the random number exceeds the threshold. -/
def getMask (thr : K) (draw : Mat m n K) : Mat m n ℤ := fun i j => if thr < draw i j then 1 else 0

/-- The test mask (`estimator.py:74-76`): a copy on which `i_mask[i_mask == 1] = 0` and then `i_mask[i_mask == 0] = 1` are
executed. -/
def testMask (mask : Mat m n ℤ) : Mat m n ℤ :=
  let a : Mat m n ℤ := fun i j => if mask i j = 1 then 0 else mask i j
  fun i j => if a i j = 0 then 1 else a i j

/-- `np.count_nonzero`. -/
def countNZ (a : Mat m n ℤ) : ℕ := ((Finset.univ : Finset (Fin m × Fin n)).filter fun p => a p.1 p.2 ≠ 0).card

/-- `np.round(np.multiply(mask, residuals**2).sum() / count, 5)`; `0 / 0` is NaN. -/
def maskedMse (rnd : K → K) (mask : Mat m n ℤ) (V WH : Mat m n K) : Option K :=
  if countNZ mask = 0 then none
  else some (rnd ((∑ i, ∑ j, (mask i j : K) * (V i j - WH i j) ^ 2) / countNZ mask))

/-- `_random_sample` (`estimator.py:71-88`): train and test error. `train` stands for construction, initialisation and training
of the model, which get the complete data. -/
def randomSample (rnd : K → K) (train : Mat m n K → Mat m n K → ℕ → ℕ → Mat m n K) (V U : Mat m n K) (mask : Mat m n ℤ)
    (seed factors : ℕ) : Option K × Option K :=
  let WH := train V U seed factors
  (maskedMse rnd mask V WH, maskedMse rnd (testMask mask) V WH)

end sample

section aggregate
variable {K : Type*}

/-- The result of one sample, as passed to the callback. -/
structure Sample (K : Type*) where
  /-- training error -/
  train : K
  /-- test error -/
  test : K
  /-- number of factors -/
  k : ℕ
  /-- Q(true) -/
  qtrue : K
  /-- Q(robust) -/
  qrobust : K

/-- One list per factor number and quantity. -/
structure Lists4 (K : Type*) where
  /-- training errors -/
  train : List (List K)
  /-- test errors -/
  test : List (List K)
  /-- Q(true) -/
  qtrue : List (List K)
  /-- Q(robust) -/
  qrobust : List (List K)

/-- `_update_pbar` (`estimator.py:63-69`). -/
def updatePbar (minF : ℕ) (s : Lists4 K) (r : Sample K) : Lists4 K :=
  ⟨s.train.modify (r.k - minF) (· ++ [r.train]), s.test.modify (r.k - minF) (· ++ [r.test]),
    s.qtrue.modify (r.k - minF) (· ++ [r.qtrue]), s.qrobust.modify (r.k - minF) (· ++ [r.qrobust])⟩

/-- The lists after all callbacks, in the order in which the samples finished (`estimator.py:120-144`). -/
def collect (minF maxF : ℕ) (rs : List (Sample K)) : Lists4 K :=
  rs.foldl (updatePbar minF) ⟨List.replicate (maxF + 1 - minF) [], List.replicate (maxF + 1 - minF) [],
    List.replicate (maxF + 1 - minF) [], List.replicate (maxF + 1 - minF) []⟩

end aggregate

section results
variable {K : Type*} [Field K] [LinearOrder K]

/-- `np.mean`: NaN for an empty list. -/
def meanOpt (l : List K) : Option K := if l = [] then none else some (l.sum / l.length)

/-- `np.min`: NaN if a value is NaN. -/
def minOpt (l : List (Option K)) : Option K :=
  if l.all Option.isSome then (l.filterMap id).min? else none

/-- `k_est` (`estimator.py:170-174`); `pw k` is `np.power(k, k_coef)`. A division by zero can only be `0/0` (errors are not
negative and the numerator is their minimum), which is NaN. -/
def kEst (minF : ℕ) (pw : ℕ → K) (mse : List (Option K)) : List (Option K) :=
  mse.zipIdx.map fun p => (minOpt mse).bind fun mn => p.1.bind fun e =>
    if e * pw (p.2 + minF) = 0 then none else some (mn / (e * pw (p.2 + minF)))

/-- `np.nanargmax` with the best position so far: the first maximum. -/
def nanArgmax : List (Option K) → ℕ → Option (ℕ × K) → Option (ℕ × K)
  | [], _, best => best
  | none :: l, i, best => nanArgmax l (i + 1) best
  | some x :: l, i, none => nanArgmax l (i + 1) (some (i, x))
  | some x :: l, i, some (b, y) => nanArgmax l (i + 1) (if y < x then some (i, x) else some (b, y))

/-- `estimated_factor` (`estimator.py:157-183`). The outer `none` is the `ValueError` of `np.max` for an empty list of
differences (fewer than two factor numbers). -/
def estimate (minF : ℕ) (pw : ℕ → K) (mse : List (Option K)) : Option ℤ :=
  if mse.length < 2 then none
  else match nanArgmax (kEst minF pw mse) 0 none with
    | none => some (-1)
    | some (i, _) => some ((i : ℤ) + minF)

/-- The mean test errors and the estimate for finished samples. -/
def runEstimate (minF maxF : ℕ) (pw : ℕ → K) (rs : List (Sample K)) : Option ℤ :=
  estimate minF pw ((collect minF maxF rs).test.map meanOpt)

end results

end Esat
