import Verif.Model.Training

/-!
# `robust_alpha` outside its usual range

`qr_loss` entry by entry with NaN as `none` (`esat/metrics.py:26-38`), and the Python training loop with this loss. `Model/Metrics.lean` has the
formula for a positive `alpha` only. An infinite robust uncertainty (`alpha = 0`) is treated by the value it leads to: the quotient by it is zero.
-/

namespace Esat
variable {m n k : ℕ}

/-- The final entry of `scaled_residuals` for the residual `r` and the uncertainty `u` (`metrics.py:29-33`): the square root of a negative number
is NaN (line 30); for `alpha = 0` the robust uncertainty is infinite and `r` divided by it 0 (lines 30, 32). -/
noncomputable def robustEntry (r u alpha : ℝ) : Option ℝ :=
  let s := |r / u|
  if s > alpha then
    if alpha = 0 then some 0
    else if s / alpha < 0 then none
    else
      let ru0 := Real.sqrt (s / alpha) * u
      some |r / (if ru0 ≤ 0 then 1 / 10 ^ 12 else ru0)|
  else some s

open Classical in
/-- `_q` of `qr_loss` (`metrics.py:34`): NaN as soon as an entry is NaN. -/
noncomputable def qrLossNan (V U : Mat m n ℝ) (W : Mat m k ℝ) (H : Mat k n ℝ) (alpha : ℝ) : Option ℝ :=
  if ∃ i j, robustEntry (V i j - (W ⬝ H) i j) (U i j) alpha = none then none
  else some (∑ i, ∑ j, (robustEntry (V i j - (W ⬝ H) i j) (U i j) alpha).getD 0 ^ 2)

/-- Q(true) and Q(robust) as evaluated in the Python loop (`sa.py:438-439`). -/
noncomputable def lsQPyNan (V U : Mat m n ℝ) (alpha : ℝ) : Option (Mat m k ℝ) × Option (Mat k n ℝ) → Option ℝ × Option ℝ
  | (some W, some H) => (some (qLoss V U W H), qrLossNan V U W H alpha)
  | _ => (none, none)

/-- The Python training loop for ls-nmf on a fresh model, for any `robust_alpha` (`sa.py:430-464`). -/
noncomputable def lsTrainPyNan (V U : Mat m n ℝ) (alpha : ℝ) (cfg : LoopCfg ℝ) (W : Mat m k ℝ) (H : Mat k n ℝ) :
    Except PyErr (PyState (Option (Mat m k ℝ) × Option (Mat k n ℝ)) ℝ) :=
  pyLoop (lsLoopStep V (weights U)) (lsQPyNan V U alpha) cfg true false 0 (some W, some H)

end Esat
