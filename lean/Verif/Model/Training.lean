import Verif.Model.TrainLoop
import Verif.Model.LoopStep
import Verif.Model.Metrics

/-!
# A complete ls-nmf training run

The loop of `Model/TrainLoop.lean` with the update of `Model/LoopStep.lean` and the loss of `Model/Metrics.lean`.
-/

namespace Esat
variable {m n k : ℕ}

/-- The loss of the current factors, NaN (`none`) once a factor is spoilt (`lib.rs:365,911-921`). -/
def lsQ {K : Type*} [Field K] (V U : Mat m n K) : Option (Mat m k K) × Option (Mat k n K) → Option K
  | (some W, some H) => some (qLoss V U W H)
  | _ => none

/-- `ls_nmf_update_cpu` as called by `SA.train` with the weights of the constructor (`lib.rs:299-408`, `sa.py:79,401-416`).
`robust_mode` and `robust_n` are parameters of `SA.train` that are not passed on (`sa.py:330-331,401-416`). -/
def lsTrain {K : Type*} [Field K] [LinearOrder K] (V U : Mat m n K) (cfg : LoopCfg K) (clock : ℕ → Bool)
    (_robustMode : Bool) (_robustN : ℤ) (W : Mat m k K) (H : Mat k n K) :
    RustState (Option (Mat m k K) × Option (Mat k n K)) K :=
  rustLoop (lsLoopStep V (weights U)) (lsQ V U) cfg clock (some W, some H)

/-- Q(true) and Q(robust) as evaluated by the Python loop (`sa.py:438-439`). -/
noncomputable def lsQPy (V U : Mat m n ℝ) (alpha : ℝ) :
    Option (Mat m k ℝ) × Option (Mat k n ℝ) → Option ℝ × Option ℝ
  | (some W, some H) => (some (qLoss V U W H), some (qrLoss V U W H alpha).1)
  | _ => (none, none)

/-- The Python training loop for ls-nmf on a fresh model (`sa.py:430-464`). -/
noncomputable def lsTrainPy (V U : Mat m n ℝ) (alpha : ℝ) (cfg : LoopCfg ℝ) (W : Mat m k ℝ) (H : Mat k n ℝ) :
    Except PyErr (PyState (Option (Mat m k ℝ) × Option (Mat k n ℝ)) ℝ) :=
  pyLoop (lsLoopStep V (weights U)) (lsQPy V U alpha) cfg true false 0 (some W, some H)

end Esat
