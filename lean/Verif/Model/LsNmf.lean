import Verif.Model.Mat

/-!
# Model of the LS-NMF update

Models `esat/model/ls_nmf.py` (class `LSNMF`) and the update statements of the compiled loop
`rust/lib.rs:353-363` (`ls_nmf_update_cpu`), which are the same formulas.

Numbers are elements of a field `K`; floating point rounding is not modelled.  NumPy division by zero gives
`nan`/`inf`; here a whole update whose denominator matrices contain a zero is `none` ("the arrays now contain
non-finite values"), so no theorem profits from Lean's `x / 0 = 0`.
-/

namespace Esat

variable {K : Type*} [Field K] {m n k : ℕ}

/-- `H_num = np.matmul(W.T, WeV)` (`ls_nmf.py:39,42`, `lib.rs:348,356`). -/
def lsHNum (V We : Mat m n K) (W : Mat m k K) : Mat k n K :=
  tr W ⬝ emul We V

/-- `H_den = np.matmul(W.T, np.multiply(We, WH))` (`ls_nmf.py:41,43`, `lib.rs:355,357`). -/
def lsHDen (We : Mat m n K) (W : Mat m k K) (H : Mat k n K) :
    Mat k n K :=
  tr W ⬝ emul We (W ⬝ H)

/-- `W_num = np.matmul(WeV, H.T)` (`ls_nmf.py:47`, `lib.rs:361`). -/
def lsWNum (V We : Mat m n K) (H : Mat k n K) : Mat m k K :=
  emul We V ⬝ tr H

/-- `W_den = np.matmul(np.multiply(We, WH), H.T)` (`ls_nmf.py:46,48`, `lib.rs:360,362`). -/
def lsWDen (We : Mat m n K) (W : Mat m k K) (H : Mat k n K) :
    Mat m k K :=
  emul We (W ⬝ H) ⬝ tr H

/-- The H half step, `H = np.multiply(H, np.divide(H_num, H_den))` (`ls_nmf.py:44`, `lib.rs:358`);
`none` when a denominator is zero. -/
def lsStepH [DecidableEq K] (V We : Mat m n K) (W : Mat m k K)
    (H : Mat k n K) : Option (Mat k n K) :=
  if NoZero (lsHDen We W H) then some (emul H (ediv (lsHNum V We W) (lsHDen We W H))) else none

/-- The W half step, `W = np.multiply(W, np.divide(W_num, W_den))` (`ls_nmf.py:49`, `lib.rs:363`);
`none` when a denominator is zero. -/
def lsStepW [DecidableEq K] (V We : Mat m n K) (W : Mat m k K)
    (H : Mat k n K) : Option (Mat m k K) :=
  if NoZero (lsWDen We W H) then some (emul W (ediv (lsWNum V We H) (lsWDen We W H))) else none

/-- `LSNMF.update(V, We, W, H, hold_h)` (`esat/model/ls_nmf.py:7-51`; one iteration of `lib.rs:354-363`).
`none` = some entry of the result is `nan`/`inf`. -/
def lsUpdate [DecidableEq K] (V We : Mat m n K) (holdH : Bool)
    (W : Mat m k K) (H : Mat k n K) :
    Option (Mat m k K × Mat k n K) := do
  let H' ← if holdH then some H else lsStepH V We W H
  let W' ← lsStepW V We W H'
  return (W', H')

/-- Successive calls of `LSNMF.update`, one per entry of the list, the entry being the `hold_h` flag of that call
(the training loops `sa.py:434-437`, `lib.rs:353-363` without the stopping rule, which is modelled separately). -/
def lsRun [DecidableEq K] (V We : Mat m n K) :
    List Bool → Mat m k K → Mat k n K →
    Option (Mat m k K × Mat k n K)
  | [], W, H => some (W, H)
  | b :: bs, W, H => do
    let p ← lsUpdate V We b W H
    lsRun V We bs p.1 p.2

/-- The losses recorded by the training loop after each update (`lib.rs:365-368`, `sa.py:438-442`), for a given
loss function of the current factors. Stops at the first undefined update. -/
def lsTrace [DecidableEq K] {α : Type*} (V We : Mat m n K)
    (loss : Mat m k K → Mat k n K → α) :
    List Bool → Mat m k K → Mat k n K → List α
  | [], _, _ => []
  | b :: bs, W, H =>
    match lsUpdate V We b W H with
    | none => []
    | some p => loss p.1 p.2 :: lsTrace V We loss bs p.1 p.2

end Esat
