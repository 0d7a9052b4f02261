import Verif.Model.Mat
import Mathlib.Analysis.SpecialFunctions.Pow.NNReal

/-!
# Model of the WS-NMF (weighted semi-NMF) update

Models `esat/model/ws_nmf.py:9-98` (`WSNMF.update`) and the update statements of the compiled loop
`rust/lib.rs:693-735`, which are the same formulas.  Real numbers, no rounding.  The matrix inverse is a parameter
(`numpy.linalg.inv`/`pinv`, `nalgebra` `try_inverse`/`pseudo_inverse` are library code); the theorems assume only that
it really inverts the matrices they say are invertible.  A division by zero or the root of a negative number is `none`
(NumPy and Rust would give `inf`/`nan`).
-/

namespace Esat

/-- `EPSILON` (`esat/metrics.py`: `1e-12`), also the literal of `lib.rs:727-728`. -/
noncomputable def wsEps : ℝ := 1 / 1000000000000

section
variable {K : Type*} [Field K] {m n k : ℕ}

/-- `_w_d = H · (diagflat(We[i]) · H.T)` (`ws_nmf.py:45-54`, `lib.rs:698-701`). -/
def wsNormal (We : Mat m n K) (H : Mat k n K) (i : Fin m) : Mat k k K :=
  fun a b => ∑ j, H a j * (We i j * H b j)

/-- `_w_n = (H · uV[i]).flatten()` (`ws_nmf.py:42,48-51`, `lib.rs:699`). -/
def wsRhs (V We : Mat m n K) (H : Mat k n K) (i : Fin m) : Fin k → K :=
  fun a => ∑ j, H a j * (We i j * V i j)

/-- The new contributions, row by row `_w = _w_n · _w_di` (`ws_nmf.py:44-66`, `lib.rs:696-705`). -/
def wsStepW (inv : Mat k k K → Mat k k K) (V We : Mat m n K) (H : Mat k n K) : Mat m k K :=
  fun i b => ∑ a, wsRhs V We H i a * inv (wsNormal We H i) a b

end

section
variable {m n k : ℕ}

/-- `W_n = (np.abs(W) - W) / 2.0` (`ws_nmf.py:68`, `lib.rs:709`). -/
noncomputable def wsNeg (W : Mat m k ℝ) : Mat m k ℝ := fun i a => (|W i a| - W i a) / 2

/-- `W_p = (np.abs(W) + W) / 2.0` (`ws_nmf.py:69`, `lib.rs:710`). -/
noncomputable def wsPos (W : Mat m k ℝ) : Mat m k ℝ := fun i a => (|W i a| + W i a) / 2

/-- `uv_j.T · A` (`ws_nmf.py:76-80`, `lib.rs:716-717`). -/
noncomputable def wsLin (V We : Mat m n ℝ) (A : Mat m k ℝ) : Mat k n ℝ :=
  fun b j => ∑ i, (We i j * V i j) * A i b

/-- `hj · (A.T · diagflat(We[:, j]) · A)` (`ws_nmf.py:82-89`, `lib.rs:719-726`). -/
noncomputable def wsQuad (We : Mat m n ℝ) (A : Mat m k ℝ) (H : Mat k n ℝ) : Mat k n ℝ :=
  fun b j => ∑ a, H a j * ∑ i, A i a * We i j * A i b

/-- `_n = (n1 + n2) + EPSILON` (`ws_nmf.py:91`, `lib.rs:727`). -/
noncomputable def wsNum (V We : Mat m n ℝ) (W : Mat m k ℝ) (H : Mat k n ℝ) : Mat k n ℝ :=
  fun b j => (wsLin V We (wsPos W) b j + wsQuad We (wsNeg W) H b j) + wsEps

/-- `_d = (d1 + d2) + EPSILON` (`ws_nmf.py:92`, `lib.rs:728`). -/
noncomputable def wsDen (V We : Mat m n ℝ) (W : Mat m k ℝ) (H : Mat k n ℝ) : Mat k n ℝ :=
  fun b j => (wsLin V We (wsNeg W) b j + wsQuad We (wsPos W) H b j) + wsEps

/-- `_h = hj * np.sqrt(_n / _d)` (`ws_nmf.py:93-97`, `lib.rs:729-734`); `none` if an entry is not a real number. -/
noncomputable def wsStepH (V We : Mat m n ℝ) (W : Mat m k ℝ) (H : Mat k n ℝ) : Option (Mat k n ℝ) :=
  open Classical in
  if (∀ b j, wsDen V We W H b j ≠ 0 ∧ 0 ≤ wsNum V We W H b j / wsDen V We W H b j) then
    some fun b j => H b j * Real.sqrt (wsNum V We W H b j / wsDen V We W H b j)
  else none

/-- One WS-NMF update: W first, then, unless H is held, H from the new W (`ws_nmf.py:9-98`; `lib.rs:694-735`, where
`hold_h` is honoured). The incoming `W` is overwritten before it is read. -/
noncomputable def wsUpdate (inv : Mat k k ℝ → Mat k k ℝ) (V We : Mat m n ℝ) (holdH : Bool) (_W : Mat m k ℝ)
    (H : Mat k n ℝ) : Mat m k ℝ × Option (Mat k n ℝ) :=
  let W' := wsStepW inv V We H
  (W', if holdH then some H else wsStepH V We W' H)

end

end Esat
