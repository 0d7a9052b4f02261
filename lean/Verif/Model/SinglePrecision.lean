import Verif.Model.Float32
import Verif.Model.SA

/-!
# The data as the model keeps them

The first lines of `SA.__init__` (`sa.py:72-76`) for finite data below the overflow threshold; `Model/SA.lean` has the same
constructor for exact numbers.
-/

namespace Esat
variable {m n : ℕ}

/-- `self.V = V.astype(np.float32)` (`sa.py:72`). -/
def keptV (V : Mat m n ℚ) : Mat m n ℚ := fun i j => float32 (V i j)

/-- `self.U = U.astype(np.float32)` and `self.U[self.U < EPSILON] = EPSILON` (`sa.py:73,76`). -/
def keptU (U : Mat m n ℚ) : Mat m n ℚ :=
  fun i j => if float32 (U i j) < float32 (epsilon ℚ) then float32 (epsilon ℚ) else float32 (U i j)

end Esat
