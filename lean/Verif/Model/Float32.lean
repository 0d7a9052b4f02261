import Verif.Model.Ieee
import Mathlib.Data.Rat.Defs

/-!
# Conversion to single precision

`DataHandler` converts the tables to `float32` (`esat/data/datahandler.py:284-287,306,334-341`) and `SA.train` hands
`float32` copies to the compiled code (`esat/model/sa.py:401-405`).  `Model/DataHandler.lean` has the conversion as a
parameter; here it is the IEEE rounding to nearest of `Model/Ieee.lean`.
-/

namespace Esat

/-- The magnitude rounded and the sign kept, before the overflow test (`Format.rnd`): `astype("float32")`
(`datahandler.py:286-287`) of a number below the overflow threshold. -/
def Format.toRat (F : Format) (x : ℚ) : ℚ := if 0 ≤ x then F.nearest x.toNNRat else -(F.nearest (-x).toNNRat : ℚ)

/-- `np.float32(x)`. -/
def float32 (x : ℚ) : ℚ := binary32.toRat x

end Esat
