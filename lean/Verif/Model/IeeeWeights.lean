import Verif.Model.Ieee

/-!
# The weights in floating point arithmetic

`SA.__init__` (`sa.py:72-79`) converts the uncertainties to `float32`, replaces those below `EPSILON` and computes the weights.
`U ** 2` of an array is `np.square`, one rounded product.  The comparison and the assignment convert `EPSILON` to the type of
the array.
-/

namespace Esat
open Fl

namespace Arith
variable (A : Arith)

/-- `self.U[self.U < EPSILON] = EPSILON` (`sa.py:76`) for one entry. -/
def floorF (eps u : Fl) : Fl := if u.lt eps then eps else u

/-- `np.divide(1, self.U ** 2)` (`sa.py:79`) for one entry. -/
def weightF (u : Fl) : Fl := A.div (.fin false 1) (A.mul u u)

end Arith

/-- `EPSILON = 1e-12` (`metrics.py:7`) as a number of the format. -/
def Format.eps (F : Format) : Fl := F.arith.round false (1 / 10 ^ 12)

end Esat
