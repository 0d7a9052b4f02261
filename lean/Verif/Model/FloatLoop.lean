import Verif.Model.Ieee
import Mathlib.Data.List.Basic

/-!
# The training loops with floating point losses

`Model/TrainLoop.lean` has the loops with exact losses or NaN. Here a loss may also be infinite and the test of the loops is evaluated in
floating point. The losses of the successive iterations are a sequence (how they arise from the updates is `Arith.Run`, `Arith.QOf` in
`Model/Ieee.lean`), the factors are left out.
-/

namespace Esat

namespace Arith
variable (A : Arith)

/-- The compiled loops (`rust/lib.rs:353-398`, `693-769`): number of iterations done and `converged`. `window` is `q_list`. -/
def flIter (q : ℕ → Fl) (convergeN : ℤ) (delta : Fl) : ℕ → ℕ → List Fl → ℕ × Bool
  | 0, i, _ => (i, false)
  | fuel + 1, i, window =>
    let w := window ++ [q i]
    let full := decide (convergeN ≤ (w.length : ℤ))
    if full && A.converges (w.headD .nan) (q i) delta then (i + 1, true)
    else flIter q convergeN delta fuel (i + 1) (if full then w.tail else w)

/-- The whole compiled loop. -/
def flLoop (q : ℕ → Fl) (convergeN : ℤ) (delta : Fl) (maxIter : ℤ) : ℕ × Bool := A.flIter q convergeN delta maxIter.toNat 0 []

/-- The Python loop (`esat/model/sa.py:434-464`); `r` are the values of Q(robust). `window` is `prior_q`; for `converge_n` of at least one it
is not empty after `pop`. -/
def flPyIter (q r : ℕ → Fl) (convergeN : ℤ) (delta : Fl) : ℕ → ℕ → List Fl → ℕ × Bool
  | 0, i, _ => (i, false)
  | fuel + 1, i, window =>
    let w := window ++ [q i]
    if q i = .nan ∨ r i = .nan then (i + 1, false)
    else if convergeN < (w.length : ℤ) then
      if A.converges (w.tail.headD .nan) (q i) delta then (i + 1, true)
      else flPyIter q r convergeN delta fuel (i + 1) w.tail
    else flPyIter q r convergeN delta fuel (i + 1) w

/-- The whole Python loop. -/
def flPyLoop (q r : ℕ → Fl) (convergeN : ℤ) (delta : Fl) (maxIter : ℤ) : ℕ × Bool :=
  A.flPyIter q r convergeN delta maxIter.toNat 0 []

end Arith

end Esat
