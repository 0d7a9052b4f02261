import Mathlib.Algebra.BigOperators.Group.Finset.Basic
import Mathlib.Data.Fintype.BigOperators
import Mathlib.Data.Fintype.Basic
import Mathlib.Algebra.Order.Field.Basic
import Mathlib.Algebra.Order.BigOperators.Group.Finset
import Mathlib.Algebra.Order.BigOperators.Ring.Finset

/-!
# Two-dimensional arrays

NumPy two-dimensional arrays (and nalgebra matrices) as functions on `Fin m × Fin n`, with the handful of array
operations the code uses.
-/

namespace Esat

/-- A two-dimensional NumPy array with `m` rows and `n` columns. -/
abbrev Mat (m n : ℕ) (K : Type*) := Fin m → Fin n → K

variable {K : Type*} [Field K] {m n k : ℕ}

/-- `np.matmul(A, B)` of two-dimensional arrays. -/
def mmul (A : Mat m k K) (B : Mat k n K) : Mat m n K := fun i j => ∑ a, A i a * B a j

@[inherit_doc] infixl:70 " ⬝ " => mmul

/-- `A.T`. -/
def tr {K : Type*} {m n : ℕ} (A : Mat m n K) : Mat n m K := fun i j => A j i

/-- `np.multiply(A, B)` on equally shaped matrices (`ls_nmf.py:39`). -/
def emul (A B : Mat m n K) : Mat m n K := fun i j => A i j * B i j

/-- `np.divide(A, B)` on equally shaped matrices (`ls_nmf.py:44,49`); only used under the guard `NoZero B`. -/
def ediv (A B : Mat m n K) : Mat m n K := fun i j => A i j / B i j

/-- No entry is zero: NumPy's division by this matrix produces finite numbers only. -/
def NoZero (A : Mat m n K) : Prop := ∀ i j, A i j ≠ 0

instance [DecidableEq K] (A : Mat m n K) : Decidable (NoZero A) :=
  inferInstanceAs (Decidable (∀ i j, A i j ≠ 0))

end Esat
