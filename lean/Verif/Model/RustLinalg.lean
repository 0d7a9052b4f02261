import Verif.Model.Mat

/-!
# Model of the compiled determinant / adjoint / inverse

Models `calculate_inverse`, `calculate_adjoint`, `calculate_determinant`, `extract_minor` (`rust/lib.rs:47-118`,
`138-160`), which no other function of the crate calls.  Tensors are matrices over a field; device handling and dtype conversion are
not modelled.  `Tensor::to_scalar` is called on one-element tensors of rank 1 (`lib.rs:56-57,106`); whether candle
accepts that is the parameter `lenient` of `rustDet?`/`rustInverse?` (the released candle-core raises
`UnexpectedNumberOfDims` unless the rank is 0, i.e. `lenient = false`).
-/

namespace Esat

section
variable {K : Type*} [Field K]

/-- The index of the `i`-th row that is kept when row `r` is skipped (`lib.rs:147-155`). -/
def skipIdx {n : ℕ} (r : Fin (n + 1)) (i : Fin n) : Fin (n + 1) :=
  if i.val < r.val then i.castSucc else i.succ

/-- `extract_minor` (`lib.rs:138-160`). -/
def rustMinor {n : ℕ} (A : Mat (n + 1) (n + 1) K) (r c : Fin (n + 1)) : Mat n n K :=
  fun i j => A (skipIdx r i) (skipIdx c j)

/-- `calculate_determinant` (`lib.rs:97-118`): the entry for size one, otherwise the sum of the expansion along row 0.
For size zero the loop body never runs and the result is `0.0`. -/
def rustDet : (n : ℕ) → Mat n n K → K
  | 0, _ => 0
  | 1, A => A 0 0
  | n + 2, A => ∑ i : Fin (n + 2), (A 0 i * (-1) ^ i.val) * rustDet (n + 1) (rustMinor A 0 i)

/-- `calculate_adjoint` (`lib.rs:77-95`): signed minors, transposed. -/
def rustAdjoint : (n : ℕ) → Mat n n K → Mat n n K
  | 0, A => A
  | n + 1, A => fun j i => (-1) ^ (i.val + j.val) * rustDet n (rustMinor A i j)

/-- `calculate_inverse` (`lib.rs:47-75`); `pseudo` stands for the pseudo-inverse branch (`lib.rs:63-74`). -/
def rustInverse [DecidableEq K] (pseudo : ∀ n, Mat n n K → Option (Mat n n K)) (n : ℕ) (A : Mat n n K) :
    Option (Mat n n K) :=
  if rustDet n A ≠ 0 then some fun i j => rustAdjoint n A i j / rustDet n A else pseudo n A

/-- Reading the value of a one-element rank-1 tensor with `to_scalar` (`lib.rs:56,60,89,106`). -/
def toScalar1 {α : Type*} (lenient : Bool) (x : α) : Option α := if lenient then some x else none

/-- `calculate_determinant` with `to_scalar` failing as in candle when `lenient` is false: the base case reads
`tensor.get(0)?.to_scalar()` on a rank-1 tensor (`lib.rs:106`). -/
def rustDet? (lenient : Bool) : (n : ℕ) → Mat n n K → Option K
  | 0, _ => some 0
  | 1, A => toScalar1 lenient (A 0 0)
  | n + 2, A => (List.finRange (n + 2)).foldlM
      (fun acc i => do let d ← rustDet? lenient (n + 1) (rustMinor A 0 i); pure (acc + (A 0 i * (-1) ^ i.val) * d)) 0

/-- `calculate_inverse` with `to_scalar` failing on rank-1 tensors (`lib.rs:56-61`). -/
def rustInverse? [DecidableEq K] (lenient : Bool) (pseudo : ∀ n, Mat n n K → Option (Mat n n K)) (n : ℕ)
    (A : Mat n n K) : Option (Mat n n K) := do
  let d ← rustDet? lenient n A
  let d ← toScalar1 lenient d
  if d ≠ 0 then some fun i j => rustAdjoint n A i j / d else pseudo n A

end

end Esat
