import Verif.Model.Gpu
import Verif.Model.RustLinalg

/-!
# Shape model of the pseudo-inverse branch of `calculate_inverse`

`qr_decomposition`, `calculate_svd`, `create_diagonal` (`rust/lib.rs:35-45`, `120-136`, `162-184`) and the branch of `calculate_inverse` for
a vanishing determinant (`lib.rs:64-74`), reduced to the shapes of the tensors as in `Verif.Model.Gpu`: an error here is independent of the
values.  Of candle's checks these are modelled: `get` needs an index below the first dimension, `t` and `matmul` need rank 2, `slice_set`
needs tensors of equal rank, `to_vec1` and `dims1` need rank 1, element-wise operations need equal shapes, `to_scalar` needs rank 0.
Checks of the element type (`eye` makes integers, `zeros` single precision) are left out, so that every error below also occurs with them.
-/

namespace Esat

/-- `tensor.get(i)`. -/
def Shp.get (a : Shp) (i : ℕ) : Option Shp :=
  match a with
  | d :: rest => if i < d then some rest else none
  | [] => none

/-- `a.slice_set(&src, dim, offset)`: the check of the rank. -/
def Shp.sliceSet (a src : Shp) : Option Unit := if src.length = a.length then some () else none

/-- `x.to_scalar()`: the check of the rank. -/
def Shp.toScalar (a : Shp) : Option Unit := if a = [] then some () else none

/-- `x.to_vec1()` and `x.shape().dims1()`: the length. -/
def Shp.vec1 (a : Shp) : Option ℕ :=
  match a with
  | [d] => some d
  | _ => none

/-- One step of the inner loop of `qr_decomposition` (`lib.rs:171-176`): the new shape of `v`. -/
def qrProject (q r v : Shp) (j : ℕ) : Option Shp := do
  let qCol ← q.get j
  let x ← (← qCol.t).matmul v
  x.toScalar
  r.sliceSet [1]
  v.zip (← qCol.zip [1])

/-- One step of the outer loop of `qr_decomposition` (`lib.rs:169-180`). -/
def qrColumn (tensor q r : Shp) (i : ℕ) : Option Unit := do
  let v ← tensor.get i
  let v ← (List.range i).foldlM (qrProject q r) v
  let norm := v.tail
  r.sliceSet norm
  q.sliceSet (← v.zip norm)

/-- `qr_decomposition` (`lib.rs:162-184`): the shapes of `q` and `r`. -/
def qrShapes (rows cols : ℕ) : Option (Shp × Shp) := do
  let _ ← (List.range cols).mapM (qrColumn [rows, cols] [rows, cols] [cols, cols])
  some ([rows, cols], [cols, cols])

/-- One step of `calculate_svd` (`lib.rs:128-133`) on `(u, s, vt)`, with the decomposition as a parameter. -/
def svdStep (qr : ℕ → ℕ → Option (Shp × Shp)) (x : Shp × Shp × Shp) : Option (Shp × Shp × Shp) :=
  match x.2.1 with
  | [rows, cols] => do
    let p ← qr rows cols
    some (← x.1.matmul p.1, ← p.2.matmul p.1, ← p.1.matmul x.2.2)
  | _ => none

/-- `calculate_svd` (`lib.rs:120-136`): the shapes of `u`, `s` and `vt` after the given number of steps (100 in the code). -/
def svdShapes (qr : ℕ → ℕ → Option (Shp × Shp)) (steps rows cols : ℕ) : Option (Shp × Shp × Shp) :=
  (List.range steps).foldlM (fun x _ => svdStep qr x) ([rows, rows], [rows, cols], [cols, cols])

/-- `create_diagonal(tensor, 0)` (`lib.rs:35-45`): `tensor.get_on_dim(0, 0)` takes the first entry along the first dimension. -/
def createDiagonalShape (tensor : Shp) : Option Shp := do
  let size ← (← tensor.get 0).vec1
  some [size, size]

/-- The pseudo-inverse (`lib.rs:64-74`) of a tensor of shape `(n, n)`. -/
def pseudoShape (qr : ℕ → ℕ → Option (Shp × Shp)) (n : ℕ) : Option Shp := do
  let x ← svdShapes qr 100 n n
  let len ← x.2.1.vec1
  let diag ← createDiagonalShape [len]
  (← x.2.2.matmul diag).matmul (← x.1.t)

/-- The pseudo-inverse as it enters `rustInverse?`: an error of the shapes is an error; `values` stands for the numbers of a result. -/
def rustPseudo {K : Type*} (values : ∀ n, Mat n n K → Mat n n K) (n : ℕ) (A : Mat n n K) : Option (Mat n n K) :=
  (pseudoShape qrShapes n).map fun _ => values n A

end Esat
