import Mathlib.Tactic.Common

/-!
# Model of the memory layout conversions between NumPy and nalgebra

`SA.train` passes `V`, `U`, `We`, `W`, `H` to the compiled code (`esat/model/sa.py:401-416`), which rebuilds matrices from
the raw memory of the arrays (`rust/lib.rs:246-251`, `580-585`) and returns the factors through `na_to_ndarray`,
`to_pyarray` and `reshape` (`lib.rs:22-26,264-265,596-597`).  An array is its shape, memory order and logical contents
(a function of two indices; only indices inside the shape matter).  Only contiguous arrays are modelled
(`to_vec().unwrap()` panics on others); `astype` keeps the memory order (NumPy's default `order='K'`).
-/

namespace Esat

/-- Memory order of a contiguous two-dimensional NumPy array. -/
inductive Order
  /-- row-major (`C`) -/
  | rowMajor
  /-- column-major (`F`) -/
  | colMajor
  deriving DecidableEq, Repr

/-- A contiguous two-dimensional NumPy array. -/
structure NdArr (K : Type*) where
  /-- number of rows -/
  rows : ℕ
  /-- number of columns -/
  cols : ℕ
  /-- memory order -/
  order : Order
  /-- logical contents -/
  val : ℕ → ℕ → K

/-- The flat memory of the array (`PyReadonlyArrayDyn::to_vec`, `lib.rs:246-251`). -/
def NdArr.mem {K : Type*} (a : NdArr K) (p : ℕ) : K :=
  match a.order with
  | .rowMajor => a.val (p / a.cols) (p % a.cols)
  | .colMajor => a.val (p % a.rows) (p / a.rows)

/-- `OMatrix::from_vec(rows, cols, data)`: nalgebra fills column by column. -/
def naFromVec {K : Type*} (rows : ℕ) (data : ℕ → K) : ℕ → ℕ → K := fun i j => data (j * rows + i)

/-- The matrix the compiled code computes with for `V`, `U`, `We`: `from_vec(dims[0], dims[1], to_vec())`
(`lib.rs:246-248`, `580-582`). -/
def readData {K : Type*} (a : NdArr K) : ℕ → ℕ → K := naFromVec a.rows a.mem

/-- The matrix the compiled code computes with for `W`, `H`: `from_vec(dims[1], dims[0], to_vec()).transpose()`
(`lib.rs:250-251`, `584-585`). -/
def readFactor {K : Type*} (a : NdArr K) : ℕ → ℕ → K := fun i j => naFromVec a.cols a.mem j i

/-- The array handed back to Python for a result matrix `M` (`lib.rs:22-26,264-265`): `na_to_ndarray` writes the
column-major elements of `M` into a row-major `rows × cols` array, `.t()` turns that into a column-major `cols × rows`
view with the same memory, and `reshape` (`NPY_ANYORDER`) refills a column-major `rows × cols` array from that memory. -/
def returnFactor {K : Type*} (rows cols : ℕ) (M : ℕ → ℕ → K) : NdArr K :=
  -- buffer of `na_to_ndarray`: column-major elements of `M`
  let data : ℕ → K := fun p => M (p % rows) (p / rows)
  -- row-major `rows × cols` array over that buffer
  let arr : ℕ → ℕ → K := fun i j => data (i * cols + j)
  -- its transpose, column-major `cols × rows`
  let t : NdArr K := { rows := cols, cols := rows, order := .colMajor, val := fun i j => arr j i }
  -- reshape in memory order to `rows × cols`, column-major
  { rows := rows, cols := cols, order := .colMajor, val := fun i j => t.mem (j * rows + i) }

/-- One call of the compiled training function: `core` is the computation on matrices, `m × n` data, `k` factors
(`lib.rs:253-275`). -/
def compiledTrain {K : Type*} (core : (V U We W H : ℕ → ℕ → K) → (ℕ → ℕ → K) × (ℕ → ℕ → K))
    (V U We W H : NdArr K) : NdArr K × NdArr K :=
  let r := core (readData V) (readData U) (readData We) (readFactor W) (readFactor H)
  (returnFactor W.rows W.cols r.1, returnFactor H.rows H.cols r.2)

end Esat
