import Mathlib.Data.NNRat.Defs
import Mathlib.Data.NNRat.Floor
import Mathlib.Data.NNRat.BigOperators
import Mathlib.Data.Int.Log
import Mathlib.Algebra.Order.Field.Rat
import Mathlib.Data.Fintype.Basic
import Verif.Model.Mat

/-!
# Floating point arithmetic and the update formulas evaluated in it

The other modules compute with exact numbers.  Here the same formulas are evaluated in IEEE 754 arithmetic with signed
zeros, infinities and NaN, as `float32` (`sa.py:72-79`, `lib.rs`) or `float64` does.

* A number is NaN, a signed infinity or a sign and a rational magnitude.
* The rounding of magnitudes is a parameter (`Arith`); it may overflow (`none`) and underflow (to zero).
  `Format.arith` is the IEEE rounding to nearest, ties to even, of a binary format; `binary32` and `binary64` are its
  instances.
* Matrix products are a relation (`Dot`): BLAS and nalgebra may sum the products in any order and grouping, may start
  from zero and may use fused multiply-add.  A theorem about the relation holds for all these evaluations.
* Not modelled: the payload and sign of NaN, exception flags, other rounding directions.
-/

namespace Esat

/-- A floating point number: NaN, an infinity or a finite number with its sign (`true` = negative) and magnitude. -/
inductive Fl where
  | nan
  | inf (s : Bool)
  | fin (s : Bool) (x : ℚ≥0)
  deriving DecidableEq

/-- An arithmetic: rounding of exact magnitudes (`none` = overflow) and the rounded square root. -/
structure Arith where
  rnd : ℚ≥0 → Option ℚ≥0
  rnd_zero : rnd 0 = some 0
  sqrt : ℚ≥0 → ℚ≥0

namespace Fl

/-- `-x`. -/
def neg : Fl → Fl
  | nan => nan
  | inf s => inf !s
  | fin s x => fin (!s) x

/-- `np.abs(x)`, `x.abs()` (`ws_nmf.py:68-69`, `lib.rs:707-708`). -/
def abs : Fl → Fl
  | nan => nan
  | inf _ => inf false
  | fin _ x => fin false x

/-- `x < y`: false if one of them is NaN; the two zeros are equal. -/
def lt : Fl → Fl → Bool
  | nan, _ => false
  | _, nan => false
  | inf s, inf t => s && !t
  | inf s, fin _ _ => s
  | fin _ _, inf t => !t
  | fin false x, fin false y => decide (x < y)
  | fin true x, fin true y => decide (y < x)
  | fin true x, fin false y => decide (x ≠ 0 ∨ y ≠ 0)
  | fin false _, fin true _ => false

end Fl

namespace Arith
variable (A : Arith)

/-- The exact number with sign `s` and magnitude `x`, rounded. -/
def round (s : Bool) (x : ℚ≥0) : Fl :=
  match A.rnd x with
  | none => .inf s
  | some y => .fin s y

/-- `x + y`.  An exact difference of zero is `+0`. -/
def add : Fl → Fl → Fl
  | .nan, _ => .nan
  | _, .nan => .nan
  | .inf s, .inf t => if s = t then .inf s else .nan
  | .inf s, .fin _ _ => .inf s
  | .fin _ _, .inf t => .inf t
  | .fin s x, .fin t y =>
    if s = t then A.round s (x + y)
    else if x = y then .fin false 0
    else if y < x then A.round s (x - y)
    else A.round t (y - x)

/-- `x - y`. -/
def sub (x y : Fl) : Fl := A.add x y.neg

/-- The product with the magnitude of finite products given by `f`. -/
def mulWith (f : Bool → ℚ≥0 → Fl) : Fl → Fl → Fl
  | .nan, _ => .nan
  | _, .nan => .nan
  | .inf s, .inf t => .inf (xor s t)
  | .inf s, .fin t y => if y = 0 then .nan else .inf (xor s t)
  | .fin s x, .inf t => if x = 0 then .nan else .inf (xor s t)
  | .fin s x, .fin t y => f (xor s t) (x * y)

/-- `x * y`. -/
def mul (x y : Fl) : Fl := mulWith A.round x y

/-- Fused multiply-add `x * y + z`: the product is not rounded. -/
def fma (x y z : Fl) : Fl := A.add (mulWith Fl.fin x y) z

/-- `x / y`. -/
def div : Fl → Fl → Fl
  | .nan, _ => .nan
  | _, .nan => .nan
  | .inf _, .inf _ => .nan
  | .inf s, .fin t _ => .inf (xor s t)
  | .fin s _, .inf t => .fin (xor s t) 0
  | .fin s x, .fin t y =>
    if y = 0 then (if x = 0 then .nan else .inf (xor s t))
    else A.round (xor s t) (x / y)

/-- `np.sqrt(x)`, `x.sqrt()` (`ws_nmf.py:95`, `lib.rs:730`): negative numbers give NaN, zeros keep their sign. -/
def sqrtF : Fl → Fl
  | .nan => .nan
  | .inf s => if s then .nan else .inf false
  | .fin s x => if x = 0 then .fin s 0 else if s then .nan else .fin false (A.sqrt x)

/-- `Dot A x y d S s`: some evaluation of the sum of `x i * y i` over `i ∈ S`, in which every product passes at most `d`
roundings, gives `s`.  Covers every order and grouping, a start value of zero and fused multiply-add
(`np.matmul`, nalgebra's `*` and `sum`). -/
inductive Dot {ι : Type} [DecidableEq ι] (x y : ι → Fl) : ℕ → Finset ι → Fl → Prop
  | zero : Dot x y 0 ∅ (.fin false 0)
  | term (i : ι) : Dot x y 1 {i} (A.mul (x i) (y i))
  | fma {d S s} (i : ι) (hi : i ∉ S) : Dot x y d S s → Dot x y (d + 1) (insert i S) (A.fma (x i) (y i) s)
  | add {d d' S T s t} (h : Disjoint S T) : Dot x y d S s → Dot x y d' T t →
      Dot x y (max d d' + 1) (S ∪ T) (A.add s t)

/-- `Z` is some evaluation of `np.matmul(X, Y)` with at most `d` roundings per product. -/
def MatMul {m k n : ℕ} (d : ℕ) (X : Mat m k Fl) (Y : Mat k n Fl) (Z : Mat m n Fl) : Prop :=
  ∀ i j, ∃ d' ≤ d, A.Dot (X i) (fun a => Y a j) d' Finset.univ (Z i j)

variable {m n k : ℕ}

/-- The H half step of ls-nmf (`ls_nmf.py:39-44`, `lib.rs:348,355-358`): `H'` is some evaluation of it. -/
def StepH (d : ℕ) (V We : Mat m n Fl) (W : Mat m k Fl) (H H' : Mat k n Fl) : Prop :=
  ∃ (WH : Mat m n Fl) (num den : Mat k n Fl),
    A.MatMul d W H WH ∧
    A.MatMul d (tr W) (fun i j => A.mul (We i j) (V i j)) num ∧
    A.MatMul d (tr W) (fun i j => A.mul (We i j) (WH i j)) den ∧
    ∀ a j, H' a j = A.mul (H a j) (A.div (num a j) (den a j))

/-- The W half step of ls-nmf (`ls_nmf.py:46-49`, `lib.rs:360-363`). -/
def StepW (d : ℕ) (V We : Mat m n Fl) (W : Mat m k Fl) (H : Mat k n Fl) (W' : Mat m k Fl) : Prop :=
  ∃ (WH : Mat m n Fl) (num den : Mat m k Fl),
    A.MatMul d W H WH ∧
    A.MatMul d (fun i j => A.mul (We i j) (V i j)) (tr H) num ∧
    A.MatMul d (fun i j => A.mul (We i j) (WH i j)) (tr H) den ∧
    ∀ i a, W' i a = A.mul (W i a) (A.div (num i a) (den i a))

/-- One ls-nmf update (`ls_nmf.py:39-51`, `lib.rs:354-363`); `hold` = H is not updated in this iteration. -/
def Update (d : ℕ) (V We : Mat m n Fl) (hold : Bool) (W : Mat m k Fl) (H : Mat k n Fl)
    (W' : Mat m k Fl) (H' : Mat k n Fl) : Prop :=
  (if hold then H' = H else A.StepH d V We W H H') ∧ A.StepW d V We W H' W'

/-- Successive ls-nmf updates, one per entry of the list. -/
def Run (d : ℕ) (V We : Mat m n Fl) : List Bool → Mat m k Fl → Mat k n Fl → Mat m k Fl → Mat k n Fl → Prop
  | [], W, H, W', H' => W' = W ∧ H' = H
  | b :: bs, W, H, W', H' => ∃ W₁ H₁, A.Update d V We b W H W₁ H₁ ∧ Run d V We bs W₁ H₁ W' H'

/-- The weighted residual `(V - WH) / U` (`lib.rs:916-917`). -/
def resid (V U : Mat m n Fl) (WH : Mat m n Fl) (i : Fin m) (j : Fin n) : Fl :=
  A.div (A.sub (V i j) (WH i j)) (U i j)

/-- `calculate_q_cpu` (`lib.rs:911-921`): `q` is some evaluation of the sum of the squared weighted residuals. -/
def QOf (d : ℕ) (V U : Mat m n Fl) (W : Mat m k Fl) (H : Mat k n Fl) (q : Fl) : Prop :=
  ∃ WH, A.MatMul d W H WH ∧ ∃ d', A.Dot (fun p : Fin m × Fin n => A.resid V U WH p.1 p.2)
    (fun p => A.resid V U WH p.1 p.2) d' Finset.univ q

/-- The same with at most `e` roundings per squared residual; also `q_loss` (`metrics.py:14-21`). -/
def QEval (d e : ℕ) (V U : Mat m n Fl) (W : Mat m k Fl) (H : Mat k n Fl) (q : Fl) : Prop :=
  ∃ WH, A.MatMul d W H WH ∧ ∃ e' ≤ e, A.Dot (fun p : Fin m × Fin n => A.resid V U WH p.1 p.2)
    (fun p => A.resid V U WH p.1 p.2) e' Finset.univ q

/-- One entry of `merged_residuals` (`lib.rs:930-936`, `980-1002`; `metrics.py:28-33`) from the entry `x` of `V - WH`, the uncertainty `u` and
`alpha`. `fl` replaces uncertainties that are not positive (`metrics.py:31`); it is the identity in `lib.rs`. -/
def robustEntry (fl : Fl → Fl) (alpha x u : Fl) : Fl :=
  let s := (A.div x u).abs
  let ru := fl (A.mul (A.sqrtF (A.div s alpha)) u)
  if alpha.lt s then (A.div x ru).abs else s

/-- `calculate_q_robust_cpu` (`lib.rs:924-941`) and the loss of `qr_loss` (`metrics.py:26-34`): `q` is some evaluation with at most `e` roundings
per squared entry. -/
def QRobustEval (fl : Fl → Fl) (d e : ℕ) (alpha : Fl) (V U : Mat m n Fl) (W : Mat m k Fl) (H : Mat k n Fl) (q : Fl) : Prop :=
  ∃ WH, A.MatMul d W H WH ∧ ∃ e' ≤ e, A.Dot (fun p : Fin m × Fin n => A.robustEntry fl alpha (A.sub (V p.1 p.2) (WH p.1 p.2)) (U p.1 p.2))
    (fun p => A.robustEntry fl alpha (A.sub (V p.1 p.2) (WH p.1 p.2)) (U p.1 p.2)) e' Finset.univ q

/-- The floor of the uncertainties (`metrics.py:31`). -/
def floorU (eps : ℚ≥0) (x : Fl) : Fl := if (Fl.fin false 0).lt x = true ∨ x = .nan then x else .fin false eps

/-- The test of the compiled loop for the end of the training (`lib.rs:371-374`). -/
def converges (front back delta : Fl) : Bool := (A.sub front back).lt delta

/-- `(|W| - W) / 2` (`ws_nmf.py:68`, `lib.rs:707`). -/
def wNeg (W : Mat m k Fl) : Mat m k Fl := fun i a =>
  A.div (A.sub (W i a).abs (W i a)) (.fin false 2)

/-- `(|W| + W) / 2` (`ws_nmf.py:69`, `lib.rs:708`). -/
def wPos (W : Mat m k Fl) : Mat m k Fl := fun i a =>
  A.div (A.add (W i a).abs (W i a)) (.fin false 2)

/-- The H half step of ws-nmf for one column `j` (`ws_nmf.py:71-97`, `lib.rs:710-734`): `v` and `we` are the columns `j` of
`We * V` and `We`, `h` the column of H, `eps` the constant `1e-12`.  The products with the diagonal matrix of `we` are
evaluated as matrix products with zeros outside the diagonal in `lib.rs` and as products with a diagonal in
`ws_nmf.py`; here `P` and `N` are whatever they give, so that theorems hold for both. -/
def WsColumn (d : ℕ) (eps : ℚ≥0) (W : Mat m k Fl) (v : Fin m → Fl) (P N : Mat k k Fl) (h h' : Fin k → Fl) : Prop :=
  ∃ n1 d1 n2 d2 : Fin k → Fl,
    (∀ a, ∃ d' ≤ d, A.Dot v (fun i => A.wPos W i a) d' Finset.univ (n1 a)) ∧
    (∀ a, ∃ d' ≤ d, A.Dot v (fun i => A.wNeg W i a) d' Finset.univ (d1 a)) ∧
    (∀ a, ∃ d' ≤ d, A.Dot h (fun b => N b a) d' Finset.univ (n2 a)) ∧
    (∀ a, ∃ d' ≤ d, A.Dot h (fun b => P b a) d' Finset.univ (d2 a)) ∧
    ∀ a, h' a = A.mul (h a) (A.sqrtF (A.div (A.add (A.add (n1 a) (n2 a)) (.fin false eps))
      (A.add (A.add (d1 a) (d2 a)) (.fin false eps))))

/-- `np.diagflat(wej)` (`ws_nmf.py:74`, `we_j_diag` in `lib.rs:711`). -/
def diagF (we : Fin m → Fl) : Mat m m Fl := fun i j => if i = j then we i else .fin false 0

/-- `n2b` and `d2b` (`ws_nmf.py:82-85`, `lib.rs:717-720`): some evaluation of `(X^T · diag(we)) · X`. -/
def WsProd (d : ℕ) (we : Fin m → Fl) (X : Mat m k Fl) (P : Mat k k Fl) : Prop :=
  ∃ T : Mat k m Fl, A.MatMul d (tr X) (diagF we) T ∧ A.MatMul d T X P

end Arith

/-- A binary floating point format: number of significant bits and range of the exponents of normal numbers. -/
structure Format where
  prec : ℕ
  emin : ℤ
  emax : ℤ

namespace Format
variable (F : Format)

/-- The distance of neighbouring numbers at exponent `e`; below the normal range it is constant (subnormal numbers). -/
def ulp (e : ℤ) : ℚ≥0 := 2 ^ (max e F.emin - (F.prec - 1))

/-- Rounding to the nearest integer, ties to even. -/
def rne (z : ℚ≥0) : ℕ :=
  if 2 * z < 2 * ⌊z⌋₊ + 1 then ⌊z⌋₊
  else if 2 * (⌊z⌋₊ : ℚ≥0) + 1 < 2 * z then ⌊z⌋₊ + 1
  else if ⌊z⌋₊ % 2 = 0 then ⌊z⌋₊ else ⌊z⌋₊ + 1

/-- The rounded value before the overflow test. -/
def nearest (x : ℚ≥0) : ℚ≥0 := rne (x / F.ulp (Int.log 2 x)) * F.ulp (Int.log 2 x)

/-- IEEE rounding to nearest; overflow if the rounded value is above the largest finite number. -/
def rnd (x : ℚ≥0) : Option ℚ≥0 :=
  if 2 ^ (F.emax + 1) ≤ F.nearest x then none else some (F.nearest x)

/-- The correctly rounded square root: the largest multiple of the unit in the last place below the root, or the next
one if the root is closer to it. -/
def sqrtR (x : ℚ≥0) : ℚ≥0 :=
  let u := F.ulp (Int.log 2 x / 2)
  let z := x / u ^ 2
  let f := Nat.sqrt ⌊z⌋₊
  (if 4 * z < (2 * f + 1) ^ 2 then f else if ((2 * f + 1 : ℕ) : ℚ≥0) ^ 2 < 4 * z then f + 1
    else if f % 2 = 0 then f else f + 1 : ℕ) * u

theorem rnd_zero : F.rnd 0 = some 0 := by
  have h : F.nearest 0 = 0 := by simp [nearest, rne]
  have h2 : ¬ ((2 : ℚ≥0) ^ (F.emax + 1) ≤ F.nearest 0) := by
    rw [h, not_le]
    exact zpow_pos two_pos _
  rw [rnd, if_neg h2, h]

/-- The arithmetic of the format. -/
def arith : Arith := ⟨F.rnd, F.rnd_zero, F.sqrtR⟩

end Format

/-- `float32`. -/
def binary32 : Format := ⟨24, -126, 127⟩

/-- `float64`. -/
def binary64 : Format := ⟨53, -1022, 1023⟩

end Esat
