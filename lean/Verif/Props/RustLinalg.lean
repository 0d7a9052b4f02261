import Verif.Model.RustLinalg
import Mathlib.LinearAlgebra.Matrix.Determinant.Basic
import Mathlib.LinearAlgebra.Matrix.Adjugate
import Mathlib.LinearAlgebra.Matrix.NonsingularInverse
import Mathlib.Data.Fin.VecNotation
import Mathlib.Data.Rat.Defs
import Mathlib.Algebra.BigOperators.Field
import Mathlib.Tactic.NormNum

/-!
# Property C60: the compiled determinant and inverse

Specification: Mathlib's `Matrix.det`, and "two-sided inverse" written out.
-/

namespace Esat

variable {K : Type*} [Field K]

/-- Specification: `B` is a two-sided inverse of `A`. -/
def TwoSidedInverse {n : ℕ} (A B : Mat n n K) : Prop :=
  (∀ i j, ∑ l, A i l * B l j = if i = j then 1 else 0) ∧ (∀ i j, ∑ l, B i l * A l j = if i = j then 1 else 0)

theorem skipIdx_eq_succAbove {n : ℕ} (r : Fin (n + 1)) (i : Fin n) : skipIdx r i = r.succAbove i := by
  unfold skipIdx Fin.succAbove
  simp only [Fin.lt_def, Fin.val_castSucc]

theorem rustMinor_eq_submatrix {n : ℕ} (A : Mat (n + 1) (n + 1) K) (r c : Fin (n + 1)) :
    Matrix.of (rustMinor A r c) = (Matrix.of A).submatrix r.succAbove c.succAbove := by
  ext i j
  simp [rustMinor, skipIdx_eq_succAbove]

/-- C60: for every size of at least one, the compiled determinant is the determinant. -/
theorem C60_determinant : ∀ (n : ℕ) (A : Mat (n + 1) (n + 1) K), rustDet (n + 1) A = Matrix.det (Matrix.of A)
  | 0, A => by simp [rustDet]
  | n + 1, A => by
    rw [rustDet, Matrix.det_succ_row_zero]
    refine Finset.sum_congr rfl fun i _ => ?_
    rw [C60_determinant n, rustMinor_eq_submatrix, Matrix.of_apply]
    have : (0 : Fin (n + 2)).succAbove = Fin.succ := by funext x; simp
    rw [this]; ring

/-- C60: from size two on the compiled adjoint is the adjugate. -/
theorem C60_adjoint (n : ℕ) (A : Mat (n + 2) (n + 2) K) (i j : Fin (n + 2)) :
    rustAdjoint (n + 2) A i j = (Matrix.of A).adjugate i j := by
  rw [Matrix.adjugate_fin_succ_eq_det_submatrix, ← rustMinor_eq_submatrix, ← C60_determinant]
  rfl

/-- C60 for sizes of at least two: if the determinant is non-zero the compiled routine returns a two-sided inverse,
and it takes the pseudo-inverse branch exactly when the determinant is zero. Missing: size one, where the statement is
false (`C60_size_one_refuted`), and candle's rank check (`C60_strict_scalar_refuted`). -/
theorem C60_inverse_partial [DecidableEq K] (pseudo : ∀ n, Mat n n K → Option (Mat n n K)) (n : ℕ)
    (A : Mat (n + 2) (n + 2) K) :
    (Matrix.det (Matrix.of A) ≠ 0 →
      ∃ B, rustInverse pseudo (n + 2) A = some B ∧ TwoSidedInverse A B) ∧
    (Matrix.det (Matrix.of A) = 0 → rustInverse pseudo (n + 2) A = pseudo (n + 2) A) := by
  have hdet : rustDet (n + 2) A = Matrix.det (Matrix.of A) := C60_determinant (n + 1) A
  constructor
  · intro h
    refine ⟨fun i j => rustAdjoint (n + 2) A i j / rustDet (n + 2) A, ?_, ?_, ?_⟩
    · unfold rustInverse; rw [if_pos (by rw [hdet]; exact h)]
    · intro i j
      have e : ∑ l, A i l * (rustAdjoint (n + 2) A l j / rustDet (n + 2) A)
          = (Matrix.of A * (Matrix.of A).adjugate) i j / Matrix.det (Matrix.of A) := by
        rw [Matrix.mul_apply, Finset.sum_div]
        exact Finset.sum_congr rfl fun l _ => by rw [C60_adjoint, hdet, Matrix.of_apply, mul_div_assoc]
      rw [e, Matrix.mul_adjugate, Matrix.smul_apply, Matrix.one_apply]
      split
      · simp [h]
      · simp
    · intro i j
      have e : ∑ l, (rustAdjoint (n + 2) A i l / rustDet (n + 2) A) * A l j
          = ((Matrix.of A).adjugate * Matrix.of A) i j / Matrix.det (Matrix.of A) := by
        rw [Matrix.mul_apply, Finset.sum_div]
        exact Finset.sum_congr rfl fun l _ => by rw [C60_adjoint, hdet, Matrix.of_apply]; ring
      rw [e, Matrix.adjugate_mul, Matrix.smul_apply, Matrix.one_apply]
      split
      · simp [h]
      · simp
  · intro h
    unfold rustInverse
    rw [if_neg (by rw [hdet, h]; simp)]

/-- Non-vacuity: a 3 × 3 matrix with determinant 1, and its compiled adjoint. -/
example : rustDet 3 (![![1, 2, 3], ![0, 1, 4], ![5, 6, 0]] : Mat 3 3 ℚ) = 1 ∧
    rustAdjoint 3 (![![1, 2, 3], ![0, 1, 4], ![5, 6, 0]] : Mat 3 3 ℚ)
      = ![![-24, 18, 5], ![20, -15, -4], ![-5, 4, 1]] := by
  constructor
  · decide +kernel
  · funext i j; revert i j; decide +kernel

/-- C60 fails for size one: the adjoint of a 1 × 1 matrix is computed from the "determinant" 0 of an empty matrix, so
the routine returns the zero matrix as the inverse of any non-zero number. -/
theorem C60_size_one_refuted [DecidableEq K] (pseudo : ∀ n, Mat n n K → Option (Mat n n K)) (a : K) (ha : a ≠ 0) :
    ∃ B, rustInverse pseudo 1 (fun _ _ => a) = some B ∧ ¬ TwoSidedInverse (fun _ _ => a) B := by
  refine ⟨fun i j => rustAdjoint 1 (fun _ _ => a) i j / rustDet 1 (fun _ _ => a), ?_, ?_⟩
  · unfold rustInverse; rw [if_pos (by simpa [rustDet] using ha)]
  · rintro ⟨h, _⟩
    have := h 0 0
    simp [rustAdjoint, rustDet] at this

/-- C60 under candle's rank check on `to_scalar`: no non-empty square matrix gets a determinant or an inverse. -/
theorem C60_strict_scalar_refuted [DecidableEq K] (pseudo : ∀ n, Mat n n K → Option (Mat n n K)) :
    ∀ (n : ℕ) (A : Mat (n + 1) (n + 1) K),
      rustDet? false (n + 1) A = none ∧ rustInverse? false pseudo (n + 1) A = none
  | n, A => by
    have h : ∀ (n : ℕ) (A : Mat (n + 1) (n + 1) K), rustDet? false (n + 1) A = none := by
      intro n
      induction n with
      | zero => intro A; rfl
      | succ n ih =>
        intro A
        rw [rustDet?, List.finRange_succ, List.foldlM_cons, ih]
        rfl
    exact ⟨h n A, by unfold rustInverse?; rw [h n A]; rfl⟩

/-- With a lenient `to_scalar` the fallible determinant is the plain one. -/
theorem C60_lenient_agrees : ∀ (n : ℕ) (A : Mat n n K), rustDet? true n A = some (rustDet n A)
  | 0, A => rfl
  | 1, A => rfl
  | n + 2, A => by
    rw [rustDet?, rustDet]
    have : ∀ (l : List (Fin (n + 2))) (acc : K), l.foldlM
        (fun acc i => do let d ← rustDet? true (n + 1) (rustMinor A 0 i); pure (acc + (A 0 i * (-1) ^ i.val) * d)) acc
        = some (acc + (l.map fun i => (A 0 i * (-1) ^ i.val) * rustDet (n + 1) (rustMinor A 0 i)).sum) := by
      intro l
      induction l with
      | nil => intro acc; simp
      | cons x l ih =>
        intro acc
        rw [List.foldlM_cons, C60_lenient_agrees (n + 1)]
        refine Eq.trans (ih _) ?_
        rw [List.map_cons, List.sum_cons, add_assoc]
    rw [this, zero_add, ← List.ofFn_eq_map, List.sum_ofFn]

/-- With a lenient `to_scalar` the fallible inverse is the plain one, for every size and every pseudo-inverse. -/
theorem C60_lenient_inverse [DecidableEq K] (pseudo : ∀ n, Mat n n K → Option (Mat n n K)) (n : ℕ) (A : Mat n n K) :
    rustInverse? true pseudo n A = rustInverse pseudo n A := by
  unfold rustInverse? rustInverse
  rw [C60_lenient_agrees]
  rfl

end Esat
