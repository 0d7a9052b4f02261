import Verif.Model.RustPseudo
import Verif.Props.RustLinalg

/-!
# Property C250: the pseudo-inverse of the compiled code
-/

namespace Esat

/-- C250: the decomposition returns for matrices without columns only. -/
theorem C250_qr (rows cols : ℕ) : (qrShapes rows cols).isSome ↔ cols = 0 := by
  cases cols with
  | zero => simp [qrShapes]
  | succ c =>
    refine iff_of_false ?_ (by omega)
    have h0 : qrColumn [rows, c + 1] [rows, c + 1] [c + 1, c + 1] 0 = none := by
      cases rows with
      | zero => rfl
      | succ r => rfl
    rw [qrShapes, List.range_succ_eq_map, List.mapM_cons, h0]
    simp

/-- C250: the rest of the branch fails as well: whatever replaces the decomposition, if it returns matrices for every input, the singular
values are a matrix and not the vector that `to_vec1` needs. -/
theorem C250_vector (qr : ℕ → ℕ → Option (Shp × Shp)) (hqr : ∀ rows cols p, qr rows cols = some p → p.1.length = 2 ∧ p.2.length = 2)
    (n : ℕ) : pseudoShape qr n = none := by
  have hm : ∀ a b c : Shp, a.matmul b = some c → c.length = 2 := by
    intro a b c h
    unfold Shp.matmul at h
    split at h
    · split at h
      · cases h; rfl
      · cases h
    · cases h
  have hstep : ∀ x y : Shp × Shp × Shp, svdStep qr x = some y → y.2.1.length = 2 := by
    intro x y h
    unfold svdStep at h
    split at h
    · simp only [Option.bind_eq_bind, Option.bind_eq_some_iff, Option.some.injEq] at h
      obtain ⟨p, -, u, -, s, hs, v, -, rfl⟩ := h
      exact hm _ _ _ hs
    · cases h
  have hall : ∀ (l : List ℕ) (x y : Shp × Shp × Shp), x.2.1.length = 2 → l.foldlM (fun x _ => svdStep qr x) x = some y → y.2.1.length = 2 := by
    intro l
    induction l with
    | nil =>
      intro x y hx h
      rw [List.foldlM_nil, Option.pure_def, Option.some.injEq] at h
      exact h ▸ hx
    | cons a l ih =>
      intro x y hx h
      rw [List.foldlM_cons, Option.bind_eq_bind, Option.bind_eq_some_iff] at h
      obtain ⟨z, hz, h⟩ := h
      exact ih z y (hstep x z hz) h
  unfold pseudoShape
  cases h : svdShapes qr 100 n n with
  | none => rfl
  | some y =>
    have := hall _ _ y rfl h
    have hv : y.2.1.vec1 = none := by
      unfold Shp.vec1
      split
      · rename_i e
        rw [e] at this
        cases this
      · rfl
    simp [hv]

/-- C250: so the pseudo-inverse is an error for every matrix. -/
theorem C250_pseudo {K : Type*} (values : ∀ n, Mat n n K → Mat n n K) (n : ℕ) (A : Mat n n K) : rustPseudo values n A = none := by
  unfold rustPseudo
  rw [C250_vector qrShapes ?_ n]
  · rfl
  · intro rows cols p h
    unfold qrShapes at h
    rw [Option.bind_eq_bind, Option.bind_eq_some_iff] at h
    obtain ⟨-, -, h⟩ := h
    cases h
    exact ⟨rfl, rfl⟩

/-- C250: hence `calculate_inverse` returns a matrix exactly for matrices with a non-zero determinant (and only if `to_scalar` accepts
one-element vectors); a singular matrix is an error, not a pseudo-inverse. -/
theorem C250_inverse {K : Type*} [Field K] [DecidableEq K] (lenient : Bool) (values : ∀ n, Mat n n K → Mat n n K) (n : ℕ)
    (A : Mat (n + 1) (n + 1) K) :
    (rustInverse? lenient (rustPseudo values) (n + 1) A).isSome ↔ lenient = true ∧ Matrix.det (Matrix.of A) ≠ 0 := by
  cases lenient with
  | false =>
    refine iff_of_false ?_ (by simp)
    rw [(C60_strict_scalar_refuted (rustPseudo values) n A).2]
    simp
  | true =>
    rw [C60_lenient_inverse, rustInverse, C60_determinant]
    by_cases h : Matrix.det (Matrix.of A) = 0
    · simp [h, C250_pseudo]
    · simp [h]

/-- Concrete cases: a matrix of ones has no result, a diagonal matrix has its inverse. -/
example : rustInverse? (K := ℚ) true (rustPseudo fun _ A => A) 2 ![![1, 1], ![1, 1]] = none ∧
    rustInverse? (K := ℚ) true (rustPseudo fun _ A => A) 2 ![![2, 0], ![0, 4]] = some ![![1 / 2, 0], ![0, 1 / 4]] := by
  refine ⟨?_, ?_⟩
  · have := (C250_inverse (K := ℚ) true (fun _ A => A) 1 ![![1, 1], ![1, 1]]).not
    rw [Bool.not_eq_true, Option.isSome_eq_false_iff, Option.isNone_iff_eq_none] at this
    exact this.2 (by simp [Matrix.det_fin_two])
  · decide +kernel

/-- Case for `C250_vector`: a decomposition that returns matrices of the right shapes. -/
example : pseudoShape (fun rows cols => some ([rows, cols], [cols, cols])) 3 = none :=
  C250_vector _ (fun rows cols p h => by cases h; exact ⟨rfl, rfl⟩) 3

end Esat
