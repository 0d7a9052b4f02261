import Verif.Model.WsNmf
import Verif.Lemmas.LsNmf
import Mathlib.Tactic.Ring
import Mathlib.Tactic.Linarith
import Mathlib.Tactic.FieldSimp

/-! Helper lemmas for the WS-NMF update. -/

namespace Esat

section
variable {K : Type*} [Field K] {m n k : ℕ}

/-- Expansion of one row's weighted residual around `w`. -/
theorem row_expand (e v : Fin n → K) (h : Mat k n K) (w w' : Fin k → K) :
    (∑ j, e j * (v j - ∑ a, w' a * h a j) ^ 2) =
      (∑ j, e j * (v j - ∑ a, w a * h a j) ^ 2)
      - 2 * (∑ b, (w' b - w b) * ((∑ j, h b j * (e j * v j)) - ∑ a, w a * ∑ j, h a j * (e j * h b j)))
      + ∑ j, e j * (∑ a, (w' a - w a) * h a j) ^ 2 := by
  have e1 : ∑ b, (w' b - w b) * ((∑ j, h b j * (e j * v j)) - ∑ a, w a * ∑ j, h a j * (e j * h b j))
      = ∑ j, e j * ((∑ b, (w' b - w b) * h b j) * (v j - ∑ a, w a * h a j)) := by
    simp only [Finset.mul_sum, Finset.sum_mul, mul_sub, Finset.sum_sub_distrib]
    congr 1
    · rw [Finset.sum_comm]
      exact Finset.sum_congr rfl fun j _ => Finset.sum_congr rfl fun b _ => by ring
    · have : ∀ b, ∑ a, ∑ j, (w' b - w b) * (w a * (h a j * (e j * h b j)))
          = ∑ j, ∑ a, (w' b - w b) * (w a * (h a j * (e j * h b j))) := fun b => Finset.sum_comm
      simp only [this]
      rw [Finset.sum_comm]
      refine Finset.sum_congr rfl fun j _ => ?_
      rw [Finset.sum_comm]
      exact Finset.sum_congr rfl fun a _ => Finset.sum_congr rfl fun b _ => by ring
  rw [e1, Finset.mul_sum, ← Finset.sum_sub_distrib, ← Finset.sum_add_distrib]
  refine Finset.sum_congr rfl fun j _ => ?_
  have : ∑ a, w' a * h a j = (∑ a, w a * h a j) + ∑ a, (w' a - w a) * h a j := by
    rw [← Finset.sum_add_distrib]; exact Finset.sum_congr rfl fun a _ => by ring
  rw [this]; ring

/-- With a left inverse of the normal matrix the new row solves the normal equations. -/
theorem wsStepW_normal (inv : Mat k k K → Mat k k K) (V We : Mat m n K) (H : Mat k n K) (i : Fin m)
    (hinv : ∀ a b, (inv (wsNormal We H i) ⬝ wsNormal We H i) a b = if a = b then 1 else 0) (b : Fin k) :
    ∑ a, wsStepW inv V We H i a * (∑ j, H a j * (We i j * H b j)) = ∑ j, H b j * (We i j * V i j) := by
  have : ∀ a, wsStepW inv V We H i a * (∑ j, H a j * (We i j * H b j))
      = ∑ c, wsRhs V We H i c * (inv (wsNormal We H i) c a * wsNormal We H i a b) := fun a => by
    simp only [wsStepW, Finset.sum_mul]
    exact Finset.sum_congr rfl fun c _ => by simp only [wsNormal]; ring
  simp only [this]
  rw [Finset.sum_comm]
  have : ∀ c, ∑ a, wsRhs V We H i c * (inv (wsNormal We H i) c a * wsNormal We H i a b)
      = wsRhs V We H i c * (if c = b then 1 else 0) := fun c => by
    rw [← hinv c b, mmul, Finset.mul_sum]
  simp only [this, mul_ite, mul_one, mul_zero, Finset.sum_ite_eq', Finset.mem_univ, if_true]
  rfl

end

section
variable {K : Type*} [Field K] [LinearOrder K] [IsStrictOrderedRing K] {m k : ℕ}

/-- One column, an arbitrary multiplicative move `h' = h r`: it suffices that the separable auxiliary function does not
increase in any coordinate. -/
theorem column_aux (w : Fin m → Fin k → K) (e v : Fin m → K) (h h' N D r : Fin k → K)
    (he : ∀ i, 0 ≤ e i) (hwh : ∀ i a, 0 ≤ w i a * h a)
    (hN : ∀ a, N a = ∑ i, w i a * (e i * v i))
    (hD : ∀ a, D a = ∑ i, w i a * (e i * ∑ b, w i b * h b))
    (hh : ∀ a, h' a = h a * r a)
    (hr : ∀ a, h a * (D a * r a ^ 2 - 2 * N a * r a) ≤ h a * (D a - 2 * N a)) :
    (∑ i, e i * (v i - ∑ a, w i a * h' a) ^ 2) ≤ ∑ i, e i * (v i - ∑ a, w i a * h a) ^ 2 := by
  have hs : ∀ i, ∑ a, w i a * h' a = ∑ a, (w i a * h a) * r a := fun i =>
    Finset.sum_congr rfl fun a _ => by rw [hh]; ring
  set p : Fin m → K := fun i => ∑ a, w i a * h a with hp
  set s : Fin m → K := fun i => ∑ a, (w i a * h a) * r a with hsdef
  set t : Fin m → K := fun i => ∑ a, (w i a * h a) * r a ^ 2 with ht
  have cauchy : ∀ i, s i ^ 2 ≤ p i * t i := fun i =>
    Finset.sum_sq_le_sum_mul_sum_of_sq_le_mul _ (fun a _ => hwh i a)
      (fun a _ => mul_nonneg (hwh i a) (sq_nonneg _)) (fun a _ => le_of_eq (by ring))
  have e1 : ∑ i, e i * v i * s i = ∑ a, h a * r a * N a := by
    simp only [hsdef, Finset.mul_sum, hN]
    rw [Finset.sum_comm]
    refine Finset.sum_congr rfl fun a _ => Finset.sum_congr rfl fun i _ => by ring
  have e2 : ∑ i, e i * (p i * t i) = ∑ a, h a * r a ^ 2 * D a := by
    have : ∀ i, e i * (p i * t i) = ∑ a, h a * r a ^ 2 * (w i a * (e i * p i)) := fun i => by
      simp only [ht, Finset.mul_sum]
      exact Finset.sum_congr rfl fun a _ => by ring
    simp only [this]
    rw [Finset.sum_comm]
    refine Finset.sum_congr rfl fun a _ => ?_
    rw [hD, Finset.mul_sum]
  have e3 : ∑ i, e i * v i * p i = ∑ a, h a * N a := by
    simp only [hp, Finset.mul_sum, hN]
    rw [Finset.sum_comm]
    refine Finset.sum_congr rfl fun a _ => Finset.sum_congr rfl fun i _ => by ring
  have e4 : ∑ i, e i * p i ^ 2 = ∑ a, h a * D a := by
    have : ∀ i, e i * p i ^ 2 = ∑ a, h a * (w i a * (e i * p i)) := fun i => by
      have : e i * p i ^ 2 = (∑ a, w i a * h a) * (e i * p i) := by simp only [hp]; ring
      rw [this, Finset.sum_mul]
      exact Finset.sum_congr rfl fun a _ => by ring
    simp only [this]
    rw [Finset.sum_comm]
    refine Finset.sum_congr rfl fun a _ => ?_
    rw [hD, Finset.mul_sum]
  have l1 : ∑ i, e i * (v i - ∑ a, w i a * h' a) ^ 2
      ≤ ∑ i, e i * v i ^ 2 - 2 * (∑ a, h a * r a * N a) + ∑ a, h a * r a ^ 2 * D a := by
    rw [← e1, ← e2, Finset.mul_sum, ← Finset.sum_sub_distrib, ← Finset.sum_add_distrib]
    refine Finset.sum_le_sum fun i _ => ?_
    rw [hs]
    have := mul_le_mul_of_nonneg_left (cauchy i) (he i)
    have e5 : e i * (v i - s i) ^ 2 = e i * v i ^ 2 - 2 * (e i * v i * s i) + e i * s i ^ 2 := by ring
    change e i * (v i - s i) ^ 2 ≤ _
    rw [e5]; linarith
  have l2 : ∑ i, e i * (v i - ∑ a, w i a * h a) ^ 2
      = ∑ i, e i * v i ^ 2 - 2 * (∑ a, h a * N a) + ∑ a, h a * D a := by
    rw [← e3, ← e4, Finset.mul_sum, ← Finset.sum_sub_distrib, ← Finset.sum_add_distrib]
    exact Finset.sum_congr rfl fun i _ => by simp only [hp]; ring
  have l3 : ∑ a, h a * (D a * r a ^ 2 - 2 * N a * r a) ≤ ∑ a, h a * (D a - 2 * N a) :=
    Finset.sum_le_sum fun a _ => hr a
  have l4 : ∑ a, h a * (D a * r a ^ 2 - 2 * N a * r a)
      = ∑ a, h a * r a ^ 2 * D a - 2 * ∑ a, h a * r a * N a := by
    rw [Finset.mul_sum, ← Finset.sum_sub_distrib]; exact Finset.sum_congr rfl fun a _ => by ring
  have l5 : ∑ a, h a * (D a - 2 * N a) = ∑ a, h a * D a - 2 * ∑ a, h a * N a := by
    rw [Finset.mul_sum, ← Finset.sum_sub_distrib]; exact Finset.sum_congr rfl fun a _ => by ring
  rw [l4, l5] at l3
  rw [l2]; linarith

end

section
variable {m n k : ℕ}

theorem wsEps_pos : 0 < wsEps := by unfold wsEps; norm_num

theorem wsNeg_nonneg (W : Mat m k ℝ) (i a) : 0 ≤ wsNeg W i a := by
  unfold wsNeg; have := le_abs_self (W i a); linarith

theorem wsPos_nonneg (W : Mat m k ℝ) (i a) : 0 ≤ wsPos W i a := by
  unfold wsPos; have := neg_abs_le (W i a); linarith

theorem wsLin_nonneg {V We : Mat m n ℝ} {A : Mat m k ℝ} (hV : ∀ i j, 0 ≤ V i j) (he : ∀ i j, 0 ≤ We i j)
    (hA : ∀ i a, 0 ≤ A i a) (b j) : 0 ≤ wsLin V We A b j :=
  Finset.sum_nonneg fun i _ => mul_nonneg (mul_nonneg (he i j) (hV i j)) (hA i b)

theorem wsQuad_nonneg {We : Mat m n ℝ} {A : Mat m k ℝ} {H : Mat k n ℝ} (he : ∀ i j, 0 ≤ We i j)
    (hA : ∀ i a, 0 ≤ A i a) (hH : ∀ a j, 0 ≤ H a j) (b j) : 0 ≤ wsQuad We A H b j :=
  Finset.sum_nonneg fun a _ => mul_nonneg (hH a j)
    (Finset.sum_nonneg fun i _ => mul_nonneg (mul_nonneg (hA i a) (he i j)) (hA i b))

theorem wsStepH_eq_some {V We : Mat m n ℝ} {W : Mat m k ℝ} {H H' : Mat k n ℝ} :
    wsStepH V We W H = some H' ↔
      (∀ b j, wsDen V We W H b j ≠ 0 ∧ 0 ≤ wsNum V We W H b j / wsDen V We W H b j) ∧
      ∀ b j, H' b j = H b j * Real.sqrt (wsNum V We W H b j / wsDen V We W H b j) := by
  classical
  unfold wsStepH
  constructor
  · intro h
    split at h
    · rename_i hc
      refine ⟨hc, fun b j => ?_⟩
      rw [← Option.some.inj h]
    · cases h
  · rintro ⟨h1, h2⟩
    rw [if_pos h1]
    congr 1
    funext b j
    rw [h2]

/-- The per-coordinate inequality behind the descent of the damped square-root update. -/
theorem sqrt_move (N D ε : ℝ) (hε : 0 < ε) (hD : 0 ≤ D) (h0 : 0 ≤ (N + ε) / (D + ε)) :
    D * Real.sqrt ((N + ε) / (D + ε)) ^ 2 - 2 * N * Real.sqrt ((N + ε) / (D + ε)) ≤ D - 2 * N := by
  set r := Real.sqrt ((N + ε) / (D + ε)) with hr
  have hDε : 0 < D + ε := by linarith
  have hr0 : 0 ≤ r := Real.sqrt_nonneg _
  have hr2 : r ^ 2 * (D + ε) = N + ε := by
    rw [hr, Real.sq_sqrt h0, div_mul_cancel₀ _ hDε.ne']
  have key : D * r ^ 2 - 2 * N * r - (D - 2 * N) = (r - 1) * (D * (r + 1) - 2 * N) := by ring
  suffices (r - 1) * (D * (r + 1) - 2 * N) ≤ 0 by linarith
  rcases le_total N D with h | h
  · have h1 : r ≤ 1 := by
      by_contra hc
      push Not at hc
      have : 1 < r ^ 2 := by nlinarith
      nlinarith
    refine mul_nonpos_of_nonpos_of_nonneg (by linarith) ?_
    have : r ^ 2 ≤ r := by nlinarith
    -- D r ≥ D r² = N + ε - ε r² ≥ N
    have h3 : N ≤ D * r ^ 2 := by
      have : r ^ 2 ≤ 1 := by nlinarith
      nlinarith
    nlinarith
  · have h1 : 1 ≤ r := by
      by_contra hc
      push Not at hc
      have : r ^ 2 < 1 := by nlinarith
      nlinarith
    refine mul_nonpos_of_nonneg_of_nonpos (by linarith) ?_
    have : r ≤ r ^ 2 := by nlinarith
    have h3 : D * r ^ 2 ≤ N := by
      have : 1 ≤ r ^ 2 := by nlinarith
      nlinarith
    nlinarith

end

end Esat
