import Verif.Lemmas.WsNmf
import Mathlib.Data.Fin.VecNotation
import Mathlib.Tactic.NormNum
import Mathlib.Tactic.FinCases

/-!
# Properties C07, C08, C77: the WS-NMF update
-/

namespace Esat

/-! ## Specification -/

/-- The weighted squared residual of sample `i` when its contributions are `w`. -/
def RowLoss {K : Type*} [Field K] {m n k : ℕ} (V We : Mat m n K) (H : Mat k n K) (i : Fin m) (w : Fin k → K) : K :=
  ∑ j, We i j * (V i j - ∑ a, w a * H a j) ^ 2

/-- The weighted squared residual of the whole data set. -/
def TotalLoss {K : Type*} [Field K] {m n k : ℕ} (V We : Mat m n K) (W : Mat m k K) (H : Mat k n K) : K :=
  ∑ i, RowLoss V We H i (W i)

/-- `B` is a left inverse of `A`. -/
def IsLeftInverse {K : Type*} [Field K] {k : ℕ} (B A : Mat k k K) : Prop :=
  ∀ a b, ∑ c, B a c * A c b = if a = b then 1 else 0

section C07
variable {K : Type*} [Field K] [LinearOrder K] [IsStrictOrderedRing K] {m n k : ℕ}

/-- C07: each new row of W minimises the weighted residual of its sample over all real rows. -/
theorem C07_row_optimal (inv : Mat k k K → Mat k k K) (V We : Mat m n K) (H : Mat k n K) (i : Fin m)
    (he : ∀ j, 0 ≤ We i j)
    (hinv : IsLeftInverse (inv (fun a b => ∑ j, H a j * (We i j * H b j))) (fun a b => ∑ j, H a j * (We i j * H b j)))
    (w : Fin k → K) :
    RowLoss V We H i (wsStepW inv V We H i) ≤ RowLoss V We H i w := by
  have hz := wsStepW_normal inv V We H i hinv
  unfold RowLoss
  rw [row_expand (We i) (V i) H (wsStepW inv V We H i) w]
  have : ∑ b, (w b - wsStepW inv V We H i b) * ((∑ j, H b j * (We i j * V i j)) -
      ∑ a, wsStepW inv V We H i a * ∑ j, H a j * (We i j * H b j)) = 0 :=
    Finset.sum_eq_zero fun b _ => by rw [hz b]; ring
  rw [this, mul_zero, sub_zero]
  exact le_add_of_nonneg_right (Finset.sum_nonneg fun j _ => mul_nonneg (he j) (sq_nonneg _))

/-- C07: the minimiser is unique: every other row is strictly worse. -/
theorem C07_row_unique (inv : Mat k k K → Mat k k K) (V We : Mat m n K) (H : Mat k n K) (i : Fin m)
    (he : ∀ j, 0 ≤ We i j)
    (hinv : IsLeftInverse (inv (fun a b => ∑ j, H a j * (We i j * H b j))) (fun a b => ∑ j, H a j * (We i j * H b j)))
    (hinv' : IsLeftInverse (fun a b => ∑ j, H a j * (We i j * H b j)) (inv (fun a b => ∑ j, H a j * (We i j * H b j))))
    (w : Fin k → K) (hw : RowLoss V We H i w ≤ RowLoss V We H i (wsStepW inv V We H i)) :
    w = wsStepW inv V We H i := by
  have hz := wsStepW_normal inv V We H i hinv
  unfold RowLoss at hw
  rw [row_expand (We i) (V i) H (wsStepW inv V We H i) w] at hw
  have h0 : ∑ b, (w b - wsStepW inv V We H i b) * ((∑ j, H b j * (We i j * V i j)) -
      ∑ a, wsStepW inv V We H i a * ∑ j, H a j * (We i j * H b j)) = 0 :=
    Finset.sum_eq_zero fun b _ => by rw [hz b]; ring
  rw [h0, mul_zero, sub_zero] at hw
  have hnn : ∀ j, 0 ≤ We i j * (∑ a, (w a - wsStepW inv V We H i a) * H a j) ^ 2 :=
    fun j => mul_nonneg (he j) (sq_nonneg _)
  have hzero : ∑ j, We i j * (∑ a, (w a - wsStepW inv V We H i a) * H a j) ^ 2 = 0 :=
    le_antisymm (by linarith) (Finset.sum_nonneg fun j _ => hnn j)
  have hj : ∀ j, We i j * (∑ a, (w a - wsStepW inv V We H i a) * H a j) = 0 := fun j => by
    have := (Finset.sum_eq_zero_iff_of_nonneg (fun j _ => hnn j)).1 hzero j (Finset.mem_univ _)
    rcases mul_eq_zero.1 this with h | h
    · rw [h, zero_mul]
    · rw [pow_eq_zero_iff two_ne_zero |>.1 h, mul_zero]
  have hN : ∀ b, ∑ a, (w a - wsStepW inv V We H i a) * (∑ j, H a j * (We i j * H b j)) = 0 := fun b => by
    have : ∑ a, (w a - wsStepW inv V We H i a) * (∑ j, H a j * (We i j * H b j))
        = ∑ j, H b j * (We i j * ∑ a, (w a - wsStepW inv V We H i a) * H a j) := by
      simp only [Finset.mul_sum]
      rw [Finset.sum_comm]
      exact Finset.sum_congr rfl fun j _ => Finset.sum_congr rfl fun a _ => by ring
    rw [this]
    exact Finset.sum_eq_zero fun j _ => by rw [hj j, mul_zero]
  funext c
  have e : w c - wsStepW inv V We H i c = 0 := by
    calc w c - wsStepW inv V We H i c
        = ∑ a, (w a - wsStepW inv V We H i a) * (if a = c then 1 else 0) := by simp
      _ = ∑ a, (w a - wsStepW inv V We H i a) * ∑ b, (∑ j, H a j * (We i j * H b j)) *
            inv (fun a b => ∑ j, H a j * (We i j * H b j)) b c := by
          exact Finset.sum_congr rfl fun a _ => by rw [← hinv' a c]
      _ = ∑ b, (∑ a, (w a - wsStepW inv V We H i a) * (∑ j, H a j * (We i j * H b j))) *
            inv (fun a b => ∑ j, H a j * (We i j * H b j)) b c := by
          simp only [Finset.mul_sum, Finset.sum_mul]
          rw [Finset.sum_comm]
          refine Finset.sum_congr rfl fun b _ => Finset.sum_congr rfl fun a _ =>
            Finset.sum_congr rfl fun j _ => by ring
      _ = 0 := Finset.sum_eq_zero fun b _ => by rw [hN b, zero_mul]
  linarith

/-- C07: hence no matrix of contributions, in particular not the previous one, fits better than the new one. -/
theorem C07_total_optimal (inv : Mat k k K → Mat k k K) (V We : Mat m n K) (H : Mat k n K)
    (he : ∀ i j, 0 ≤ We i j)
    (hinv : ∀ i, IsLeftInverse (inv (fun a b => ∑ j, H a j * (We i j * H b j)))
      (fun a b => ∑ j, H a j * (We i j * H b j)))
    (W : Mat m k K) : TotalLoss V We (wsStepW inv V We H) H ≤ TotalLoss V We W H :=
  Finset.sum_le_sum fun i _ => C07_row_optimal inv V We H i (he i) (hinv i) (W i)

end C07

/-- C07: the previous contributions have no influence on a WS-NMF update. -/
theorem C07_previous_irrelevant {m n k : ℕ} (inv : Mat k k ℝ → Mat k k ℝ) (V We : Mat m n ℝ) (hold : Bool)
    (W₁ W₂ : Mat m k ℝ) (H : Mat k n ℝ) : wsUpdate inv V We hold W₁ H = wsUpdate inv V We hold W₂ H := rfl

/-- Non-vacuity of C07: two factors, two features, unequal weights; the inverse of the normal matrix is supplied. -/
example :
    let H : Mat 2 2 ℚ := ![![1, 2], ![1, 1]]
    let We : Mat 1 2 ℚ := ![![1, 4]]
    let V : Mat 1 2 ℚ := ![![3, -5]]
    let inv : Mat 2 2 ℚ → Mat 2 2 ℚ := fun _ => ![![5/4, -9/4], ![-9/4, 17/4]]
    IsLeftInverse (inv (fun a b => ∑ j, H a j * (We 0 j * H b j))) (fun a b => ∑ j, H a j * (We 0 j * H b j)) ∧
    IsLeftInverse (fun a b => ∑ j, H a j * (We 0 j * H b j)) (inv (fun a b => ∑ j, H a j * (We 0 j * H b j))) ∧
    wsStepW inv V We H 0 = ![-8, 11] := by
  intro H We V inv
  refine ⟨?_, ?_, ?_⟩
  · unfold IsLeftInverse; decide +kernel
  · unfold IsLeftInverse; decide +kernel
  · funext a; revert a; decide +kernel

/-! ## C08 -/

/-- C08, full statement: a WS-NMF update of a positive H gives a positive H, whatever the signs of the data. -/
def C08_statement : Prop :=
  ∀ (m n k : ℕ) (inv : Mat k k ℝ → Mat k k ℝ) (V We : Mat m n ℝ) (W : Mat m k ℝ) (H : Mat k n ℝ),
    (∀ i j, 0 ≤ We i j) → (∀ a j, 0 < H a j) →
    (∀ i, IsLeftInverse (inv (fun a b => ∑ j, H a j * (We i j * H b j))) (fun a b => ∑ j, H a j * (We i j * H b j))) →
    ∃ H', (wsUpdate inv V We false W H).2 = some H' ∧ ∀ a j, 0 < H' a j

/-- C08 fails: with one positive and one (larger) negative sample the new H is the root of a negative number. -/
theorem C08_refuted : ¬ C08_statement := by
  intro h
  obtain ⟨H', h1, _⟩ := h 2 1 1 (fun A => fun a b => 1 / A a b) ![![1], ![-2]] ![![1], ![1]] ![![0], ![0]] ![![1]]
    (by intro i j; fin_cases i <;> simp) (by intro a j; simp)
    (by intro i a b; fin_cases i <;> simp [Subsingleton.elim a b])
  have h2 : wsStepH ![![1], ![-2]] ![![1], ![1]] (wsStepW (fun A => fun a b => 1 / A a b) ![![1], ![-2]]
      ![![1], ![1]] ![![1]]) ![![1]] = some H' := h1
  obtain ⟨h3, _⟩ := wsStepH_eq_some.1 h2
  obtain ⟨_, h5⟩ := h3 0 0
  have hW : wsStepW (fun A => fun a b => 1 / A a b) ![![1], ![-2]] ![![1], ![1]] ![![(1 : ℝ)]]
      = ![![1], ![-2]] := by
    funext i a; fin_cases i <;> simp [wsStepW, wsRhs, wsNormal, Subsingleton.elim a 0]
  rw [hW] at h5
  simp only [wsNum, wsDen, wsLin, wsQuad, wsPos, wsNeg, wsEps, Fin.sum_univ_two, Fin.sum_univ_one] at h5
  norm_num at h5

/-- C08 for non-negative data: the new H exists and is positive, whatever the inverse routine returned (so also when the
pseudo-inverse branch is taken) and whatever signs the new W has. Missing: data with negative entries, where the
statement is false (`C08_refuted`). -/
theorem C08_nonneg_data_partial {m n k : ℕ} (inv : Mat k k ℝ → Mat k k ℝ) (V We : Mat m n ℝ) (W : Mat m k ℝ)
    (H : Mat k n ℝ) (hV : ∀ i j, 0 ≤ V i j) (he : ∀ i j, 0 ≤ We i j) (hH : ∀ a j, 0 < H a j) :
    ∃ H', (wsUpdate inv V We false W H).2 = some H' ∧ ∀ a j, 0 < H' a j := by
  set W' := wsStepW inv V We H
  have hnum : ∀ b j, 0 < wsNum V We W' H b j := fun b j =>
    add_pos_of_nonneg_of_pos (add_nonneg (wsLin_nonneg hV he (wsPos_nonneg W') b j)
      (wsQuad_nonneg he (wsNeg_nonneg W') (fun a j => (hH a j).le) b j)) wsEps_pos
  have hden : ∀ b j, 0 < wsDen V We W' H b j := fun b j =>
    add_pos_of_nonneg_of_pos (add_nonneg (wsLin_nonneg hV he (wsNeg_nonneg W') b j)
      (wsQuad_nonneg he (wsPos_nonneg W') (fun a j => (hH a j).le) b j)) wsEps_pos
  refine ⟨fun b j => H b j * Real.sqrt (wsNum V We W' H b j / wsDen V We W' H b j), ?_, ?_⟩
  · exact wsStepH_eq_some.2 ⟨fun b j => ⟨(hden b j).ne', (div_pos (hnum b j) (hden b j)).le⟩, fun _ _ => rfl⟩
  · exact fun a j => mul_pos (hH a j) (Real.sqrt_pos.2 (div_pos (hnum a j) (hden a j)))

/-- C08, any data: whenever the new H consists of real numbers it is non-negative, and zeros of H stay zeros. Missing:
existence and strict positivity for data with negative entries. -/
theorem C08_any_data_partial {m n k : ℕ} (inv : Mat k k ℝ → Mat k k ℝ) (V We : Mat m n ℝ) (W : Mat m k ℝ)
    (H H' : Mat k n ℝ) (hH : ∀ a j, 0 ≤ H a j) (h : (wsUpdate inv V We false W H).2 = some H') (a : Fin k)
    (j : Fin n) : 0 ≤ H' a j ∧ (H a j = 0 → H' a j = 0) := by
  obtain ⟨_, h2⟩ := wsStepH_eq_some.1 (show wsStepH V We (wsStepW inv V We H) H = some H' from h)
  rw [h2]
  exact ⟨mul_nonneg (hH a j) (Real.sqrt_nonneg _), fun h => by rw [h, zero_mul]⟩

/-- C08, exact condition: let `W` be the new contributions, with positive and negative parts. The new H consists of positive real numbers exactly if in every column the two quantities
`∑ We V W⁺ + (H W⁻ᵀ We W⁻) + 1e-12` and `∑ We V W⁻ + (H W⁺ᵀ We W⁺) + 1e-12` have the same sign and do not vanish. -/
theorem C08_iff_partial {m n k : ℕ} (inv : Mat k k ℝ → Mat k k ℝ) (V We : Mat m n ℝ) (W₀ : Mat m k ℝ)
    (H : Mat k n ℝ) (hH : ∀ a j, 0 < H a j) (W : Mat m k ℝ) (hW : (wsUpdate inv V We false W₀ H).1 = W) :
    (∃ H', (wsUpdate inv V We false W₀ H).2 = some H' ∧ ∀ a j, 0 < H' a j) ↔
    ∀ b j, 0 < (∑ i, We i j * V i j * max (W i b) 0 + ∑ a, H a j * ∑ i, max (-W i a) 0 * We i j * max (-W i b) 0 + 1 / 1000000000000) *
      (∑ i, We i j * V i j * max (-W i b) 0 + ∑ a, H a j * ∑ i, max (W i a) 0 * We i j * max (W i b) 0 + 1 / 1000000000000) := by
  subst hW
  have hp : ∀ (W : Mat m k ℝ), wsPos W = fun i a => max (W i a) 0 := fun W => by
    funext i a
    unfold wsPos
    rcases le_total 0 (W i a) with h | h
    · rw [abs_of_nonneg h, max_eq_left h]; ring
    · rw [abs_of_nonpos h, max_eq_right h]; ring
  have hn : ∀ (W : Mat m k ℝ), wsNeg W = fun i a => max (-W i a) 0 := fun W => by
    funext i a
    unfold wsNeg
    rcases le_total 0 (W i a) with h | h
    · rw [abs_of_nonneg h, max_eq_right (by linarith)]; ring
    · rw [abs_of_nonpos h, max_eq_left (by linarith)]; ring
  have e : ∀ b j, (∑ i, We i j * V i j * max ((wsUpdate inv V We false W₀ H).1 i b) 0 + ∑ a, H a j * ∑ i, max (-(wsUpdate inv V We false W₀ H).1 i a) 0 * We i j *
        max (-(wsUpdate inv V We false W₀ H).1 i b) 0 + 1 / 1000000000000) *
      (∑ i, We i j * V i j * max (-(wsUpdate inv V We false W₀ H).1 i b) 0 + ∑ a, H a j * ∑ i, max ((wsUpdate inv V We false W₀ H).1 i a) 0 * We i j *
        max ((wsUpdate inv V We false W₀ H).1 i b) 0 + 1 / 1000000000000) =
      wsNum V We (wsStepW inv V We H) H b j * wsDen V We (wsStepW inv V We H) H b j := fun b j => by
    simp only [wsNum, wsDen, wsLin, wsQuad, hp, hn, wsEps]
    rfl
  simp only [e]
  constructor
  · rintro ⟨H', h, hpos⟩ b j
    obtain ⟨h1, h2⟩ := wsStepH_eq_some.1 (show wsStepH V We (wsStepW inv V We H) H = some H' from h)
    have h3 := hpos b j
    rw [h2] at h3
    have h4 : 0 < Real.sqrt (wsNum V We (wsStepW inv V We H) H b j / wsDen V We (wsStepW inv V We H) H b j) :=
      pos_of_mul_pos_right h3 (hH b j).le
    rw [Real.sqrt_pos] at h4
    rcases div_pos_iff.1 h4 with ⟨a1, a2⟩ | ⟨a1, a2⟩
    · exact mul_pos a1 a2
    · exact mul_pos_of_neg_of_neg a1 a2
  · intro h
    have hd : ∀ b j, 0 < wsNum V We (wsStepW inv V We H) H b j / wsDen V We (wsStepW inv V We H) H b j := fun b j => by
      rw [div_pos_iff]
      exact mul_pos_iff.1 (h b j)
    refine ⟨_, wsStepH_eq_some.2 ⟨fun b j => ⟨?_, (hd b j).le⟩, fun _ _ => rfl⟩, fun b j => mul_pos (hH b j) (Real.sqrt_pos.2 (hd b j))⟩
    intro h0
    have := h b j
    rw [h0, mul_zero] at this
    exact lt_irrefl _ this

/-- Non-vacuity of the two partial theorems. -/
example : ∃ (V We : Mat 2 1 ℝ) (W : Mat 2 1 ℝ) (H H' : Mat 1 1 ℝ),
    (∀ i j, 0 ≤ V i j) ∧ (∀ i j, 0 ≤ We i j) ∧ (∀ a j, 0 < H a j) ∧
    (wsUpdate (fun A => fun a b => 1 / A a b) V We false W H).2 = some H' := by
  have h1 : ∀ i j, (0 : ℝ) ≤ (![![1], ![2]] : Mat 2 1 ℝ) i j := by intro i j; fin_cases i <;> simp
  have h2 : ∀ i j, (0 : ℝ) ≤ (![![1], ![1]] : Mat 2 1 ℝ) i j := by intro i j; fin_cases i <;> simp
  have h3 : ∀ a j, (0 : ℝ) < (![![1]] : Mat 1 1 ℝ) a j := by intro a j; simp
  obtain ⟨H', h, _⟩ := C08_nonneg_data_partial (fun A => fun a b => 1 / A a b) _ _ ![![0], ![0]] _ h1 h2 h3
  exact ⟨_, _, _, _, H', h1, h2, h3, h⟩

/-! ## C77 -/

/-- C77, full statement: a WS-NMF update never increases the weighted loss. -/
def C77_statement : Prop :=
  ∀ (m n k : ℕ) (inv : Mat k k ℝ → Mat k k ℝ) (V We : Mat m n ℝ) (W : Mat m k ℝ) (H H' : Mat k n ℝ),
    (∀ i j, 0 ≤ We i j) → (∀ a j, 0 < H a j) →
    (∀ i, IsLeftInverse (inv (fun a b => ∑ j, H a j * (We i j * H b j))) (fun a b => ∑ j, H a j * (We i j * H b j))) →
    (wsUpdate inv V We false W H).2 = some H' →
    TotalLoss V We (wsUpdate inv V We false W H).1 H' ≤ TotalLoss V We W H

/-- C77 fails: an exact factorisation (loss 0) with a negative contribution is moved away from the data. -/
theorem C77_refuted : ¬ C77_statement := by
  intro h
  have hW : wsStepW (fun A => fun a b => 1 / A a b) ![![2], ![-1]] ![![1], ![1]] ![![(1 : ℝ)]]
      = ![![2], ![-1]] := by
    funext i a; fin_cases i <;> simp [wsStepW, wsRhs, wsNormal, Subsingleton.elim a 0]
  have hn : wsNum ![![2], ![-1]] ![![1], ![1]] ![![2], ![-1]] ![![(1 : ℝ)]] = fun _ _ => 5 + wsEps := by
    funext b j
    rw [Subsingleton.elim b 0, Subsingleton.elim j 0]
    simp only [wsNum, wsLin, wsQuad, wsPos, wsNeg, Fin.sum_univ_two, Fin.sum_univ_one]
    norm_num
  have hd : wsDen ![![2], ![-1]] ![![1], ![1]] ![![2], ![-1]] ![![(1 : ℝ)]] = fun _ _ => 3 + wsEps := by
    funext b j
    rw [Subsingleton.elim b 0, Subsingleton.elim j 0]
    simp only [wsDen, wsLin, wsQuad, wsPos, wsNeg, Fin.sum_univ_two, Fin.sum_univ_one]
    norm_num
  have hε := wsEps_pos
  have hq : 1 < Real.sqrt ((5 + wsEps) / (3 + wsEps)) := by
    rw [Real.lt_sqrt (by norm_num), one_pow, lt_div_iff₀ (by linarith)]
    linarith
  have h2 := h 2 1 1 (fun A => fun a b => 1 / A a b) ![![2], ![-1]] ![![1], ![1]] ![![2], ![-1]] ![![1]]
    (fun _ _ => Real.sqrt ((5 + wsEps) / (3 + wsEps)))
    (by intro i j; fin_cases i <;> simp) (by intro a j; simp)
    (by intro i a b; fin_cases i <;> simp [Subsingleton.elim a b])
    (by
      show wsStepH _ _ (wsStepW _ _ _ _) _ = _
      rw [hW]
      refine wsStepH_eq_some.2 ⟨fun b j => ?_, fun b j => ?_⟩
      · rw [hn, hd]; exact ⟨by linarith, (div_pos (by linarith) (by linarith)).le⟩
      · rw [hn, hd, Subsingleton.elim b 0, Subsingleton.elim j 0]; simp)
  have h3 : TotalLoss ![![2], ![-1]] ![![1], ![1]] (wsStepW (fun A => fun a b => 1 / A a b) ![![2], ![-1]]
      ![![1], ![1]] ![![(1 : ℝ)]]) (fun _ _ => Real.sqrt ((5 + wsEps) / (3 + wsEps)))
      ≤ TotalLoss ![![2], ![-1]] ![![1], ![1]] ![![2], ![-1]] ![![(1 : ℝ)]] := h2
  rw [hW] at h3
  simp only [TotalLoss, RowLoss, Fin.sum_univ_two, Fin.sum_univ_one] at h3
  set q := Real.sqrt ((5 + wsEps) / (3 + wsEps))
  norm_num at h3
  nlinarith

/-- C77 when the recomputed contributions are non-negative (in particular in the regime in which WS-NMF solves an
ordinary NMF problem): a WS-NMF update does not increase the loss; `V` may have negative entries. Missing: updates whose
recomputed W has negative entries, where the statement is false (`C77_refuted`). -/
theorem C77_nonneg_contributions_partial {m n k : ℕ} (inv : Mat k k ℝ → Mat k k ℝ) (V We : Mat m n ℝ) (W : Mat m k ℝ)
    (H H' : Mat k n ℝ) (he : ∀ i j, 0 ≤ We i j) (hH : ∀ a j, 0 ≤ H a j)
    (hinv : ∀ i, IsLeftInverse (inv (fun a b => ∑ j, H a j * (We i j * H b j)))
      (fun a b => ∑ j, H a j * (We i j * H b j)))
    (hW : ∀ i a, 0 ≤ (wsUpdate inv V We false W H).1 i a)
    (h : (wsUpdate inv V We false W H).2 = some H') :
    TotalLoss V We (wsUpdate inv V We false W H).1 H' ≤ TotalLoss V We W H := by
  refine le_trans ?_ (C07_total_optimal inv V We H he hinv W)
  set W' := wsStepW inv V We H with hW'
  have hWn : ∀ i a, 0 ≤ W' i a := hW
  obtain ⟨h1, h2⟩ := wsStepH_eq_some.1 (show wsStepH V We W' H = some H' from h)
  have hneg : wsNeg W' = fun _ _ => 0 := by
    funext i a; simp only [wsNeg, abs_of_nonneg (hWn i a), sub_self, zero_div]
  have hpos : wsPos W' = W' := by
    funext i a; simp only [wsPos, abs_of_nonneg (hWn i a)]; ring
  have hc : ∀ X : Mat k n ℝ, TotalLoss V We W' X = ∑ j, ∑ i, We i j * (V i j - ∑ a, W' i a * X a j) ^ 2 :=
    fun X => Finset.sum_comm
  show TotalLoss V We W' H' ≤ TotalLoss V We W' H
  rw [hc, hc]
  refine Finset.sum_le_sum fun j _ => ?_
  have hD : ∀ a, wsQuad We W' H a j = ∑ i, W' i a * (We i j * ∑ b, W' i b * H b j) := fun a => by
    simp only [wsQuad, Finset.mul_sum]
    rw [Finset.sum_comm]
    exact Finset.sum_congr rfl fun i _ => Finset.sum_congr rfl fun b _ => by ring
  have hn : ∀ a, wsNum V We W' H a j = wsLin V We W' a j + wsEps := fun a => by
    simp [wsNum, hneg, hpos, wsQuad]
  have hd : ∀ a, wsDen V We W' H a j = wsQuad We W' H a j + wsEps := fun a => by
    simp [wsDen, hneg, hpos, wsLin]
  refine column_aux (fun i a => W' i a) (fun i => We i j) (fun i => V i j) (fun a => H a j) (fun a => H' a j)
    (fun a => wsLin V We W' a j) (fun a => wsQuad We W' H a j)
    (fun a => Real.sqrt (wsNum V We W' H a j / wsDen V We W' H a j)) (fun i => he i j)
    (fun i a => mul_nonneg (hWn i a) (hH a j)) (fun a => ?_) hD (fun a => h2 a j) (fun a => ?_)
  · exact Finset.sum_congr rfl fun i _ => mul_comm _ _
  · refine mul_le_mul_of_nonneg_left ?_ (hH a j)
    have h3 := (h1 a j).2
    rw [hn, hd] at h3 ⊢
    exact sqrt_move _ _ _ wsEps_pos (wsQuad_nonneg he hWn hH a j) h3

/-- Non-vacuity: two samples, one factor, two features, non-negative recomputed contributions and an inexact fit. -/
example : ∃ (V We : Mat 2 2 ℝ) (W : Mat 2 1 ℝ) (H H' : Mat 1 2 ℝ),
    let inv : Mat 1 1 ℝ → Mat 1 1 ℝ := fun A => fun a b => 1 / A a b
    (∀ i j, 0 ≤ We i j) ∧ (∀ a j, 0 ≤ H a j) ∧
    (∀ i, IsLeftInverse (inv (fun a b => ∑ j, H a j * (We i j * H b j))) (fun a b => ∑ j, H a j * (We i j * H b j))) ∧
    (∀ i a, 0 ≤ (wsUpdate inv V We false W H).1 i a) ∧ (wsUpdate inv V We false W H).2 = some H' := by
  have h1 : ∀ i j, (0 : ℝ) ≤ (![![1, 2], ![3, 1]] : Mat 2 2 ℝ) i j := by
    intro i j; fin_cases i <;> fin_cases j <;> simp
  have h2 : ∀ i j, (0 : ℝ) ≤ (![![1, 1], ![1, 2]] : Mat 2 2 ℝ) i j := by
    intro i j; fin_cases i <;> fin_cases j <;> simp
  have h3 : ∀ a j, (0 : ℝ) < (![![1, 1]] : Mat 1 2 ℝ) a j := by
    intro a j; fin_cases j <;> simp
  obtain ⟨H', h, _⟩ := C08_nonneg_data_partial (fun A => fun a b => 1 / A a b) _ _ ![![0], ![0]] _ h1 h2 h3
  refine ⟨_, _, _, _, H', h2, fun a j => (h3 a j).le, ?_, ?_, h⟩
  · intro i a b
    have := Subsingleton.elim a b
    subst this
    fin_cases i <;> simp [Subsingleton.elim a 0] <;> norm_num
  · intro i a
    fin_cases i <;> simp [wsUpdate, wsStepW, wsRhs, wsNormal, Subsingleton.elim a 0] <;> norm_num

/-! ### The theorems applied to concrete numbers -/

/-- Case for `C07_row_optimal` and `C07_row_unique`: the row −8, 11 of the example above fits exactly and every other row
has a larger loss. -/
example (w : Fin 2 → ℚ) :
    let H : Mat 2 2 ℚ := ![![1, 2], ![1, 1]]
    let We : Mat 1 2 ℚ := ![![1, 4]]
    let V : Mat 1 2 ℚ := ![![3, -5]]
    RowLoss V We H 0 ![-8, 11] ≤ RowLoss V We H 0 w ∧ (w ≠ ![-8, 11] → RowLoss V We H 0 ![-8, 11] < RowLoss V We H 0 w) := by
  intro H We V
  let inv : Mat 2 2 ℚ → Mat 2 2 ℚ := fun _ => ![![5/4, -9/4], ![-9/4, 17/4]]
  have h1 : IsLeftInverse (inv (fun a b => ∑ j, H a j * (We 0 j * H b j))) (fun a b => ∑ j, H a j * (We 0 j * H b j)) := by
    intro a b; fin_cases a <;> fin_cases b <;> decide +kernel
  have h2 : IsLeftInverse (fun a b => ∑ j, H a j * (We 0 j * H b j)) (inv (fun a b => ∑ j, H a j * (We 0 j * H b j))) := by
    intro a b; fin_cases a <;> fin_cases b <;> decide +kernel
  have he : ∀ j, 0 ≤ We 0 j := by intro j; fin_cases j <;> simp [We]
  have e : wsStepW inv V We H 0 = ![-8, 11] := by funext a; fin_cases a <;> decide +kernel
  rw [← e]
  refine ⟨C07_row_optimal inv V We H 0 he h1 w, fun hw => ?_⟩
  by_contra hlt
  exact hw (C07_row_unique inv V We H 0 he h1 h2 w (not_lt.1 hlt))

/-- Case for `C07_total_optimal`: two samples with the same weights. -/
example (W : Mat 2 1 ℚ) :
    TotalLoss ![![1, 2], ![2, 5]] ![![1, 1], ![1, 1]] ![![1], ![12 / 5]] ![![1, 2]]
      ≤ TotalLoss ![![1, 2], ![2, 5]] ![![1, 1], ![1, 1]] W ![![1, 2]] := by
  have e : wsStepW (fun A => fun a b => 1 / A a b) ![![1, 2], ![2, 5]] ![![1, 1], ![1, 1]] (![![1, 2]] : Mat 1 2 ℚ)
      = ![![1], ![12 / 5]] := by
    funext i a; fin_cases i <;> fin_cases a <;> decide +kernel
  rw [← e]
  refine C07_total_optimal _ _ _ _ (by intro i j; fin_cases i <;> fin_cases j <;> simp) (fun i a b => ?_) W
  fin_cases i <;> fin_cases a <;> fin_cases b <;> decide +kernel

/-- Case for `C08_any_data_partial`: a negative data value and a zero profile entry; the entry stays zero and no entry
becomes negative. -/
example (H' : Mat 1 2 ℝ) (h : (wsUpdate (fun A => fun a b => 1 / A a b) ![![1, -2], ![2, 5]] ![![1, 1], ![1, 1]] false
    ![![1], ![1]] ![![(3 : ℝ), 0]]).2 = some H') : 0 ≤ H' 0 0 ∧ H' 0 1 = 0 := by
  have hH : ∀ a j, 0 ≤ (![![(3 : ℝ), 0]] : Mat 1 2 ℝ) a j := by intro a j; fin_cases a; fin_cases j <;> simp
  exact ⟨(C08_any_data_partial _ _ _ _ _ H' hH h 0 0).1, (C08_any_data_partial _ _ _ _ _ H' hH h 0 1).2 (by simp)⟩

end Esat
