import Verif.Props.WsNmf
import Mathlib.Algebra.BigOperators.Field
import Mathlib.Tactic.Linarith

/-!
# Properties C158, C159: fixed points and drift of the WS-NMF update
-/

namespace Esat
variable {m n k : ℕ}

/-! ## Specification -/

/-- The size of the negative part of a number. -/
noncomputable def negPart' (x : ℝ) : ℝ := max (-x) 0

/-- The positive part of a number. -/
noncomputable def posPart' (x : ℝ) : ℝ := max x 0

/-- Slope of the weighted loss in the profile entry `b, j`, halved: zero for all entries at an optimum of the profiles. -/
noncomputable def slopeH (V We : Mat m n ℝ) (W : Mat m k ℝ) (H : Mat k n ℝ) (b : Fin k) (j : Fin n) : ℝ :=
  ∑ i, We i j * ((∑ a, W i a * H a j) - V i j) * W i b

/-- Where the products of the parts of `W` differ from the product of `W` with itself. -/
noncomputable def wsDefect (We : Mat m n ℝ) (W : Mat m k ℝ) (H : Mat k n ℝ) (b : Fin k) (j : Fin n) : ℝ :=
  ∑ i, We i j * ∑ a, H a j * (2 * negPart' (W i a) * negPart' (W i b) - posPart' (W i a) * negPart' (W i b)
    - negPart' (W i a) * posPart' (W i b))

/-! ## Lemmas -/

theorem wsNeg_eq (W : Mat m k ℝ) (i a) : wsNeg W i a = negPart' (W i a) := by
  unfold wsNeg negPart'
  rcases le_total 0 (W i a) with h | h
  · rw [abs_of_nonneg h, max_eq_right (by linarith)]; ring
  · rw [abs_of_nonpos h, max_eq_left (by linarith)]; ring

theorem wsPos_eq (W : Mat m k ℝ) (i a) : wsPos W i a = posPart' (W i a) := by
  unfold wsPos posPart'
  rcases le_total 0 (W i a) with h | h
  · rw [abs_of_nonneg h, max_eq_left h]; ring
  · rw [abs_of_nonpos h, max_eq_right h]; ring

theorem pos_sub_neg (x : ℝ) : posPart' x - negPart' x = x := by
  unfold posPart' negPart'
  rcases le_total 0 x with h | h
  · rw [max_eq_left h, max_eq_right (by linarith)]; ring
  · rw [max_eq_right h, max_eq_left (by linarith)]; ring

theorem pos_mul_neg (x : ℝ) : posPart' x * negPart' x = 0 := by
  unfold posPart' negPart'
  rcases le_total 0 x with h | h
  · rw [max_eq_right (show -x ≤ 0 by linarith)]; ring
  · rw [max_eq_right h]; ring

/-- Numerator minus denominator of the profile update. -/
theorem wsNum_sub_wsDen (V We : Mat m n ℝ) (W : Mat m k ℝ) (H : Mat k n ℝ) (b j) :
    wsNum V We W H b j - wsDen V We W H b j = wsDefect We W H b j - slopeH V We W H b j := by
  have e : ∀ A : Mat m k ℝ, wsQuad We A H b j = ∑ i, We i j * ∑ a, H a j * (A i a * A i b) := fun A => by
    simp only [wsQuad, Finset.mul_sum]
    rw [Finset.sum_comm]
    exact Finset.sum_congr rfl fun i _ => Finset.sum_congr rfl fun a _ => by ring
  have h : ∀ i, (We i j * V i j) * wsPos W i b + We i j * (∑ a, H a j * (wsNeg W i a * wsNeg W i b))
      - ((We i j * V i j) * wsNeg W i b + We i j * ∑ a, H a j * (wsPos W i a * wsPos W i b))
      = We i j * (∑ a, H a j * (2 * negPart' (W i a) * negPart' (W i b) - posPart' (W i a) * negPart' (W i b)
          - negPart' (W i a) * posPart' (W i b))) - We i j * ((∑ a, W i a * H a j) - V i j) * W i b := fun i => by
    have hs : ∑ a, H a j * (2 * negPart' (W i a) * negPart' (W i b) - posPart' (W i a) * negPart' (W i b)
          - negPart' (W i a) * posPart' (W i b))
        = (∑ a, H a j * (wsNeg W i a * wsNeg W i b)) - (∑ a, H a j * (wsPos W i a * wsPos W i b))
          + (∑ a, W i a * H a j) * W i b := by
      rw [Finset.sum_mul, ← Finset.sum_sub_distrib, ← Finset.sum_add_distrib]
      refine Finset.sum_congr rfl fun a _ => ?_
      rw [wsNeg_eq, wsNeg_eq, wsPos_eq, wsPos_eq]
      have h1 := pos_sub_neg (W i a)
      have h2 := pos_sub_neg (W i b)
      linear_combination H a j * ((posPart' (W i b) - negPart' (W i b)) * h1 + W i a * h2)
    rw [hs, wsNeg_eq W i b, wsPos_eq W i b]
    have h2 := pos_sub_neg (W i b)
    linear_combination We i j * V i j * h2
  unfold wsNum wsDen wsDefect slopeH
  rw [e, e, wsLin, wsLin, ← Finset.sum_sub_distrib, ← Finset.sum_congr rfl fun i _ => h i]
  simp only [Finset.sum_sub_distrib, Finset.sum_add_distrib]
  ring

/-- The profile entry is unchanged exactly if it is zero or numerator and denominator agree. -/
theorem wsStepH_fixed {V We : Mat m n ℝ} {W : Mat m k ℝ} {H H' : Mat k n ℝ} (h : wsStepH V We W H = some H') (b j) :
    H' b j = H b j ↔ H b j = 0 ∨ wsNum V We W H b j = wsDen V We W H b j := by
  obtain ⟨h1, h2⟩ := wsStepH_eq_some.1 h
  rw [h2 b j]
  by_cases hz : H b j = 0
  · simp [hz]
  · rw [mul_eq_left₀ hz, Real.sqrt_eq_one, div_eq_one_iff_eq (h1 b j).1]
    simp [hz]

/-! ## C158 -/

/-- **C158.** One update leaves the profile entry `b, j` unchanged exactly if it is zero or the slope of the loss equals the defect of
the products of parts: the fixed points are not the stationary points of the loss. -/
theorem C158_entry_fixed_iff (inv : Mat k k ℝ → Mat k k ℝ) (V We : Mat m n ℝ) (W₀ W' : Mat m k ℝ) (H H' : Mat k n ℝ)
    (h : wsUpdate inv V We false W₀ H = (W', some H')) (b : Fin k) (j : Fin n) :
    H' b j = H b j ↔ H b j = 0 ∨ slopeH V We W' H b j = wsDefect We W' H b j := by
  have h1 : wsStepW inv V We H = W' := congrArg Prod.fst h
  have h2 : wsStepH V We (wsStepW inv V We H) H = some H' := congrArg Prod.snd h
  rw [h1] at h2
  rw [wsStepH_fixed h2]
  have := wsNum_sub_wsDen V We W' H b j
  refine or_congr_right ⟨fun e => by linarith, fun e => by linarith⟩

/-- **C158.** With non-negative contributions the defect vanishes: then, and in particular for ordinary non-negative problems, the
entries that no longer change are those with slope zero and the zeros. -/
theorem C158_nonneg_iff (inv : Mat k k ℝ → Mat k k ℝ) (V We : Mat m n ℝ) (W₀ W' : Mat m k ℝ) (H H' : Mat k n ℝ)
    (h : wsUpdate inv V We false W₀ H = (W', some H')) (hW : ∀ i a, 0 ≤ W' i a) (b : Fin k) (j : Fin n) :
    H' b j = H b j ↔ H b j = 0 ∨ ∑ i, We i j * ((∑ a, W' i a * H a j) - V i j) * W' i b = 0 := by
  rw [C158_entry_fixed_iff inv V We W₀ W' H H' h]
  have hn : ∀ i a, negPart' (W' i a) = 0 := fun i a => max_eq_right (by have := hW i a; linarith)
  have : wsDefect We W' H b j = 0 := by simp [wsDefect, hn]
  rw [this]
  rfl

/-- **C158.** If the update changes nothing at all, the reconstruction made from the negative parts alone is orthogonal to the whole
reconstruction. -/
theorem C158_fixed_identity (inv : Mat k k ℝ → Mat k k ℝ) (V We : Mat m n ℝ) (W : Mat m k ℝ) (H : Mat k n ℝ)
    (hinv : ∀ i, IsLeftInverse (inv (fun a b => ∑ j, H a j * (We i j * H b j)))
      (fun a b => ∑ j, H a j * (We i j * H b j)))
    (h : wsUpdate inv V We false W H = (W, some H)) :
    ∑ i, ∑ j, We i j * (∑ a, negPart' (W i a) * H a j) * (∑ a, W i a * H a j) = 0 := by
  have h1 : wsStepW inv V We H = W := congrArg Prod.fst h
  have hs : ∀ b j, H b j * slopeH V We W H b j = H b j * wsDefect We W H b j := fun b j => by
    rcases (C158_entry_fixed_iff inv V We W W H H h b j).1 rfl with e | e
    · rw [e, zero_mul, zero_mul]
    · rw [e]
  have hzero : ∑ j, ∑ b, H b j * slopeH V We W H b j = 0 := by
    have hn := fun i b => wsStepW_normal inv V We H i (hinv i) b
    rw [h1] at hn
    have e : ∀ i b, ∑ j, H b j * (We i j * ((∑ a, W i a * H a j) - V i j)) = 0 := fun i b => by
      have : ∑ j, H b j * (We i j * ((∑ a, W i a * H a j) - V i j))
          = (∑ a, W i a * ∑ j, H a j * (We i j * H b j)) - ∑ j, H b j * (We i j * V i j) := by
        simp only [mul_sub, Finset.mul_sum, Finset.sum_sub_distrib]
        congr 1
        rw [Finset.sum_comm]
        exact Finset.sum_congr rfl fun a _ => Finset.sum_congr rfl fun j _ => by ring
      rw [this, hn i b, sub_self]
    have : ∑ j, ∑ b, H b j * slopeH V We W H b j
        = ∑ i, ∑ b, W i b * ∑ j, H b j * (We i j * ((∑ a, W i a * H a j) - V i j)) := by
      simp only [slopeH, Finset.mul_sum]
      rw [Finset.sum_congr rfl fun j _ => Finset.sum_comm, Finset.sum_comm]
      refine Finset.sum_congr rfl fun i _ => ?_
      rw [Finset.sum_comm]
      exact Finset.sum_congr rfl fun b _ => Finset.sum_congr rfl fun j _ => by ring
    rw [this]
    simp [e]
  simp only [hs] at hzero
  have key : ∀ i j, ∑ b, H b j * (We i j * ∑ a, H a j * (2 * negPart' (W i a) * negPart' (W i b)
      - posPart' (W i a) * negPart' (W i b) - negPart' (W i a) * posPart' (W i b)))
      = -2 * (We i j * (∑ a, negPart' (W i a) * H a j) * (∑ a, W i a * H a j)) := fun i j => by
    have hW : ∑ a, W i a * H a j = (∑ a, posPart' (W i a) * H a j) - ∑ a, negPart' (W i a) * H a j := by
      rw [← Finset.sum_sub_distrib]
      exact Finset.sum_congr rfl fun a _ => by rw [← sub_mul, pos_sub_neg]
    have hb : ∀ b, H b j * (We i j * ∑ a, H a j * (2 * negPart' (W i a) * negPart' (W i b)
        - posPart' (W i a) * negPart' (W i b) - negPart' (W i a) * posPart' (W i b)))
        = We i j * (2 * (∑ a, negPart' (W i a) * H a j) - ∑ a, posPart' (W i a) * H a j) * (negPart' (W i b) * H b j)
          - We i j * (∑ a, negPart' (W i a) * H a j) * (posPart' (W i b) * H b j) := fun b => by
      have : ∑ a, H a j * (2 * negPart' (W i a) * negPart' (W i b)
          - posPart' (W i a) * negPart' (W i b) - negPart' (W i a) * posPart' (W i b))
          = (2 * (∑ a, negPart' (W i a) * H a j) - ∑ a, posPart' (W i a) * H a j) * negPart' (W i b)
            - (∑ a, negPart' (W i a) * H a j) * posPart' (W i b) := by
        rw [Finset.mul_sum, ← Finset.sum_sub_distrib, Finset.sum_mul, Finset.sum_mul, ← Finset.sum_sub_distrib]
        exact Finset.sum_congr rfl fun a _ => by ring
      rw [this]; ring
    rw [Finset.sum_congr rfl fun b _ => hb b, Finset.sum_sub_distrib, ← Finset.mul_sum, ← Finset.mul_sum, hW]
    ring
  have h3 : ∑ j, ∑ b, H b j * wsDefect We W H b j
      = -2 * ∑ i, ∑ j, We i j * (∑ a, negPart' (W i a) * H a j) * (∑ a, W i a * H a j) := by
    simp only [wsDefect]
    have : ∀ j, ∑ b, H b j * ∑ i, We i j * ∑ a, H a j * (2 * negPart' (W i a) * negPart' (W i b)
        - posPart' (W i a) * negPart' (W i b) - negPart' (W i a) * posPart' (W i b))
        = ∑ i, -2 * (We i j * (∑ a, negPart' (W i a) * H a j) * (∑ a, W i a * H a j)) := fun j => by
      simp only [← key]
      rw [Finset.sum_comm]
      exact Finset.sum_congr rfl fun b _ => by rw [Finset.mul_sum]
    rw [Finset.sum_congr rfl fun j _ => this j, Finset.sum_comm]
    simp only [← Finset.mul_sum]
  rw [h3] at hzero
  linarith

/-- **C158.** With one factor, positive weights and a positive profile, an update that changes nothing has no negative contribution:
as long as a sample has a negative contribution, the profile keeps moving. -/
theorem C158_one_factor (inv : Mat 1 1 ℝ → Mat 1 1 ℝ) (V We : Mat m n ℝ) (W : Mat m 1 ℝ) (H : Mat 1 n ℝ) (hn : 0 < n)
    (he : ∀ i j, 0 < We i j) (hH : ∀ a j, 0 < H a j)
    (hinv : ∀ i, IsLeftInverse (inv (fun a b => ∑ j, H a j * (We i j * H b j)))
      (fun a b => ∑ j, H a j * (We i j * H b j)))
    (h : wsUpdate inv V We false W H = (W, some H)) (i : Fin m) : 0 ≤ W i 0 := by
  have h1 := C158_fixed_identity inv V We W H hinv h
  simp only [Fin.sum_univ_one] at h1
  have hle : ∀ x : ℝ, negPart' x * x ≤ 0 := fun x => by
    unfold negPart'
    rcases le_total 0 x with hx | hx
    · rw [max_eq_right (by linarith)]; simp
    · rw [max_eq_left (by linarith)]; nlinarith
  have hcell : ∀ i j, We i j * (negPart' (W i 0) * H 0 j) * (W i 0 * H 0 j) ≤ 0 := fun i j => by
    have h2 := mul_nonneg (he i j).le (sq_nonneg (H 0 j))
    have h3 := hle (W i 0)
    have := mul_nonneg h2 (neg_nonneg.2 h3)
    nlinarith
  have hrow := (Finset.sum_eq_zero_iff_of_nonpos fun i _ => Finset.sum_nonpos fun j _ => hcell i j).1 h1 i (Finset.mem_univ _)
  have hc := (Finset.sum_eq_zero_iff_of_nonpos fun j _ => hcell i j).1 hrow ⟨0, hn⟩ (Finset.mem_univ _)
  by_contra hneg
  push Not at hneg
  have hnp : negPart' (W i 0) = - W i 0 := max_eq_left (by linarith)
  rw [hnp] at hc
  have := he i ⟨0, hn⟩
  have := hH 0 ⟨0, hn⟩
  have : 0 < We i ⟨0, hn⟩ * ((-W i 0) * H 0 ⟨0, hn⟩) * ((-W i 0) * H 0 ⟨0, hn⟩) := by
    have : 0 < -W i 0 := by linarith
    positivity
  linarith

/-- **C158.** An exact factorisation is recomputed with the same contributions; its profiles stay exactly if the defect is zero at
every non-zero entry, for example if no contribution is negative. -/
theorem C158_exact (inv : Mat k k ℝ → Mat k k ℝ) (We : Mat m n ℝ) (W₀ W : Mat m k ℝ) (H : Mat k n ℝ)
    (hinv : ∀ i, IsLeftInverse (fun a b => ∑ j, H a j * (We i j * H b j))
      (inv (fun a b => ∑ j, H a j * (We i j * H b j)))) :
    (wsUpdate inv (fun i j => ∑ a, W i a * H a j) We false W₀ H).1 = W ∧
    ∀ H', (wsUpdate inv (fun i j => ∑ a, W i a * H a j) We false W₀ H).2 = some H' →
      (H' = H ↔ ∀ b j, H b j = 0 ∨ wsDefect We W H b j = 0) := by
  have hW : wsStepW inv (fun i j => ∑ a, W i a * H a j) We H = W := by
    funext i b
    have hr : ∀ a, wsRhs (fun i j => ∑ a, W i a * H a j) We H i a = ∑ c, W i c * ∑ j, H c j * (We i j * H a j) := fun a => by
      simp only [wsRhs, Finset.mul_sum]
      rw [Finset.sum_comm]
      exact Finset.sum_congr rfl fun c _ => Finset.sum_congr rfl fun j _ => by ring
    simp only [wsStepW, hr]
    have : ∀ a, (∑ c, W i c * ∑ j, H c j * (We i j * H a j)) * inv (wsNormal We H i) a b
        = ∑ c, W i c * ((∑ j, H c j * (We i j * H a j)) * inv (wsNormal We H i) a b) := fun a => by
      rw [Finset.sum_mul]
      exact Finset.sum_congr rfl fun c _ => by ring
    rw [Finset.sum_congr rfl fun a _ => this a, Finset.sum_comm]
    have e : ∀ c, ∑ a, W i c * ((∑ j, H c j * (We i j * H a j)) * inv (wsNormal We H i) a b)
        = W i c * if c = b then 1 else 0 := fun c => by
      rw [← Finset.mul_sum, ← hinv i c b]
      rfl
    simp [e]
  refine ⟨hW, fun H' h => ?_⟩
  have hu : wsUpdate inv (fun i j => ∑ a, W i a * H a j) We false W₀ H = (W, some H') := Prod.ext hW h
  have key := C158_entry_fixed_iff inv _ We W₀ W H H' hu
  have hs : ∀ b j, slopeH (fun i j => ∑ a, W i a * H a j) We W H b j = 0 := fun b j => by simp [slopeH]
  constructor
  · intro e b j
    have := (key b j).1 (by rw [e])
    rw [hs] at this
    exact this.imp_right Eq.symm
  · intro e
    funext b j
    rw [key b j, hs]
    exact (e b j).imp_right Eq.symm

/-- A fixed point exists: an exact factorisation with positive contributions. -/
theorem exWs_fixed (W₀ : Mat 2 1 ℝ) : wsUpdate (fun A => fun a b => 1 / A a b) ![![1, 2], ![2, 4]] ![![1, 1], ![1, 1]] false W₀ ![![(1 : ℝ), 2]]
    = (![![1], ![2]], some ![![1, 2]]) := by
  have e : (![![1, 2], ![2, 4]] : Mat 2 2 ℝ) = fun i j => ∑ a, (![![1], ![2]] : Mat 2 1 ℝ) i a * (![![1, 2]] : Mat 1 2 ℝ) a j := by
    funext i j; fin_cases i <;> fin_cases j <;> norm_num
  have hinv : ∀ i : Fin 2, IsLeftInverse (fun a b => ∑ j, (![![1, 2]] : Mat 1 2 ℝ) a j * ((![![1, 1], ![1, 1]] : Mat 2 2 ℝ) i j *
      (![![1, 2]] : Mat 1 2 ℝ) b j)) ((fun A => fun a b => 1 / A a b : Mat 1 1 ℝ → Mat 1 1 ℝ) (fun a b => ∑ j, (![![1, 2]] : Mat 1 2 ℝ) a j *
      ((![![1, 1], ![1, 1]] : Mat 2 2 ℝ) i j * (![![1, 2]] : Mat 1 2 ℝ) b j))) := by
    intro i a b
    obtain rfl : a = 0 := Subsingleton.elim _ _
    obtain rfl : b = 0 := Subsingleton.elim _ _
    fin_cases i <;> norm_num [Fin.sum_univ_two]
  obtain ⟨h1, h2⟩ := C158_exact (fun A => fun a b => 1 / A a b) ![![1, 1], ![1, 1]] W₀ ![![1], ![2]] ![![1, 2]] hinv
  obtain ⟨H', h3, -⟩ := C08_nonneg_data_partial (fun A => fun a b => 1 / A a b)
    (fun i j => ∑ a, (![![1], ![2]] : Mat 2 1 ℝ) i a * (![![1, 2]] : Mat 1 2 ℝ) a j) ![![1, 1], ![1, 1]] W₀ ![![1, 2]]
    (by intro i j; fin_cases i <;> fin_cases j <;> norm_num) (by intro i j; fin_cases i <;> fin_cases j <;> norm_num)
    (by intro i j; fin_cases i; fin_cases j <;> norm_num)
  have h4 : H' = ![![1, 2]] := (h2 H' h3).2 fun b j => .inr (by
    simp only [wsDefect, negPart', posPart', Fin.sum_univ_two, Fin.sum_univ_one]
    obtain rfl : b = 0 := Subsingleton.elim _ _
    norm_num)
  rw [e]
  exact Prod.ext h1 (h4 ▸ h3)

/-- Case for `C158_entry_fixed_iff` and `C158_nonneg_iff`: in the example above every entry of the profile is fixed, so the
slope vanishes there. -/
example (j : Fin 2) : ∑ i, (![![1, 1], ![1, 1]] : Mat 2 2 ℝ) i j * ((∑ a, (![![1], ![2]] : Mat 2 1 ℝ) i a *
      (![![1, 2]] : Mat 1 2 ℝ) a j) - (![![1, 2], ![2, 4]] : Mat 2 2 ℝ) i j) * (![![1], ![2]] : Mat 2 1 ℝ) i 0 = 0 ∧
    slopeH ![![1, 2], ![2, 4]] ![![1, 1], ![1, 1]] ![![1], ![2]] ![![1, 2]] 0 j
      = wsDefect ![![1, 1], ![1, 1]] ![![1], ![2]] ![![1, 2]] 0 j := by
  have hH : (![![1, 2]] : Mat 1 2 ℝ) 0 j ≠ 0 := by fin_cases j <;> simp
  have hW : ∀ (i : Fin 2) (a : Fin 1), 0 ≤ (![![1], ![2]] : Mat 2 1 ℝ) i a := by
    intro i a; fin_cases i <;> fin_cases a <;> simp
  exact ⟨((C158_nonneg_iff _ _ _ _ _ _ _ (exWs_fixed ![![5], ![5]]) hW 0 j).1 rfl).resolve_left hH,
    ((C158_entry_fixed_iff _ _ _ _ _ _ _ (exWs_fixed ![![5], ![5]]) 0 j).1 rfl).resolve_left hH⟩

/-- Case for `C158_fixed_identity` and `C158_one_factor`: the contributions 1, 2 and the profile 1, 2 are a fixed point. -/
example (i : Fin 2) : 0 ≤ (![![1], ![2]] : Mat 2 1 ℝ) i 0 ∧
    ∑ i, ∑ j, (![![1, 1], ![1, 1]] : Mat 2 2 ℝ) i j * (∑ a, negPart' ((![![1], ![2]] : Mat 2 1 ℝ) i a) * (![![1, 2]] : Mat 1 2 ℝ) a j) *
      (∑ a, (![![1], ![2]] : Mat 2 1 ℝ) i a * (![![1, 2]] : Mat 1 2 ℝ) a j) = 0 := by
  have hinv : ∀ i : Fin 2, IsLeftInverse (fun a b => 1 / (fun a b => ∑ j, (![![1, 2]] : Mat 1 2 ℝ) a j * ((![![1, 1], ![1, 1]] : Mat 2 2 ℝ) i j *
      (![![1, 2]] : Mat 1 2 ℝ) b j) : Mat 1 1 ℝ) a b) (fun a b => ∑ j, (![![1, 2]] : Mat 1 2 ℝ) a j *
      ((![![1, 1], ![1, 1]] : Mat 2 2 ℝ) i j * (![![1, 2]] : Mat 1 2 ℝ) b j)) := by
    intro i a b
    obtain rfl : a = 0 := Subsingleton.elim _ _
    obtain rfl : b = 0 := Subsingleton.elim _ _
    fin_cases i <;> norm_num [Fin.sum_univ_two]
  exact ⟨C158_one_factor (fun A => fun a b => 1 / A a b) _ ![![1, 1], ![1, 1]] _ _ (by norm_num)
      (by intro i j; fin_cases i <;> fin_cases j <;> simp) (by intro a j; fin_cases a; fin_cases j <;> simp) hinv
      (exWs_fixed _) i,
    C158_fixed_identity (fun A => fun a b => 1 / A a b) _ _ _ _ hinv (exWs_fixed _)⟩

/-! ## C159: a single feature -/

/-- **C159.** One feature, one factor: the data are always reproduced exactly by the new contributions, and the profile is then
multiplied by a number greater than one exactly if some sample is negative. The product is thrown off the data by that number:
the loss recorded after the update is positive for ever, whatever the number of iterations. -/
theorem C159_single_feature (V We : Mat m 1 ℝ) (he : ∀ i j, 0 < We i j) (W₀ : Mat m 1 ℝ) (H H' : Mat 1 1 ℝ)
    (hH : 0 < H 0 0)
    (hdef : (wsUpdate (fun A => fun a b => 1 / A a b) V We false W₀ H).2 = some H') :
    let W' := (wsUpdate (fun A => fun a b => 1 / A a b) V We false W₀ H).1
    (∀ i, W' i 0 * H 0 0 = V i 0) ∧ H 0 0 ≤ H' 0 0 ∧ (H 0 0 < H' 0 0 ↔ ∃ i, V i 0 < 0) ∧
    TotalLoss V We W' H = 0 ∧ (0 < TotalLoss V We W' H' ↔ ∃ i, V i 0 < 0) := by
  intro W'
  set h := H 0 0 with hh
  have hW : ∀ i, W' i 0 = V i 0 / h := fun i => by
    have := (he i 0).ne'
    show ∑ a, wsRhs V We H i a * (1 / wsNormal We H i a 0) = _
    simp only [Fin.sum_univ_one, wsRhs, wsNormal, ← hh]
    field_simp
  have hsum : ∀ f : Fin 1 → ℝ, ∑ a, f a = f 0 := fun f => Fin.sum_univ_one f
  obtain ⟨h1, h2⟩ := wsStepH_eq_some.1 (show wsStepH V We W' H = some H' from hdef)
  have h1 := h1 0 0
  have h2 := h2 0 0
  set P := ∑ i, We i 0 * (posPart' (V i 0)) ^ 2 with hP
  set N := ∑ i, We i 0 * (negPart' (V i 0)) ^ 2 with hN
  have hP0 : 0 ≤ P := Finset.sum_nonneg fun i _ => mul_nonneg (he i 0).le (sq_nonneg _)
  have hN0 : 0 ≤ N := Finset.sum_nonneg fun i _ => mul_nonneg (he i 0).le (sq_nonneg _)
  have hNpos : 0 < N ↔ ∃ i, V i 0 < 0 := by
    constructor
    · intro hpos
      by_contra hc
      push Not at hc
      have : N = 0 := Finset.sum_eq_zero fun i _ => by
        rw [show negPart' (V i 0) = 0 from max_eq_right (by have := hc i; linarith)]; simp
      linarith
    · rintro ⟨i, hi⟩
      refine Finset.sum_pos' (fun i _ => mul_nonneg (he i 0).le (sq_nonneg _)) ⟨i, Finset.mem_univ _, ?_⟩
      rw [show negPart' (V i 0) = -V i 0 from max_eq_left (by linarith)]
      exact mul_pos (he i 0) (by nlinarith)
  have hpp : ∀ i, wsPos W' i 0 = posPart' (V i 0) / h := fun i => by
    rw [wsPos_eq, hW]
    unfold posPart'
    rcases le_total 0 (V i 0) with hv | hv
    · rw [max_eq_left hv, max_eq_left (div_nonneg hv hH.le)]
    · rw [max_eq_right hv, max_eq_right (div_nonpos_of_nonpos_of_nonneg hv hH.le), zero_div]
  have hnn : ∀ i, wsNeg W' i 0 = negPart' (V i 0) / h := fun i => by
    rw [wsNeg_eq, hW]
    unfold negPart'
    rw [← neg_div]
    rcases le_total 0 (V i 0) with hv | hv
    · rw [max_eq_right (show -V i 0 ≤ 0 by linarith), max_eq_right (div_nonpos_of_nonpos_of_nonneg (by linarith) hH.le), zero_div]
    · rw [max_eq_left (show 0 ≤ -V i 0 by linarith), max_eq_left (div_nonneg (by linarith) hH.le)]
  have hmp : ∀ x : ℝ, x * posPart' x = posPart' x ^ 2 := fun x => by
    have h3 := pos_sub_neg x; have h4 := pos_mul_neg x; linear_combination -posPart' x * h3 - h4
  have hmn : ∀ x : ℝ, x * negPart' x = -negPart' x ^ 2 := fun x => by
    have h3 := pos_sub_neg x; have h4 := pos_mul_neg x; linear_combination -negPart' x * h3 + h4
  have hnum : wsNum V We W' H 0 0 = (P + N) / h + wsEps := by
    unfold wsNum wsLin wsQuad
    simp only [hsum, hpp, hnn, ← hh]
    congr 1
    rw [add_div, hP, hN, Finset.sum_div, Finset.sum_div, Finset.mul_sum]
    congr 1
    · refine Finset.sum_congr rfl fun i _ => ?_
      rw [← hmp]; ring
    · refine Finset.sum_congr rfl fun i _ => ?_
      field_simp
  have hden : wsDen V We W' H 0 0 = (P - N) / h + wsEps := by
    unfold wsDen wsLin wsQuad
    simp only [hsum, hpp, hnn, ← hh]
    congr 1
    rw [sub_div, sub_eq_neg_add, hP, hN, Finset.sum_div, Finset.sum_div, Finset.mul_sum, ← Finset.sum_neg_distrib]
    congr 1
    · refine Finset.sum_congr rfl fun i _ => ?_
      rw [show We i 0 * V i 0 * (negPart' (V i 0) / h) = We i 0 * (V i 0 * negPart' (V i 0)) / h by ring, hmn]
      ring
    · refine Finset.sum_congr rfl fun i _ => ?_
      field_simp
  have hε := wsEps_pos
  have hnumpos : 0 < wsNum V We W' H 0 0 := by rw [hnum]; positivity
  have hdenpos : 0 < wsDen V We W' H 0 0 := by
    rcases lt_trichotomy (wsDen V We W' H 0 0) 0 with h3 | h3 | h3
    · exact absurd h1.2 (not_le.2 (div_neg_of_pos_of_neg hnumpos h3))
    · exact absurd h3 h1.1
    · exact h3
  have hdiff : wsNum V We W' H 0 0 - wsDen V We W' H 0 0 = 2 * N / h := by
    rw [hnum, hden]; ring
  have hge : 1 ≤ wsNum V We W' H 0 0 / wsDen V We W' H 0 0 := by
    rw [le_div_iff₀ hdenpos]
    have : 0 ≤ 2 * N / h := by positivity
    linarith
  have hgt : 1 < wsNum V We W' H 0 0 / wsDen V We W' H 0 0 ↔ 0 < N := by
    rw [lt_div_iff₀ hdenpos, one_mul, ← sub_pos, hdiff]
    constructor
    · intro h3
      by_contra hc
      have : N = 0 := le_antisymm (not_lt.1 hc) hN0
      rw [this] at h3
      simp at h3
    · intro h3; positivity
  set q := Real.sqrt (wsNum V We W' H 0 0 / wsDen V We W' H 0 0) with hq
  have hq1 : 1 ≤ q := by rw [hq, Real.one_le_sqrt]; exact hge
  have hq2 : 1 < q ↔ ∃ i, V i 0 < 0 := by
    rw [hq, Real.lt_sqrt (by norm_num), one_pow, hgt, hNpos]
  have hH' : H' 0 0 = h * q := h2
  have hex : ∀ i, W' i 0 * h = V i 0 := fun i => by rw [hW]; field_simp
  refine ⟨hex, ?_, ?_, ?_, ?_⟩
  · rw [hH']; exact le_mul_of_one_le_right hH.le hq1
  · rw [hH', lt_mul_iff_one_lt_right hH, hq2]
  · simp only [TotalLoss, RowLoss, hsum]
    refine Finset.sum_eq_zero fun i _ => ?_
    rw [← hh, hex, sub_self]; simp
  · have hl : TotalLoss V We W' H' = (q - 1) ^ 2 * ∑ i, We i 0 * V i 0 ^ 2 := by
      simp only [TotalLoss, RowLoss, hsum]
      rw [Finset.mul_sum]
      refine Finset.sum_congr rfl fun i _ => ?_
      rw [hH', show W' i 0 * (h * q) = (W' i 0 * h) * q by ring, hex]
      ring
    rw [hl, ← hq2]
    constructor
    · intro h3
      rcases hq1.lt_or_eq with h4 | h4
      · exact h4
      · rw [← h4] at h3; simp at h3
    · intro h3
      obtain ⟨i, hi⟩ := hq2.1 h3
      have : 0 < ∑ i, We i 0 * V i 0 ^ 2 :=
        Finset.sum_pos' (fun i _ => mul_nonneg (he i 0).le (sq_nonneg _))
          ⟨i, Finset.mem_univ _, mul_pos (he i 0) (by nlinarith)⟩
      have h5 : 0 < q - 1 := by linarith
      positivity

/-- Two samples, one of them negative: the update is defined and the profile grows. -/
example : ∃ H', (wsUpdate (fun A => fun a b => 1 / A a b) ![![2], ![-1]] ![![1], ![1]] false ![![2], ![-1]] ![![1]]).2 = some H' ∧
    1 < H' 0 0 := by
  have hW : wsStepW (fun A => fun a b => 1 / A a b) ![![2], ![-1]] ![![1], ![1]] ![![(1 : ℝ)]] = ![![2], ![-1]] := by
    funext i a; fin_cases i <;> simp [wsStepW, wsRhs, wsNormal, Subsingleton.elim a 0]
  have hd : (wsUpdate (fun A => fun a b => 1 / A a b) ![![2], ![-1]] ![![1], ![1]] false ![![2], ![-1]] ![![(1 : ℝ)]]).2
      = some fun b j => (![![1]] : Mat 1 1 ℝ) b j * Real.sqrt (wsNum ![![2], ![-1]] ![![1], ![1]] ![![2], ![-1]] ![![1]] b j /
          wsDen ![![2], ![-1]] ![![1], ![1]] ![![2], ![-1]] ![![1]] b j) := by
    show wsStepH _ _ (wsStepW _ _ _ _) _ = _
    rw [hW, wsStepH_eq_some]
    refine ⟨fun b j => ?_, fun b j => rfl⟩
    rw [Subsingleton.elim b 0, Subsingleton.elim j 0]
    simp only [wsNum, wsDen, wsLin, wsQuad, wsPos, wsNeg, wsEps, Fin.sum_univ_two, Fin.sum_univ_one]
    norm_num
  refine ⟨_, hd, ?_⟩
  have := (C159_single_feature ![![2], ![-1]] ![![1], ![1]] (by intro i j; fin_cases i <;> fin_cases j <;> norm_num) ![![2], ![-1]]
    ![![1]] _ (by norm_num) hd).2.2.1.2 ⟨1, by norm_num⟩
  exact this

end Esat
