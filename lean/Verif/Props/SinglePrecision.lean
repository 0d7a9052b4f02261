import Verif.Model.SinglePrecision
import Verif.Props.Float32
import Verif.Props.LsNmf

/-!
# What the conversion of the data to single precision costs (C230)

`SA.__init__` (`sa.py:72-76`) converts data and uncertainties to `float32` and raises small uncertainties to `EPSILON`.  The loss of any
factors on the converted data is compared with that on the data themselves.
-/

namespace Esat

section
variable {m n k : ℕ}

/-- The sum of the squared signal to noise ratios: the loss of the zero model. -/
def signal (V U : Mat m n ℚ) : ℚ := ∑ i, ∑ j, (V i j / U i j) ^ 2

/-- Numbers whose conversion has a relative error of `2^-24`. -/
def Normal32 (x : ℚ) : Prop := x = 0 ∨ 2 ^ (-126 : ℤ) ≤ |x|

theorem normal_error {x : ℚ} (h : Normal32 x) : |float32 x - x| ≤ 2 ^ (-24 : ℤ) * |x| := by
  rcases h with rfl | h
  · have : float32 0 = 0 := (C190_zero 0).2 (by rw [abs_zero]; positivity)
    rw [this]
    simp
  · refine (C190_error x).trans (max_le (le_of_eq (mul_comm _ _)) ?_)
    calc (2 : ℚ) ^ (-150 : ℤ) = 2 ^ (-24 : ℤ) * 2 ^ (-126 : ℤ) := by rw [← zpow_add₀ two_ne_zero]; norm_num
      _ ≤ _ := mul_le_mul_of_nonneg_left h (by positivity)

/-- A squared difference after a change of the first number by the fraction `g` of a number `x`. -/
theorem sq_shift {a e x g p : ℚ} (hg : 0 < g) (he : |e| ≤ g * |x|) : (a + e - p) ^ 2 ≤ (1 + g) * ((a - p) ^ 2 + g * x ^ 2) := by
  have h1 : e ^ 2 ≤ g ^ 2 * x ^ 2 := by
    rw [← sq_abs e, ← sq_abs x, ← mul_pow]
    exact pow_le_pow_left₀ (abs_nonneg _) he 2
  have h2 : 2 * (a - p) * e * g ≤ (g * (a - p)) ^ 2 + e ^ 2 := by nlinarith [sq_nonneg (g * (a - p) - e)]
  have h3 : g * (2 * (a - p) * e) ≤ g * (g * (a - p) ^ 2 + g * x ^ 2) := by nlinarith
  have h4 := le_of_mul_le_mul_left h3 hg
  nlinarith

/-- One term of the loss. -/
theorem term_shift {a b u u' e x g s p : ℚ} (hg : 0 < g) (hb : b = a + e) (he : |e| ≤ g * |x|) (hu : u ≠ 0)
    (hs : 1 / u' ^ 2 ≤ s * (1 / u ^ 2)) :
    ((b - p) / u') ^ 2 ≤ (1 + g) * s * (((a - p) / u) ^ 2 + g * (x / u) ^ 2) := by
  have h1 := sq_shift (a := a) (p := p) hg he
  rw [← hb] at h1
  have h0 : 0 ≤ 1 / u' ^ 2 := by positivity
  calc ((b - p) / u') ^ 2 = (b - p) ^ 2 * (1 / u' ^ 2) := by rw [div_pow]; ring
    _ ≤ ((1 + g) * ((a - p) ^ 2 + g * x ^ 2)) * (s * (1 / u ^ 2)) := mul_le_mul h1 hs h0 (by positivity)
    _ = _ := by rw [div_pow, div_pow]; ring

/-- The kept uncertainty of a number that is not below `EPSILON`. -/
theorem keptU_eq {U : Mat m n ℚ} (h : ∀ i j, epsilon ℚ ≤ U i j) : keptU U = fun i j => float32 (U i j) := by
  funext i j
  exact if_neg (not_lt.2 (C190_rounding.1 (h i j)))

theorem qLoss_sum (V U : Mat m n ℚ) (W : Mat m k ℚ) (H : Mat k n ℚ) : qLoss V U W H = ∑ i, ∑ j, ((V i j - ∑ a, W i a * H a j) / U i j) ^ 2 := by
  simp only [qLoss, if_true, pow_two]
  rfl

/-- The rounding unit. -/
def unit32 : ℚ := 2 ^ (-24 : ℤ)

theorem unit32_pos : 0 < unit32 := by unfold unit32; positivity
theorem unit32_lt : unit32 < 1 := by unfold unit32; norm_num

theorem unc_error {u : ℚ} (h : epsilon ℚ ≤ u) : 0 < u ∧ (1 - unit32) * u ≤ float32 u ∧ float32 u ≤ (1 + unit32) * u := by
  have h0 : (0 : ℚ) < epsilon ℚ := by unfold epsilon; positivity
  have hu : 0 < u := h0.trans_le h
  have hn : Normal32 u := .inr (by
    rw [abs_of_pos hu]
    refine le_trans ?_ h
    unfold epsilon
    norm_num)
  have := abs_le.1 (normal_error hn)
  rw [abs_of_pos hu] at this
  refine ⟨hu, ?_, ?_⟩ <;> unfold unit32 <;> linarith [this.1, this.2]

/-- **C230.** For any factors: the loss on the converted data is at most the loss on the data plus `2^-24` times the sum of the squared
signal to noise ratios, up to a factor close to one. -/
theorem C230_upper (V U : Mat m n ℚ) (hV : ∀ i j, Normal32 (V i j)) (hU : ∀ i j, epsilon ℚ ≤ U i j) (W : Mat m k ℚ) (H : Mat k n ℚ) :
    qLoss (keptV V) (keptU U) W H ≤ (1 + unit32) / (1 - unit32) ^ 2 * (qLoss V U W H + unit32 * signal V U) := by
  have hg := unit32_pos
  have hl := unit32_lt
  rw [keptU_eq hU, qLoss_sum, qLoss_sum, signal]
  have hpt : ∀ i j, ((keptV V i j - ∑ a, W i a * H a j) / float32 (U i j)) ^ 2 ≤
      (1 + unit32) / (1 - unit32) ^ 2 * (((V i j - ∑ a, W i a * H a j) / U i j) ^ 2 + unit32 * (V i j / U i j) ^ 2) := by
    intro i j
    obtain ⟨hu, h1, h2⟩ := unc_error (hU i j)
    have hp : 0 < (1 - unit32) * U i j := mul_pos (by linarith) hu
    have hs : 1 / float32 (U i j) ^ 2 ≤ 1 / (1 - unit32) ^ 2 * (1 / U i j ^ 2) := by
      rw [one_div_mul_one_div, ← mul_pow]
      exact one_div_le_one_div_of_le (by positivity) (pow_le_pow_left₀ hp.le h1 2)
    have := term_shift (a := V i j) (b := keptV V i j) (e := keptV V i j - V i j) (x := V i j) (p := ∑ a, W i a * H a j) hg (by ring)
      (normal_error (hV i j)) hu.ne' hs
    calc _ ≤ _ := this
      _ = _ := by ring
  calc _ ≤ ∑ i, ∑ j, (1 + unit32) / (1 - unit32) ^ 2 * (((V i j - ∑ a, W i a * H a j) / U i j) ^ 2 + unit32 * (V i j / U i j) ^ 2) :=
        Finset.sum_le_sum fun i _ => Finset.sum_le_sum fun j _ => hpt i j
    _ = _ := by simp only [← Finset.mul_sum, Finset.sum_add_distrib]

/-- **C230.** The converse. -/
theorem C230_lower (V U : Mat m n ℚ) (hV : ∀ i j, Normal32 (V i j)) (hU : ∀ i j, epsilon ℚ ≤ U i j) (W : Mat m k ℚ) (H : Mat k n ℚ) :
    qLoss V U W H ≤ (1 + unit32) * ((1 + unit32) ^ 2 * qLoss (keptV V) (keptU U) W H + unit32 * signal V U) := by
  have hg := unit32_pos
  have hl := unit32_lt
  rw [keptU_eq hU, qLoss_sum, qLoss_sum, signal]
  have hpt : ∀ i j, ((V i j - ∑ a, W i a * H a j) / U i j) ^ 2 ≤
      (1 + unit32) * ((1 + unit32) ^ 2 * ((keptV V i j - ∑ a, W i a * H a j) / float32 (U i j)) ^ 2 + unit32 * (V i j / U i j) ^ 2) := by
    intro i j
    obtain ⟨hu, h1, h2⟩ := unc_error (hU i j)
    have hf : 0 < float32 (U i j) := (mul_pos (by linarith) hu).trans_le h1
    have hs : 1 / U i j ^ 2 ≤ (1 + unit32) ^ 2 * (1 / float32 (U i j) ^ 2) := by
      rw [mul_one_div, div_le_div_iff₀ (by positivity) (by positivity), one_mul, ← mul_pow]
      exact pow_le_pow_left₀ hf.le h2 2
    have h3 := sq_shift (a := keptV V i j) (e := V i j - keptV V i j) (x := V i j) (p := ∑ a, W i a * H a j) hg (by
      rw [abs_sub_comm]; exact normal_error (hV i j))
    rw [add_sub_cancel] at h3
    have h0 : 0 ≤ 1 / U i j ^ 2 := by positivity
    calc ((V i j - ∑ a, W i a * H a j) / U i j) ^ 2 = (V i j - ∑ a, W i a * H a j) ^ 2 * (1 / U i j ^ 2) := by rw [div_pow]; ring
      _ ≤ ((1 + unit32) * ((keptV V i j - ∑ a, W i a * H a j) ^ 2 + unit32 * V i j ^ 2)) * (1 / U i j ^ 2) := mul_le_mul_of_nonneg_right h3 h0
      _ = (1 + unit32) * ((keptV V i j - ∑ a, W i a * H a j) ^ 2 * (1 / U i j ^ 2) + unit32 * (V i j / U i j) ^ 2) := by rw [div_pow]; ring
      _ ≤ (1 + unit32) * ((keptV V i j - ∑ a, W i a * H a j) ^ 2 * ((1 + unit32) ^ 2 * (1 / float32 (U i j) ^ 2)) + unit32 * (V i j / U i j) ^ 2) := by
        have := mul_le_mul_of_nonneg_left hs (sq_nonneg (keptV V i j - ∑ a, W i a * H a j))
        exact mul_le_mul_of_nonneg_left (by linarith) (by linarith)
      _ = _ := by rw [div_pow (keptV V i j - _)]; ring
  calc _ ≤ ∑ i, ∑ j, (1 + unit32) * ((1 + unit32) ^ 2 * ((keptV V i j - ∑ a, W i a * H a j) / float32 (U i j)) ^ 2 + unit32 * (V i j / U i j) ^ 2) :=
        Finset.sum_le_sum fun i _ => Finset.sum_le_sum fun j _ => hpt i j
    _ = _ := by simp only [← Finset.mul_sum, Finset.sum_add_distrib]

/-- **C230.** Factors that are optimal for the converted data, up to a factor `κ`, among factors of any kind and number, are optimal for the data themselves up to `κ`, a factor close to
one and a small multiple of the sum of the squared signal to noise ratios. -/
theorem C230_optimal {k' : ℕ} (V U : Mat m n ℚ) (hV : ∀ i j, Normal32 (V i j)) (hU : ∀ i j, epsilon ℚ ≤ U i j) (W : Mat m k ℚ) (H : Mat k n ℚ)
    (W' : Mat m k' ℚ) (H' : Mat k' n ℚ) {κ : ℚ} (hκ : 0 ≤ κ) (h : qLoss (keptV V) (keptU U) W H ≤ κ * qLoss (keptV V) (keptU U) W' H') :
    qLoss V U W H ≤ ((1 + unit32) ^ 2 / (1 - unit32)) ^ 2 * κ * (qLoss V U W' H' + unit32 * signal V U) + (1 + unit32) * unit32 * signal V U := by
  have hg := unit32_pos
  have hl := unit32_lt
  have h1 := C230_lower V U hV hU W H
  have h2 := mul_le_mul_of_nonneg_left (C230_upper V U hV hU W' H') hκ
  have h3 : (1 + unit32) ^ 3 * qLoss (keptV V) (keptU U) W H ≤ (1 + unit32) ^ 3 * (κ * ((1 + unit32) / (1 - unit32) ^ 2 * (qLoss V U W' H' + unit32 * signal V U))) :=
    mul_le_mul_of_nonneg_left (h.trans h2) (by positivity)
  calc qLoss V U W H ≤ (1 + unit32) ^ 3 * qLoss (keptV V) (keptU U) W H + (1 + unit32) * unit32 * signal V U := by linarith
    _ ≤ (1 + unit32) ^ 3 * (κ * ((1 + unit32) / (1 - unit32) ^ 2 * (qLoss V U W' H' + unit32 * signal V U))) + (1 + unit32) * unit32 * signal V U := by linarith
    _ = _ := by rw [div_pow]; ring

end

/-! ## The hypotheses can be met -/

/-- Data with a zero, a negative entry and entries that single precision cannot represent. -/
example : let V : Mat 2 2 ℚ := ![![1 / 3, 0], ![2, -1 / 7]]
    let U : Mat 2 2 ℚ := ![![1 / 10, 1 / 10 ^ 12], ![1, 3]]
    (∀ i j, Normal32 (V i j)) ∧ (∀ i j, epsilon ℚ ≤ U i j) ∧ keptV V 0 0 ≠ V 0 0 ∧ keptU U 0 0 ≠ U 0 0 := by
  refine ⟨?_, ?_, ?_, ?_⟩
  · unfold Normal32
    decide +kernel
  all_goals decide +kernel

end Esat
