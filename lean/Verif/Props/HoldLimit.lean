import Verif.Props.HoldOptimal
import Mathlib.Topology.Order.Compact
import Mathlib.Topology.MetricSpace.Sequences

/-!
# C260: with fixed profiles the contributions converge

With `hold_h` and no delay, the contributions of ls-nmf tend to best non-negative contributions, also when these are not unique, and the constant of the rate in C238 can be given. Both follow from a distance to a best solution
that no update increases.
-/

namespace Esat
open Filter Topology

section
variable {m n k : ℕ}

/-! ## Specification -/

/-- Contributions with the smallest loss among all that are not negative. -/
structure BestFor (V We : Mat m n ℝ) (H : Mat k n ℝ) (X : Mat m k ℝ) : Prop where
  nonneg : ∀ i a, 0 ≤ X i a
  best : ∀ Y : Mat m k ℝ, (∀ i a, 0 ≤ Y i a) → ∑ i, ∑ j, We i j * (V i j - ∑ a, X i a * H a j) ^ 2 ≤ ∑ i, ∑ j, We i j * (V i j - ∑ a, Y i a * H a j) ^ 2

/-- How far the contributions `W` are from `X`: the difference of the weighted squares of the modelled values, and the logarithms of the ratios weighted with `X` and the weighted data of each factor. -/
noncomputable def solutionGap (V We : Mat m n ℝ) (H : Mat k n ℝ) (X W : Mat m k ℝ) : ℝ :=
  (∑ i, ∑ j, We i j * ((∑ a, W i a * H a j) ^ 2 - (∑ a, X i a * H a j) ^ 2)) - 2 * ∑ i, ∑ a, X i a * (∑ j, We i j * V i j * H a j) * (Real.log (W i a) - Real.log (X i a))

/-! ## Lemmas -/

theorem solutionGap_eq (V We : Mat m n ℝ) (H : Mat k n ℝ) (X W : Mat m k ℝ) : solutionGap V We H X W = fitSq We W H - fitSq We X H - 2 * logGain V We H X X W := by
  unfold solutionGap fitSq logGain
  simp only [← Finset.sum_sub_distrib, mul_sub]

/-- The direction from a best solution to any other admissible one does not point downwards. -/
theorem best_direction {V We : Mat m n ℝ} {H : Mat k n ℝ} {X : Mat m k ℝ} (hb : BestFor V We H X) (Y : Mat m k ℝ) (hY : ∀ i a, 0 ≤ Y i a) :
    0 ≤ ∑ i, ∑ j, We i j * ((∑ a, X i a * H a j) - V i j) * ((∑ a, Y i a * H a j) - ∑ a, X i a * H a j) := by
  set B := ∑ i, ∑ j, We i j * ((∑ a, X i a * H a j) - V i j) * ((∑ a, Y i a * H a j) - ∑ a, X i a * H a j) with hB
  set C := ∑ i, ∑ j, We i j * ((∑ a, Y i a * H a j) - ∑ a, X i a * H a j) ^ 2 with hC
  have key : ∀ e : ℝ, 0 < e → e ≤ 1 → 0 ≤ 2 * B + e * C := by
    intro e he he1
    have h := hb.best (fun i a => X i a + e * (Y i a - X i a)) fun i a => by
      have := hb.nonneg i a
      have := hY i a
      nlinarith
    have e1 : ∑ i, ∑ j, We i j * (V i j - ∑ a, (X i a + e * (Y i a - X i a)) * H a j) ^ 2 = (∑ i, ∑ j, We i j * (V i j - ∑ a, X i a * H a j) ^ 2) + e * (2 * B + e * C) := by
      rw [hB, hC]
      simp only [Finset.mul_sum, ← Finset.sum_add_distrib]
      refine Finset.sum_congr rfl fun i _ => Finset.sum_congr rfl fun j _ => ?_
      have : ∑ a, (X i a + e * (Y i a - X i a)) * H a j = (∑ a, X i a * H a j) + e * ((∑ a, Y i a * H a j) - ∑ a, X i a * H a j) := by
        rw [← Finset.sum_sub_distrib, Finset.mul_sum, ← Finset.sum_add_distrib]
        exact Finset.sum_congr rfl fun a _ => by ring
      rw [this]
      ring
    rw [e1] at h
    have h2 : 0 ≤ e * (2 * B + e * C) := by linarith
    exact nonneg_of_mul_nonneg_right h2 he
  by_contra hn
  push Not at hn
  have hC1 : 0 < |C| + 1 := by positivity
  have := key (min 1 (-B / (|C| + 1))) (lt_min one_pos (div_pos (by linarith) hC1)) (min_le_left _ _)
  have h3 : min 1 (-B / (|C| + 1)) * C ≤ -B := by
    calc min 1 (-B / (|C| + 1)) * C ≤ min 1 (-B / (|C| + 1)) * (|C| + 1) :=
          mul_le_mul_of_nonneg_left ((le_abs_self C).trans (by linarith)) (le_min zero_le_one (div_nonneg (by linarith) hC1.le))
      _ ≤ -B / (|C| + 1) * (|C| + 1) := mul_le_mul_of_nonneg_right (min_le_right _ _) hC1.le
      _ = -B := div_mul_cancel₀ _ hC1.ne'
  linarith

theorem sqrt_dist_le {x y : ℝ} (hx : 0 ≤ x) (hy : 0 < y) : (√y - √x) ^ 2 ≤ y - x - x * (Real.log y - Real.log x) := by
  rcases hx.eq_or_lt with rfl | hx
  · simp [Real.sq_sqrt hy.le]
  · have hr : 0 < √y / √x := div_pos (Real.sqrt_pos.2 hy) (Real.sqrt_pos.2 hx)
    have h := Real.log_le_sub_one_of_pos hr
    rw [Real.log_div (Real.sqrt_pos.2 hy).ne' (Real.sqrt_pos.2 hx).ne', Real.log_sqrt hy.le, Real.log_sqrt hx.le] at h
    have h2 : x * (Real.log y / 2 - Real.log x / 2) ≤ x * (√y / √x - 1) := mul_le_mul_of_nonneg_left h hx.le
    have h3 : x * (√y / √x - 1) = √x * √y - x := by
      have hs := (Real.sqrt_pos.2 hx).ne'
      have : x = √x * √x := (Real.mul_self_sqrt hx.le).symm
      rw [mul_sub, mul_one]
      congr 1
      rw [mul_div_assoc', div_eq_iff hs]
      nth_rw 1 [this]
      ring
    rw [h3] at h2
    have h4 := Real.sq_sqrt hy.le
    have h5 := Real.sq_sqrt hx.le
    nlinarith

/-- The gap bounds the distance of the square roots. -/
theorem gap_lower {V We : Mat m n ℝ} {H : Mat k n ℝ} {X : Mat m k ℝ} (hV : ∀ i j, 0 ≤ V i j) (hWe : ∀ i j, 0 ≤ We i j) (hH : ∀ a j, 0 ≤ H a j) (hb : BestFor V We H X) (Y : Mat m k ℝ) (hY : ∀ i a, 0 < Y i a) :
    2 * ∑ i, ∑ a, (∑ j, We i j * V i j * H a j) * (√(Y i a) - √(X i a)) ^ 2 ≤ solutionGap V We H X Y := by
  have h1 := best_direction hb Y fun i a => (hY i a).le
  have h2 : 2 * ∑ i, ∑ j, We i j * V i j * ((∑ a, Y i a * H a j) - ∑ a, X i a * H a j) ≤ ∑ i, ∑ j, We i j * ((∑ a, Y i a * H a j) ^ 2 - (∑ a, X i a * H a j) ^ 2) := by
    have h3 : 0 ≤ ∑ i, ∑ j, We i j * ((∑ a, Y i a * H a j) - ∑ a, X i a * H a j) ^ 2 := Finset.sum_nonneg fun i _ => Finset.sum_nonneg fun j _ => mul_nonneg (hWe i j) (sq_nonneg _)
    have e : ∑ i, ∑ j, We i j * ((∑ a, Y i a * H a j) ^ 2 - (∑ a, X i a * H a j) ^ 2) =
        2 * (∑ i, ∑ j, We i j * V i j * ((∑ a, Y i a * H a j) - ∑ a, X i a * H a j)) + 2 * (∑ i, ∑ j, We i j * ((∑ a, X i a * H a j) - V i j) * ((∑ a, Y i a * H a j) - ∑ a, X i a * H a j)) +
          ∑ i, ∑ j, We i j * ((∑ a, Y i a * H a j) - ∑ a, X i a * H a j) ^ 2 := by
      simp only [Finset.mul_sum, ← Finset.sum_add_distrib]
      exact Finset.sum_congr rfl fun i _ => Finset.sum_congr rfl fun j _ => by ring
    linarith
  have h4 : ∑ i, ∑ j, We i j * V i j * ((∑ a, Y i a * H a j) - ∑ a, X i a * H a j) = ∑ i, ∑ a, (∑ j, We i j * V i j * H a j) * (Y i a - X i a) := by
    refine Finset.sum_congr rfl fun i _ => ?_
    simp only [← Finset.sum_sub_distrib, Finset.mul_sum, Finset.sum_mul]
    rw [Finset.sum_comm]
    exact Finset.sum_congr rfl fun a _ => Finset.sum_congr rfl fun j _ => by ring
  have h5 : ∑ i, ∑ a, (∑ j, We i j * V i j * H a j) * (√(Y i a) - √(X i a)) ^ 2 ≤
      (∑ i, ∑ a, (∑ j, We i j * V i j * H a j) * (Y i a - X i a)) - ∑ i, ∑ a, X i a * (∑ j, We i j * V i j * H a j) * (Real.log (Y i a) - Real.log (X i a)) := by
    simp only [← Finset.sum_sub_distrib]
    refine Finset.sum_le_sum fun i _ => Finset.sum_le_sum fun a _ => ?_
    have h0 : 0 ≤ ∑ j, We i j * V i j * H a j := Finset.sum_nonneg fun j _ => mul_nonneg (mul_nonneg (hWe i j) (hV i j)) (hH a j)
    have := mul_le_mul_of_nonneg_left (sqrt_dist_le (hb.nonneg i a) (hY i a)) h0
    linarith
  unfold solutionGap
  linarith

/-- One entry of `gap_lower`. -/
theorem gap_entry {V We : Mat m n ℝ} {H : Mat k n ℝ} {X : Mat m k ℝ} (hV : ∀ i j, 0 ≤ V i j) (hWe : ∀ i j, 0 ≤ We i j) (hH : ∀ a j, 0 ≤ H a j) (hb : BestFor V We H X) (Y : Mat m k ℝ) (hY : ∀ i a, 0 < Y i a) (i : Fin m) (a : Fin k) :
    2 * ((∑ j, We i j * V i j * H a j) * (√(Y i a) - √(X i a)) ^ 2) ≤ solutionGap V We H X Y := by
  refine le_trans ?_ (gap_lower hV hWe hH hb Y hY)
  have hnn : ∀ i a, 0 ≤ (∑ j, We i j * V i j * H a j) * (√(Y i a) - √(X i a)) ^ 2 := fun i a =>
    mul_nonneg (Finset.sum_nonneg fun j _ => mul_nonneg (mul_nonneg (hWe i j) (hV i j)) (hH a j)) (sq_nonneg _)
  have h1 := (Finset.single_le_sum (f := fun a => (∑ j, We i j * V i j * H a j) * (√(Y i a) - √(X i a)) ^ 2) (fun a _ => hnn i a) (Finset.mem_univ a)).trans
    (Finset.single_le_sum (f := fun i => ∑ a, (∑ j, We i j * V i j * H a j) * (√(Y i a) - √(X i a)) ^ 2) (fun i _ => Finset.sum_nonneg fun a _ => hnn i a) (Finset.mem_univ i))
  linarith

theorem gap_nonneg {V We : Mat m n ℝ} {H : Mat k n ℝ} {X : Mat m k ℝ} (hV : ∀ i j, 0 ≤ V i j) (hWe : ∀ i j, 0 ≤ We i j) (hH : ∀ a j, 0 ≤ H a j) (hb : BestFor V We H X) (Y : Mat m k ℝ) (hY : ∀ i a, 0 < Y i a) :
    0 ≤ solutionGap V We H X Y :=
  le_trans (mul_nonneg two_pos.le (Finset.sum_nonneg fun i _ => Finset.sum_nonneg fun a _ =>
    mul_nonneg (Finset.sum_nonneg fun j _ => mul_nonneg (mul_nonneg (hWe i j) (hV i j)) (hH a j)) (sq_nonneg _))) (gap_lower hV hWe hH hb Y hY)

/-! ## Theorems -/

/-- **C260, distance.** With fixed profiles, every update brings the contributions closer to every best solution `X` by at least the excess of the loss: the gap falls by it. The gap is not negative, and bounds the distance of each contribution. -/
theorem C260_distance {V We : Mat m n ℝ} {W : ℕ → Mat m k ℝ} {H : ℕ → Mat k n ℝ} (u : Updates V We true W H) (hn : 0 < n) (hrow : ∀ i, ∃ j, 0 < V i j) (hWe : ∀ i j, 0 < We i j)
    (hW : ∀ i a, 0 < W 0 i a) (hH : ∀ a j, 0 < H 0 a j) {X : Mat m k ℝ} (hb : BestFor V We (H 0) X) (t : ℕ) :
    solutionGap V We (H 0) X (W (t + 1)) + ((∑ i, ∑ j, We i j * (V i j - ∑ a, W (t + 1) i a * H 0 a j) ^ 2) - ∑ i, ∑ j, We i j * (V i j - ∑ a, X i a * H 0 a j) ^ 2) ≤ solutionGap V We (H 0) X (W t) ∧
      0 ≤ solutionGap V We (H 0) X (W t) ∧ ∀ i a, 2 * ((∑ j, We i j * V i j * H 0 a j) * (√(W t i a) - √(X i a)) ^ 2) ≤ solutionGap V We (H 0) X (W t) := by
  have hp := fun s => (C238_rate u hn hrow hWe hW hH X hb.nonneg s).2.1
  have hH0 := fun s => (C238_rate u hn hrow hWe hW hH X hb.nonneg s).1
  refine ⟨?_, gap_nonneg u.data (fun i j => (hWe i j).le) (fun a j => (hH a j).le) hb _ (hp t), fun i a => gap_entry u.data (fun i j => (hWe i j).le) (fun a j => (hH a j).le) hb _ (hp t) i a⟩
  have hs := u.step t
  rw [hH0 t] at hs
  have key := C238_step hn u.data hrow hWe (hp t) hH hs X hb.nonneg
  rw [solutionGap_eq, solutionGap_eq]
  have e : logGain V We (H 0) X X (W (t + 1)) = logGain V We (H 0) X X (W t) + logGain V We (H 0) X (W t) (W (t + 1)) := by
    unfold logGain
    simp only [← Finset.sum_add_distrib]
    exact Finset.sum_congr rfl fun i _ => Finset.sum_congr rfl fun a _ => by ring
  rw [e]
  have e1 : WLoss V We (W (t + 1)) (H 0) = ∑ i, ∑ j, We i j * (V i j - ∑ a, W (t + 1) i a * H 0 a j) ^ 2 := rfl
  have e2 : WLoss V We X (H 0) = ∑ i, ∑ j, We i j * (V i j - ∑ a, X i a * H 0 a j) ^ 2 := rfl
  rw [e1, e2] at key
  linarith

/-- **C260, rate.** After `t` iterations the loss exceeds the smallest one by at most the gap of the start divided by `t`. -/
theorem C260_rate {V We : Mat m n ℝ} {W : ℕ → Mat m k ℝ} {H : ℕ → Mat k n ℝ} (u : Updates V We true W H) (hn : 0 < n) (hrow : ∀ i, ∃ j, 0 < V i j) (hWe : ∀ i j, 0 < We i j)
    (hW : ∀ i a, 0 < W 0 i a) (hH : ∀ a j, 0 < H 0 a j) {X : Mat m k ℝ} (hb : BestFor V We (H 0) X) (t : ℕ) (ht : 0 < t) :
    ∑ i, ∑ j, We i j * (V i j - ∑ a, W t i a * H t a j) ^ 2 ≤ (∑ i, ∑ j, We i j * (V i j - ∑ a, X i a * H 0 a j) ^ 2) + solutionGap V We (H 0) X (W 0) / t := by
  obtain ⟨h1, h2, h3⟩ := C238_rate u hn hrow hWe hW hH X hb.nonneg t
  have h4 := gap_nonneg u.data (fun i j => (hWe i j).le) (fun a j => (hH a j).le) hb _ h2
  rw [h1]
  have e1 : WLoss V We (W t) (H 0) = ∑ i, ∑ j, We i j * (V i j - ∑ a, W t i a * H 0 a j) ^ 2 := rfl
  have e2 : WLoss V We X (H 0) = ∑ i, ∑ j, We i j * (V i j - ∑ a, X i a * H 0 a j) ^ 2 := rfl
  have e3 : logGain V We (H 0) X X (W t) = logGain V We (H 0) X X (W 0) + logGain V We (H 0) X (W 0) (W t) := by
    unfold logGain
    simp only [← Finset.sum_add_distrib]
    exact Finset.sum_congr rfl fun i _ => Finset.sum_congr rfl fun a _ => by ring
  rw [solutionGap_eq, e3] at h4
  rw [← e1, ← e2, ← sub_le_iff_le_add', le_div_iff₀ (Nat.cast_pos.2 ht), solutionGap_eq]
  linarith

/-- **C260, limit.** With fixed profiles, from every positive start the contributions converge, and their limit is a best solution. -/
theorem C260_limit {V We : Mat m n ℝ} {W : ℕ → Mat m k ℝ} {H : ℕ → Mat k n ℝ} (u : Updates V We true W H) (hn : 0 < n) (hrow : ∀ i, ∃ j, 0 < V i j) (hWe : ∀ i j, 0 < We i j)
    (hW : ∀ i a, 0 < W 0 i a) (hH : ∀ a j, 0 < H 0 a j) :
    ∃ X, BestFor V We (H 0) X ∧ ∀ i a, Tendsto (fun t => W t i a) atTop (𝓝 (X i a)) := by
  obtain ⟨X0, h01, h02, h03⟩ := C238_limit hn V We (H 0) u.data hrow hWe hH
  have hb0 : BestFor V We (H 0) X0 := ⟨h01, h02⟩
  have hlim := (h03 W H u rfl hW).1
  have hp := fun s => (C238_rate u hn hrow hWe hW hH X0 h01 s).2.1
  have hH0 := fun s => (C238_rate u hn hrow hWe hW hH X0 h01 s).1
  have hbpos : ∀ i a, 0 < ∑ j, We i j * V i j * H 0 a j := fun i a => by
    obtain ⟨j, hj⟩ := hrow i
    exact Finset.sum_pos' (fun j _ => mul_nonneg (mul_nonneg (hWe i j).le (u.data i j)) (hH a j).le) ⟨j, Finset.mem_univ _, mul_pos (mul_pos (hWe i j) hj) (hH a j)⟩
  have hanti : ∀ X, BestFor V We (H 0) X → Antitone fun t => solutionGap V We (H 0) X (W t) := fun X hb => antitone_nat_of_succ_le fun t => by
    have h1 := (C260_distance u hn hrow hWe hW hH hb t).1
    have h2 := hb.best (W (t + 1)) fun i a => (hp (t + 1) i a).le
    linarith
  -- the contributions stay bounded
  have hbd : ∀ t i a, W t i a ≤ 2 * X0 i a + solutionGap V We (H 0) X0 (W 0) / ∑ j, We i j * V i j * H 0 a j := by
    intro t i a
    have h1 := (C260_distance u hn hrow hWe hW hH hb0 t).2.2 i a
    have h2 : solutionGap V We (H 0) X0 (W t) ≤ solutionGap V We (H 0) X0 (W 0) := hanti X0 hb0 (Nat.zero_le t)
    have h3 : 2 * (√(W t i a) - √(X0 i a)) ^ 2 ≤ solutionGap V We (H 0) X0 (W 0) / ∑ j, We i j * V i j * H 0 a j := by
      rw [le_div_iff₀ (hbpos i a)]
      linarith
    have h4 := Real.sq_sqrt (hp t i a).le
    have h5 := Real.sq_sqrt (h01 i a)
    nlinarith [sq_nonneg (√(W t i a) - 2 * √(X0 i a))]
  obtain ⟨X, -, φ, hφ, hX⟩ := (isCompact_Icc (a := (0 : Fin m → Fin k → ℝ)) (b := fun i a => 2 * X0 i a + solutionGap V We (H 0) X0 (W 0) / ∑ j, We i j * V i j * H 0 a j)).tendsto_subseq (x := W)
    fun t => ⟨fun i a => (hp t i a).le, fun i a => hbd t i a⟩
  have hXe : ∀ i a, Tendsto (fun s => W (φ s) i a) atTop (𝓝 (X i a)) := fun i a => (tendsto_pi_nhds.1 ((tendsto_pi_nhds.1 hX) i)) a
  have hXn : ∀ i a, 0 ≤ X i a := fun i a => ge_of_tendsto' (hXe i a) fun s => (hp (φ s) i a).le
  -- the limit point has the smallest loss
  have hloss : Tendsto (fun s => ∑ i, ∑ j, We i j * (V i j - ∑ a, W (φ s) i a * H 0 a j) ^ 2) atTop (𝓝 (∑ i, ∑ j, We i j * (V i j - ∑ a, X i a * H 0 a j) ^ 2)) :=
    tendsto_finsetSum _ fun i _ => tendsto_finsetSum _ fun j _ => (((tendsto_finsetSum _ fun a _ => (hXe i a).mul_const _).const_sub _).pow 2).const_mul _
  have hloss2 : Tendsto (fun s => ∑ i, ∑ j, We i j * (V i j - ∑ a, W (φ s) i a * H 0 a j) ^ 2) atTop (𝓝 (WLoss V We X0 (H 0))) := by
    refine (hlim.comp hφ.tendsto_atTop).congr fun s => ?_
    show WLoss V We (W (φ s)) (H (φ s)) = _
    rw [hH0 (φ s)]
    rfl
  have hXb : BestFor V We (H 0) X := ⟨hXn, fun Y hY => by
    rw [tendsto_nhds_unique hloss hloss2]
    exact h02 Y hY⟩
  refine ⟨X, hXb, fun i a => ?_⟩
  -- the gap to the limit point tends to zero
  have hgap : Tendsto (fun s => solutionGap V We (H 0) X (W (φ s))) atTop (𝓝 0) := by
    have h0 : solutionGap V We (H 0) X X = 0 := by simp [solutionGap]
    rw [← h0]
    unfold solutionGap
    refine Tendsto.sub (tendsto_finsetSum _ fun i _ => tendsto_finsetSum _ fun j _ => (((tendsto_finsetSum _ fun a _ => (hXe i a).mul_const _).pow 2).sub_const _).const_mul _)
      (Tendsto.const_mul _ (tendsto_finsetSum _ fun i _ => tendsto_finsetSum _ fun a _ => ?_))
    rcases (hXn i a).eq_or_lt with h | h
    · rw [← h]
      simp
    · exact (((Real.continuousAt_log h.ne').tendsto.comp (hXe i a)).sub_const _).const_mul _
  have hgap2 : Tendsto (fun t => solutionGap V We (H 0) X (W t)) atTop (𝓝 0) := by
    have h1 := tendsto_atTop_ciInf (hanti X hXb) ⟨0, by rintro _ ⟨t, rfl⟩; exact (C260_distance u hn hrow hWe hW hH hXb t).2.1⟩
    have h2 := h1.comp hφ.tendsto_atTop
    rwa [tendsto_nhds_unique h2 hgap] at h1
  have h1 : Tendsto (fun t => (√(W t i a) - √(X i a)) ^ 2) atTop (𝓝 0) := by
    refine squeeze_zero (fun t => sq_nonneg _) (fun t => ?_) (by simpa using hgap2.div_const (2 * ∑ j, We i j * V i j * H 0 a j))
    rw [le_div_iff₀ (mul_pos two_pos (hbpos i a))]
    have := (C260_distance u hn hrow hWe hW hH hXb t).2.2 i a
    linarith
  have h2 : Tendsto (fun t => √(W t i a) - √(X i a)) atTop (𝓝 0) := by
    rw [tendsto_zero_iff_abs_tendsto_zero]
    have := h1.sqrt
    rw [Real.sqrt_zero] at this
    exact this.congr fun t => Real.sqrt_sq_eq_abs _
  have h3 := ((h2.add_const (√(X i a))).pow 2)
  rw [zero_add, Real.sq_sqrt (hXn i a)] at h3
  exact h3.congr fun t => by rw [sub_add_cancel, Real.sq_sqrt (hp t i a).le]

/-- **C260, training.** For each proper start there are best contributions `X` such that all compiled ls-nmf runs from it with `hold_h` and no delay return the profiles unchanged and contributions that are as close to `X` as wanted if the run has enough
iterations, and a loss above that of `X`, the smallest one, by at most the gap of the start divided by the number of iterations. -/
theorem C260_train {V U : Mat m n ℝ} {W : Mat m k ℝ} {H : Mat k n ℝ} (g : GoodStart V U W H) :
    ∃ X : Mat m k ℝ, (∀ i a, 0 ≤ X i a) ∧ (∀ Y : Mat m k ℝ, (∀ i a, 0 ≤ Y i a) → ∑ i, ∑ j, ((V i j - ∑ a, X i a * H a j) / U i j) ^ 2 ≤ ∑ i, ∑ j, ((V i j - ∑ a, Y i a * H a j) / U i j) ^ 2) ∧
      ∀ ε : ℝ, 0 < ε → ∃ T : ℕ, ∀ (cfg : LoopCfg ℝ) (clock : ℕ → Bool) (rm : Bool) (rn : ℤ), cfg.holdH = true → cfg.delayH ≤ 0 → 0 < cfg.maxIter →
        let r := lsTrain V U cfg clock rm rn W H
        ∃ W' q, r.factors = (some W', some H) ∧ r.q = some q ∧ q ≤ (∑ i, ∑ j, ((V i j - ∑ a, X i a * H a j) / U i j) ^ 2) + solutionGap V (fun i j => 1 / U i j ^ 2) H X W / r.losses.length ∧
          (T ≤ r.losses.length → ∀ i a, |W' i a - X i a| < ε) := by
  obtain ⟨Ws, Hs, u, rfl, rfl, htraj⟩ := hold_updates g
  obtain ⟨X, hb, hX⟩ := C260_limit u g.cols g.row (weights_pos g.unc) g.w g.h
  have hH : ∀ t, Hs t = Hs 0 := fun t => (C238_rate u g.cols g.row (weights_pos g.unc) g.w g.h X hb.nonneg t).1
  have hQ : ∀ Y : Mat m k ℝ, (∑ i, ∑ j, weights U i j * (V i j - ∑ a, Y i a * Hs 0 a j) ^ 2) = ∑ i, ∑ j, ((V i j - ∑ a, Y i a * Hs 0 a j) / U i j) ^ 2 := fun Y =>
    Finset.sum_congr rfl fun i _ => Finset.sum_congr rfl fun j _ => by rw [weights, div_pow, one_div_mul_eq_div]
  refine ⟨X, hb.nonneg, fun Y hY => by rw [← hQ, ← hQ]; exact hb.best Y hY, fun ε hε => ?_⟩
  have hev : ∀ᶠ t in atTop, ∀ i a, |Ws t i a - X i a| < ε := by
    rw [eventually_all]
    intro i
    rw [eventually_all]
    intro a
    exact (Metric.tendsto_nhds.1 (hX i a)) ε hε
  obtain ⟨T, hT⟩ := eventually_atTop.1 hev
  refine ⟨T, fun cfg clock rm rn hh hd hm => ?_⟩
  intro r
  have hf : rustUpdatesH cfg = fun _ => false := by
    funext i
    simp [rustUpdatesH, hh, show ¬ (0 < cfg.delayH) by omega]
  obtain ⟨t, t1, -, t3, t4, t5, -⟩ := rustLoop_spec (lsLoopStep V (weights U)) (lsQ V U) cfg clock (some (Ws 0), some (Hs 0)) hm
  have hlen : r.losses.length = t := by
    rw [show r.losses = _ from t4]; simp
  rw [hf, htraj] at t3
  rw [hf, lossAt, Nat.sub_add_cancel t1, htraj] at t5
  refine ⟨Ws t, _, by rw [show r.factors = _ from t3, hH t], t5, ?_, fun ht => hT t (hlen ▸ ht)⟩
  rw [← hQ, hlen, qLoss_eq_WLoss]
  exact C260_rate u g.cols g.row (weights_pos g.unc) g.w g.h hb t t1

end

/-- **C260, the start matters.** The limit can depend on the start: one sample, one feature, two factors with the same profile. Both of these starts are left as they are by the update, and both fit the data exactly. -/
theorem C260_start :
    let V : Mat 1 1 ℝ := fun _ _ => 2
    let H : Mat 2 1 ℝ := fun _ _ => 1
    let W₁ : Mat 1 2 ℝ := fun _ => ![1 / 2, 3 / 2]
    let W₂ : Mat 1 2 ℝ := fun _ => ![3 / 2, 1 / 2]
    lsUpdate V (fun _ _ => 1) true W₁ H = some (W₁, H) ∧ lsUpdate V (fun _ _ => 1) true W₂ H = some (W₂, H) ∧ BestFor V (fun _ _ => 1) H W₁ ∧ BestFor V (fun _ _ => 1) H W₂ ∧ W₁ ≠ W₂ := by
  intro V H W₁ W₂
  have d1 : ∀ i a, lsWDen (fun _ _ => 1) W₁ H i a = 2 := fun i a => by rw [lsWDen_apply]; simp [W₁, H]; norm_num
  have d2 : ∀ i a, lsWDen (fun _ _ => 1) W₂ H i a = 2 := fun i a => by rw [lsWDen_apply]; simp [W₂, H]; norm_num
  have n1 : ∀ i a, lsWNum V (fun _ _ => 1) H i a = 2 := fun i a => by rw [lsWNum_apply]; simp [V, H]
  refine ⟨lsUpdate_eq_some.2 ⟨.inl ⟨rfl, rfl⟩, lsStepW_eq_some.2 ⟨fun i a => by rw [d1]; norm_num, fun i a => by rw [d1, n1]; norm_num⟩⟩,
    lsUpdate_eq_some.2 ⟨.inl ⟨rfl, rfl⟩, lsStepW_eq_some.2 ⟨fun i a => by rw [d2]; norm_num, fun i a => by rw [d2, n1]; norm_num⟩⟩, ⟨?_, fun Y _ => ?_⟩, ⟨?_, fun Y _ => ?_⟩, fun h => ?_⟩
  · intro i a
    fin_cases a <;> simp [W₁] <;> norm_num
  · refine le_trans (le_of_eq (b := 0) ?_) (Finset.sum_nonneg fun i _ => Finset.sum_nonneg fun j _ => mul_nonneg zero_le_one (sq_nonneg _))
    simp [V, W₁, H]
    norm_num
  · intro i a
    fin_cases a <;> simp [W₂] <;> norm_num
  · refine le_trans (le_of_eq (b := 0) ?_) (Finset.sum_nonneg fun i _ => Finset.sum_nonneg fun j _ => mul_nonneg zero_le_one (sq_nonneg _))
    simp [V, W₂, H]
    norm_num
  · have := congrFun (congrFun h 0) 0
    simp [W₁, W₂] at this
    norm_num at this

/-- Two factors whose profiles differ, and a start that is not the solution. -/
example : ∃ X : Mat 1 2 ℝ, BestFor (![![3, 1]] : Mat 1 2 ℝ) (weights fun _ _ => 1) ![![1, 2], ![2, 1]] X ∧ ∃ (Ws : ℕ → Mat 1 2 ℝ) (Hs : ℕ → Mat 2 2 ℝ), Updates (![![3, 1]] : Mat 1 2 ℝ) (weights fun _ _ => 1) true Ws Hs ∧
    Ws 0 = (fun _ _ => 1) ∧ ∀ i a, Tendsto (fun t => Ws t i a) atTop (𝓝 (X i a)) := by
  obtain ⟨Ws, Hs, u, h1, h2, -⟩ := hold_updates caseHold
  obtain ⟨X, hb, hX⟩ := C260_limit u caseHold.cols caseHold.row (weights_pos caseHold.unc) (by rw [h1]; exact caseHold.w) (by rw [h2]; exact caseHold.h)
  rw [h2] at hb
  exact ⟨X, hb, Ws, Hs, u, h1, hX⟩

example := C260_train caseHold

end Esat
