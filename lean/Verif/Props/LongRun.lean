import Verif.Props.Converged
import Verif.Props.PythonRuns
import Mathlib.Topology.MetricSpace.Sequences
import Mathlib.Topology.MetricSpace.ProperSpace.Real
import Mathlib.Topology.MetricSpace.ProperSpace.Lemmas
import Mathlib.Topology.Order.MonotoneConvergence
import Mathlib.Analysis.SpecialFunctions.Pow.Real

/-!
# C255: ls-nmf in the long run

The amounts `W i a * H a j` which the factors explain do not depend on how a factor is split into contributions and profile. In the long run they satisfy the equations that hold at every best solution.
-/

namespace Esat

open Filter Topology

section generic
variable {K : Type*} [Field K] [LinearOrder K] [IsStrictOrderedRing K] {m n k : ℕ}

/-- Specification: the residuals of a feature weighted with the amounts the factor explains in it, in units of the squared uncertainties. -/
def featureBalance (V U : Mat m n K) (A : Fin m → Fin k → Fin n → K) (a : Fin k) (j : Fin n) : K :=
  ∑ i, A i a j * ((∑ b, A i b j) - V i j) / U i j ^ 2

/-- Specification: the same for a sample. -/
def sampleBalance (V U : Mat m n K) (A : Fin m → Fin k → Fin n → K) (i : Fin m) (a : Fin k) : K :=
  ∑ j, A i a j * ((∑ b, A i b j) - V i j) / U i j ^ 2

/-- Specification: the loss of the amounts. -/
def amountsLoss (V U : Mat m n K) (A : Fin m → Fin k → Fin n → K) : K :=
  ∑ i, ∑ j, ((V i j - ∑ a, A i a j) / U i j) ^ 2

/-- Specification: the amounts of factors. -/
def amounts (W : Mat m k K) (H : Mat k n K) (i : Fin m) (a : Fin k) (j : Fin n) : K := W i a * H a j

omit [LinearOrder K] [IsStrictOrderedRing K] in
theorem qLoss_amounts (V U : Mat m n K) (W : Mat m k K) (H : Mat k n K) : qLoss V U W H = amountsLoss V U (amounts W H) := by
  simp only [qLoss, if_true, ← pow_two]
  rfl

/-- The modelled values are bounded by the data and the loss. -/
theorem model_bound (V U : Mat m n K) (A : Fin m → Fin k → Fin n → K) :
    ∑ i, ∑ j, ((∑ a, A i a j) / U i j) ^ 2 ≤ 2 * (∑ i, ∑ j, (V i j / U i j) ^ 2) + 2 * amountsLoss V U A := by
  unfold amountsLoss
  rw [Finset.mul_sum, Finset.mul_sum, ← Finset.sum_add_distrib]
  refine Finset.sum_le_sum fun i _ => ?_
  rw [Finset.mul_sum, Finset.mul_sum, ← Finset.sum_add_distrib]
  refine Finset.sum_le_sum fun j _ => ?_
  rw [sub_div]
  nlinarith [sq_nonneg (2 * (V i j / U i j) - (∑ a, A i a j) / U i j)]

/-- **C255, one update.** The square of each balance of the profiles before an update without `hold_h`, and of each balance of the contributions against the new profiles, is at most the decrease of Q times twice the sum of Q and of Q of
the empty model. -/
theorem C255_update (V U : Mat m n K) (W W' : Mat m k K) (H H' : Mat k n K) (hV : ∀ i j, 0 ≤ V i j) (hW : ∀ i a, 0 ≤ W i a) (hH : ∀ a j, 0 ≤ H a j)
    (h : lsUpdate V (weights U) false W H = some (W', H')) :
    (∀ a j, featureBalance V U (amounts W H) a j ^ 2 ≤
      2 * ((∑ i, ∑ j, (V i j / U i j) ^ 2) + amountsLoss V U (amounts W H)) * (amountsLoss V U (amounts W H) - amountsLoss V U (amounts W' H'))) ∧
    ∀ i a, sampleBalance V U (amounts W H') i a ^ 2 ≤
      2 * ((∑ i, ∑ j, (V i j / U i j) ^ 2) + amountsLoss V U (amounts W H)) * (amountsLoss V U (amounts W H) - amountsLoss V U (amounts W' H')) := by
  obtain ⟨h1, h2⟩ := lsUpdate_eq_some.1 h
  obtain ⟨hf, -⟩ | ⟨-, h1⟩ := h1
  · cases hf
  have hH' : ∀ a j, 0 ≤ H' a j := (lsUpdate_nonneg hV (weights_nonneg' U) hW hH h).2
  have hpull := C239_pull V U false W W' H H' hV hW hH h
  have hWn : ∀ (H : Mat k n K), (∀ a j, 0 ≤ H a j) → ∀ i j, 0 ≤ ∑ b, W i b * H b j := fun H hH i j => Finset.sum_nonneg fun b _ => mul_nonneg (hW i b) (hH b j)
  have t1 : ∀ a j, 0 ≤ H a j * (∑ i, W i a * ((∑ b, W i b * H b j) - V i j) / U i j ^ 2) ^ 2 / ∑ i, W i a * (∑ b, W i b * H b j) / U i j ^ 2 := fun a j =>
    div_nonneg (mul_nonneg (hH a j) (sq_nonneg _)) (Finset.sum_nonneg fun i _ => div_nonneg (mul_nonneg (hW i a) (hWn H hH i j)) (sq_nonneg _))
  have t2 : ∀ i a, 0 ≤ W i a * (∑ j, H' a j * ((∑ b, W i b * H' b j) - V i j) / U i j ^ 2) ^ 2 / ∑ j, H' a j * (∑ b, W i b * H' b j) / U i j ^ 2 := fun i a =>
    div_nonneg (mul_nonneg (hW i a) (sq_nonneg _)) (Finset.sum_nonneg fun j _ => div_nonneg (mul_nonneg (hH' a j) (hWn H' hH' i j)) (sq_nonneg _))
  have p1 : 0 ≤ profilePull V U W H := Finset.sum_nonneg fun a _ => Finset.sum_nonneg fun j _ => t1 a j
  have p2 : 0 ≤ contributionPull V U W H' := Finset.sum_nonneg fun i _ => Finset.sum_nonneg fun a _ => t2 i a
  simp only [Bool.false_eq_true, if_false, qLoss_amounts] at hpull
  have hmid : amountsLoss V U (amounts W H') ≤ amountsLoss V U (amounts W H) := by
    have hnn : 0 ≤ ∑ j, ∑ a, H a j * (lsHDen (weights U) W H a j - lsHNum V (weights U) W a j) ^ 2 / lsHDen (weights U) W H a j := by
      simp only [hslope_U]
      simp only [hden_U]
      exact Finset.sum_nonneg fun j _ => Finset.sum_nonneg fun a _ => t1 a j
    have := stepH_drop (weights_nonneg' U) hW hH h1
    rw [← qLoss_amounts, ← qLoss_amounts, qLoss_eq_wl, qLoss_eq_wl]
    linarith
  -- the scaled denominators
  have cell : ∀ (X : Fin m → Fin k → Fin n → K), (∀ i a j, 0 ≤ X i a j) → ∀ i a j, X i a j * (∑ b, X i b j) / U i j ^ 2 ≤ ((∑ b, X i b j) / U i j) ^ 2 := by
    intro X hX i a j
    rw [div_pow, sq (∑ b, X i b j)]
    refine div_le_div_of_nonneg_right (mul_le_mul_of_nonneg_right ?_ (Finset.sum_nonneg fun b _ => hX i b j)) (sq_nonneg _)
    exact Finset.single_le_sum (f := fun b => X i b j) (fun b _ => hX i b j) (Finset.mem_univ a)
  have hA : ∀ i a j, 0 ≤ amounts W H i a j := fun i a j => mul_nonneg (hW i a) (hH a j)
  have hA' : ∀ i a j, 0 ≤ amounts W H' i a j := fun i a j => mul_nonneg (hW i a) (hH' a j)
  constructor
  · intro a j
    have hden := (lsStepH_eq_some.1 h1).1 a j
    rw [hden_U] at hden
    have e : featureBalance V U (amounts W H) a j = H a j * ∑ i, W i a * ((∑ b, W i b * H b j) - V i j) / U i j ^ 2 := by
      unfold featureBalance amounts
      rw [Finset.mul_sum]
      exact Finset.sum_congr rfl fun i _ => by ring
    have e2 : H a j * (∑ i, W i a * (∑ b, W i b * H b j) / U i j ^ 2) = ∑ i, amounts W H i a j * (∑ b, amounts W H i b j) / U i j ^ 2 := by
      unfold amounts
      rw [Finset.mul_sum]
      exact Finset.sum_congr rfl fun i _ => by ring
    have b1 : H a j * (∑ i, W i a * (∑ b, W i b * H b j) / U i j ^ 2) ≤ 2 * ((∑ i, ∑ j, (V i j / U i j) ^ 2) + amountsLoss V U (amounts W H)) := by
      rw [e2, mul_add]
      refine le_trans (Finset.sum_le_sum fun i _ => cell _ hA i a j) (le_trans (Finset.sum_le_sum fun i _ => ?_) (model_bound V U (amounts W H)))
      exact Finset.single_le_sum (f := fun j => ((∑ b, amounts W H i b j) / U i j) ^ 2) (fun j _ => sq_nonneg _) (Finset.mem_univ j)
    have b2 : H a j * (∑ i, W i a * ((∑ b, W i b * H b j) - V i j) / U i j ^ 2) ^ 2 / (∑ i, W i a * (∑ b, W i b * H b j) / U i j ^ 2) ≤
        amountsLoss V U (amounts W H) - amountsLoss V U (amounts W' H') := by
      have : H a j * (∑ i, W i a * ((∑ b, W i b * H b j) - V i j) / U i j ^ 2) ^ 2 / (∑ i, W i a * (∑ b, W i b * H b j) / U i j ^ 2) ≤ profilePull V U W H := by
        unfold profilePull
        refine le_trans ?_ (Finset.single_le_sum (f := fun a => ∑ j, H a j * (∑ i, W i a * ((∑ b, W i b * H b j) - V i j) / U i j ^ 2) ^ 2 / ∑ i, W i a * (∑ b, W i b * H b j) / U i j ^ 2)
          (fun a _ => Finset.sum_nonneg fun j _ => t1 a j) (Finset.mem_univ a))
        exact Finset.single_le_sum (f := fun j => H a j * (∑ i, W i a * ((∑ b, W i b * H b j) - V i j) / U i j ^ 2) ^ 2 / ∑ i, W i a * (∑ b, W i b * H b j) / U i j ^ 2)
          (fun j _ => t1 a j) (Finset.mem_univ j)
      linarith
    refine le_trans (le_of_eq ?_) (mul_le_mul b1 b2 (t1 a j) (le_trans (mul_nonneg (hH a j) (Finset.sum_nonneg fun i _ => div_nonneg (mul_nonneg (hW i a) (hWn H hH i j)) (sq_nonneg _))) b1))
    rw [e]
    generalize (∑ i, W i a * ((∑ b, W i b * H b j) - V i j) / U i j ^ 2) = s
    generalize (∑ i, W i a * (∑ b, W i b * H b j) / U i j ^ 2) = d at hden
    field_simp
  · intro i a
    have hden := (lsStepW_eq_some.1 h2).1 i a
    rw [wden_U] at hden
    have e : sampleBalance V U (amounts W H') i a = W i a * ∑ j, H' a j * ((∑ b, W i b * H' b j) - V i j) / U i j ^ 2 := by
      unfold sampleBalance amounts
      rw [Finset.mul_sum]
      exact Finset.sum_congr rfl fun j _ => by ring
    have e2 : W i a * (∑ j, H' a j * (∑ b, W i b * H' b j) / U i j ^ 2) = ∑ j, amounts W H' i a j * (∑ b, amounts W H' i b j) / U i j ^ 2 := by
      unfold amounts
      rw [Finset.mul_sum]
      exact Finset.sum_congr rfl fun j _ => by ring
    have b1 : W i a * (∑ j, H' a j * (∑ b, W i b * H' b j) / U i j ^ 2) ≤ 2 * ((∑ i, ∑ j, (V i j / U i j) ^ 2) + amountsLoss V U (amounts W H)) := by
      rw [e2]
      refine le_trans (Finset.sum_le_sum fun j _ => cell _ hA' i a j) (le_trans ?_ (le_trans (model_bound V U (amounts W H')) (by linarith)))
      exact Finset.single_le_sum (f := fun i => ∑ j, ((∑ b, amounts W H' i b j) / U i j) ^ 2) (fun i _ => Finset.sum_nonneg fun j _ => sq_nonneg _) (Finset.mem_univ i)
    have b2 : W i a * (∑ j, H' a j * ((∑ b, W i b * H' b j) - V i j) / U i j ^ 2) ^ 2 / (∑ j, H' a j * (∑ b, W i b * H' b j) / U i j ^ 2) ≤
        amountsLoss V U (amounts W H) - amountsLoss V U (amounts W' H') := by
      have : W i a * (∑ j, H' a j * ((∑ b, W i b * H' b j) - V i j) / U i j ^ 2) ^ 2 / (∑ j, H' a j * (∑ b, W i b * H' b j) / U i j ^ 2) ≤ contributionPull V U W H' := by
        unfold contributionPull
        refine le_trans ?_ (Finset.single_le_sum (f := fun i => ∑ a, W i a * (∑ j, H' a j * ((∑ b, W i b * H' b j) - V i j) / U i j ^ 2) ^ 2 / ∑ j, H' a j * (∑ b, W i b * H' b j) / U i j ^ 2)
          (fun i _ => Finset.sum_nonneg fun a _ => t2 i a) (Finset.mem_univ i))
        exact Finset.single_le_sum (f := fun a => W i a * (∑ j, H' a j * ((∑ b, W i b * H' b j) - V i j) / U i j ^ 2) ^ 2 / ∑ j, H' a j * (∑ b, W i b * H' b j) / U i j ^ 2)
          (fun a _ => t2 i a) (Finset.mem_univ a)
      linarith
    refine le_trans (le_of_eq ?_) (mul_le_mul b1 b2 (t2 i a) (le_trans (mul_nonneg (hW i a) (Finset.sum_nonneg fun j _ => div_nonneg (mul_nonneg (hH' a j) (hWn H' hH' i j)) (sq_nonneg _))) b1))
    rw [e]
    generalize (∑ j, H' a j * ((∑ b, W i b * H' b j) - V i j) / U i j ^ 2) = s
    generalize (∑ j, H' a j * (∑ b, W i b * H' b j) / U i j ^ 2) = d at hden
    field_simp

end generic

section real
variable {m n k : ℕ}

theorem continuous_featureBalance (V U : Mat m n ℝ) (a : Fin k) (j : Fin n) : Continuous fun A => featureBalance V U A a j := by
  unfold featureBalance
  fun_prop

theorem continuous_sampleBalance (V U : Mat m n ℝ) (i : Fin m) (a : Fin k) : Continuous fun A => sampleBalance V U A i a := by
  unfold sampleBalance
  fun_prop

theorem continuous_amountsLoss (V U : Mat m n ℝ) : Continuous fun A : Fin m → Fin k → Fin n → ℝ => amountsLoss V U A := by
  unfold amountsLoss
  fun_prop

/-- A sequence whose squares are below a null sequence. -/
theorem tendsto_of_sq_le {x d : ℕ → ℝ} (h : ∀ t, x t ^ 2 ≤ d t) (hd : Tendsto d atTop (𝓝 0)) : Tendsto x atTop (𝓝 0) := by
  refine squeeze_zero_norm (a := fun t => √(d t)) (fun t => Real.abs_le_sqrt (h t)) ?_
  have := (Real.continuous_sqrt.tendsto 0).comp hd
  rw [Real.sqrt_zero] at this
  exact this

/-- **C255, limit.** However long ls-nmf without `hold_h` runs from a proper start: every balance of the profiles and of the contributions tends to zero, the amounts stay bounded and change less and less, and the loss tends to a limit. The amounts have
limit points; at each of them all balances vanish and the loss is the limit. -/
theorem C255_limit {V U : Mat m n ℝ} {W : Mat m k ℝ} {H : Mat k n ℝ} (g : GoodStart V U W H) (Ws : ℕ → Mat m k ℝ) (Hs : ℕ → Mat k n ℝ) (h0 : Ws 0 = W) (h1 : Hs 0 = H)
    (hu : ∀ t, lsUpdate V (weights U) false (Ws t) (Hs t) = some (Ws (t + 1), Hs (t + 1))) :
    (∀ a j, Tendsto (fun t => featureBalance V U (amounts (Ws t) (Hs t)) a j) atTop (𝓝 0)) ∧
    (∀ i a, Tendsto (fun t => sampleBalance V U (amounts (Ws t) (Hs t)) i a) atTop (𝓝 0)) ∧
    (∀ i a j, Tendsto (fun t => Ws (t + 1) i a * Hs (t + 1) a j - Ws t i a * Hs t a j) atTop (𝓝 0)) ∧
    ∃ q, Tendsto (fun t => qLoss V U (Ws t) (Hs t)) atTop (𝓝 q) ∧
      (∃ X, ∃ φ : ℕ → ℕ, StrictMono φ ∧ Tendsto (fun s => amounts (Ws (φ s)) (Hs (φ s))) atTop (𝓝 X)) ∧
      ∀ X, ∀ φ : ℕ → ℕ, StrictMono φ → Tendsto (fun s => amounts (Ws (φ s)) (Hs (φ s))) atTop (𝓝 X) →
        (∀ i a j, 0 ≤ X i a j) ∧ (∀ a j, featureBalance V U X a j = 0) ∧ (∀ i a, sampleBalance V U X i a = 0) ∧ amountsLoss V U X = q := by
  have hpos : ∀ t, (∀ i a, 0 ≤ Ws t i a) ∧ ∀ a j, 0 ≤ Hs t a j := by
    intro t
    induction t with
    | zero => rw [h0, h1]; exact ⟨fun i a => (g.w i a).le, fun a j => (g.h a j).le⟩
    | succ t ih => exact lsUpdate_nonneg g.data (weights_nonneg' U) ih.1 ih.2 (hu t)
  have hA0 : ∀ t i a j, 0 ≤ amounts (Ws t) (Hs t) i a j := fun t i a j => mul_nonneg ((hpos t).1 i a) ((hpos t).2 a j)
  set A : ℕ → Fin m → Fin k → Fin n → ℝ := fun t => amounts (Ws t) (Hs t) with hA
  set q : ℕ → ℝ := fun t => amountsLoss V U (A t) with hq
  have hmoved : ∀ t, q (t + 1) + amountMoved U (Ws t) (Ws (t + 1)) (Hs t) (Hs (t + 1)) ≤ q t := fun t => by
    have := C239_moved V U false _ _ _ _ g.data (hpos t).1 (hpos t).2 (hu t)
    rwa [qLoss_amounts, qLoss_amounts] at this
  have hmnn : ∀ t i j, 0 ≤ ∑ a, (((Ws t i a * Hs (t + 1) a j - Ws t i a * Hs t a j) / U i j) ^ 2 + ((Ws (t + 1) i a * Hs (t + 1) a j - Ws t i a * Hs (t + 1) a j) / U i j) ^ 2) := fun t i j =>
    Finset.sum_nonneg fun a _ => add_nonneg (sq_nonneg _) (sq_nonneg _)
  have hanti : Antitone q := antitone_nat_of_succ_le fun t => by
    have := hmoved t
    have : 0 ≤ amountMoved U (Ws t) (Ws (t + 1)) (Hs t) (Hs (t + 1)) := Finset.sum_nonneg fun i _ => Finset.sum_nonneg fun j _ => hmnn t i j
    linarith
  have hqnn : ∀ t, 0 ≤ q t := fun t => Finset.sum_nonneg fun i _ => Finset.sum_nonneg fun j _ => sq_nonneg _
  have hlim : Tendsto q atTop (𝓝 (⨅ t, q t)) := tendsto_atTop_ciInf hanti ⟨0, by rintro _ ⟨t, rfl⟩; exact hqnn t⟩
  have hd : Tendsto (fun t => q t - q (t + 1)) atTop (𝓝 0) := by
    have := hlim.sub (hlim.comp (tendsto_add_atTop_nat 1))
    simpa using this
  -- the amounts are bounded
  set S : ℝ := ∑ i, ∑ j, (V i j / U i j) ^ 2 with hS
  have hsum : ∀ t i j, ∑ a, A t i a j ≤ |U i j| * √(2 * S + 2 * q 0) := by
    intro t i j
    have e1 : ((∑ a, A t i a j) / U i j) ^ 2 ≤ 2 * S + 2 * q 0 := by
      refine le_trans ?_ (le_trans (model_bound V U (A t)) (by have : q t ≤ q 0 := hanti (Nat.zero_le t); simp only [hq] at this ⊢; linarith))
      refine le_trans ?_ (Finset.single_le_sum (f := fun i => ∑ j, ((∑ a, A t i a j) / U i j) ^ 2) (fun i _ => Finset.sum_nonneg fun j _ => sq_nonneg _) (Finset.mem_univ i))
      exact Finset.single_le_sum (f := fun j => ((∑ a, A t i a j) / U i j) ^ 2) (fun j _ => sq_nonneg _) (Finset.mem_univ j)
    have e2 := Real.abs_le_sqrt e1
    rw [abs_div, div_le_iff₀ (abs_pos.2 (g.unc i j)), mul_comm] at e2
    exact (le_abs_self _).trans e2
  have hle : ∀ t i a j, A t i a j ≤ |U i j| * √(2 * S + 2 * q 0) := fun t i a j =>
    (Finset.single_le_sum (f := fun a => A t i a j) (fun a _ => hA0 t i a j) (Finset.mem_univ a)).trans (hsum t i j)
  -- the two half steps move less and less
  have hterm : ∀ t i a j, ((Ws t i a * Hs (t + 1) a j - Ws t i a * Hs t a j) / U i j) ^ 2 + ((Ws (t + 1) i a * Hs (t + 1) a j - Ws t i a * Hs (t + 1) a j) / U i j) ^ 2 ≤ q t - q (t + 1) := by
    intro t i a j
    have e1 : amountMoved U (Ws t) (Ws (t + 1)) (Hs t) (Hs (t + 1)) ≤ q t - q (t + 1) := by linarith [hmoved t]
    refine le_trans ?_ e1
    unfold amountMoved
    refine le_trans ?_ (Finset.single_le_sum (f := fun i => ∑ j, ∑ a, (((Ws t i a * Hs (t + 1) a j - Ws t i a * Hs t a j) / U i j) ^ 2 + ((Ws (t + 1) i a * Hs (t + 1) a j - Ws t i a * Hs (t + 1) a j) / U i j) ^ 2))
      (fun i _ => Finset.sum_nonneg fun j _ => hmnn t i j) (Finset.mem_univ i))
    refine le_trans ?_ (Finset.single_le_sum (f := fun j => ∑ a, (((Ws t i a * Hs (t + 1) a j - Ws t i a * Hs t a j) / U i j) ^ 2 + ((Ws (t + 1) i a * Hs (t + 1) a j - Ws t i a * Hs (t + 1) a j) / U i j) ^ 2))
      (fun j _ => hmnn t i j) (Finset.mem_univ j))
    exact Finset.single_le_sum (f := fun a => (((Ws t i a * Hs (t + 1) a j - Ws t i a * Hs t a j) / U i j) ^ 2 + ((Ws (t + 1) i a * Hs (t + 1) a j - Ws t i a * Hs (t + 1) a j) / U i j) ^ 2))
      (fun a _ => add_nonneg (sq_nonneg _) (sq_nonneg _)) (Finset.mem_univ a)
  have hscale : ∀ (x : ℕ → ℝ) i j, (∀ t, (x t / U i j) ^ 2 ≤ q t - q (t + 1)) → Tendsto x atTop (𝓝 0) := by
    intro x i j hx
    have := (tendsto_of_sq_le hx hd).mul_const (U i j)
    simpa [div_mul_cancel₀ _ (g.unc i j)] using this
  have hE : ∀ i a j, Tendsto (fun t => Ws t i a * Hs (t + 1) a j - Ws t i a * Hs t a j) atTop (𝓝 0) := fun i a j =>
    hscale _ i j fun t => (le_add_of_nonneg_right (sq_nonneg _)).trans (hterm t i a j)
  have hF : ∀ i a j, Tendsto (fun t => Ws (t + 1) i a * Hs (t + 1) a j - Ws t i a * Hs (t + 1) a j) atTop (𝓝 0) := fun i a j =>
    hscale _ i j fun t => (le_add_of_nonneg_left (sq_nonneg _)).trans (hterm t i a j)
  have hC : Tendsto (fun t => 2 * (S + q 0) * (q t - q (t + 1))) atTop (𝓝 0) := by simpa using hd.const_mul (2 * (S + q 0))
  have hdn : ∀ t, 0 ≤ q t - q (t + 1) := fun t => sub_nonneg.2 (hanti (Nat.le_succ t))
  have hCle : ∀ t, 2 * (S + q t) * (q t - q (t + 1)) ≤ 2 * (S + q 0) * (q t - q (t + 1)) := fun t =>
    mul_le_mul_of_nonneg_right (by linarith [hanti (Nat.zero_le t)]) (hdn t)
  have f1 : ∀ a j, Tendsto (fun t => featureBalance V U (A t) a j) atTop (𝓝 0) := fun a j =>
    tendsto_of_sq_le (fun t => ((C255_update V U _ _ _ _ g.data (hpos t).1 (hpos t).2 (hu t)).1 a j).trans (hCle t)) hC
  have f2' : ∀ i a, Tendsto (fun t => sampleBalance V U (amounts (Ws t) (Hs (t + 1))) i a) atTop (𝓝 0) := fun i a =>
    tendsto_of_sq_le (fun t => ((C255_update V U _ _ _ _ g.data (hpos t).1 (hpos t).2 (hu t)).2 i a).trans (hCle t)) hC
  have hbA : ∀ i a j, IsBoundedUnder (· ≤ ·) atTop ((‖·‖) ∘ fun t => A t i a j) := fun i a j =>
    isBoundedUnder_of ⟨_, fun t => by
      show |A t i a j| ≤ _
      rw [abs_of_nonneg (hA0 t i a j)]
      exact hle t i a j⟩
  have hbR : ∀ i j, IsBoundedUnder (· ≤ ·) atTop ((‖·‖) ∘ fun t => (∑ b, A t i b j) - V i j) := fun i j =>
    isBoundedUnder_of ⟨|U i j| * √(2 * S + 2 * q 0) + |V i j|, fun t => by
      show |(∑ b, A t i b j) - V i j| ≤ _
      refine (abs_sub _ _).trans (add_le_add_left ?_ _)
      rw [abs_of_nonneg (Finset.sum_nonneg fun b _ => hA0 t i b j)]
      exact hsum t i j⟩
  have f2 : ∀ i a, Tendsto (fun t => sampleBalance V U (A t) i a) atTop (𝓝 0) := by
    intro i a
    have e : ∀ t, sampleBalance V U (A t) i a = sampleBalance V U (amounts (Ws t) (Hs (t + 1))) i a - ∑ j, ((Ws t i a * Hs (t + 1) a j - Ws t i a * Hs t a j) * ((∑ b, A t i b j) - V i j) +
        A t i a j * (∑ b, (Ws t i b * Hs (t + 1) b j - Ws t i b * Hs t b j)) + (Ws t i a * Hs (t + 1) a j - Ws t i a * Hs t a j) * ∑ b, (Ws t i b * Hs (t + 1) b j - Ws t i b * Hs t b j)) / U i j ^ 2 := by
      intro t
      unfold sampleBalance
      rw [← Finset.sum_sub_distrib]
      refine Finset.sum_congr rfl fun j _ => ?_
      simp only [hA, amounts, Finset.sum_sub_distrib]
      ring
    simp only [e]
    have hsE : ∀ j, Tendsto (fun t => ∑ b, (Ws t i b * Hs (t + 1) b j - Ws t i b * Hs t b j)) atTop (𝓝 0) := fun j => by
      simpa using tendsto_finset_sum (Finset.univ : Finset (Fin k)) fun b _ => hE i b j
    have hz : Tendsto (fun t => ∑ j, ((Ws t i a * Hs (t + 1) a j - Ws t i a * Hs t a j) * ((∑ b, A t i b j) - V i j) +
        A t i a j * (∑ b, (Ws t i b * Hs (t + 1) b j - Ws t i b * Hs t b j)) + (Ws t i a * Hs (t + 1) a j - Ws t i a * Hs t a j) * ∑ b, (Ws t i b * Hs (t + 1) b j - Ws t i b * Hs t b j)) / U i j ^ 2)
        atTop (𝓝 (∑ j : Fin n, (0 + 0 + 0 * 0) / U i j ^ 2)) := by
      refine tendsto_finset_sum _ fun j _ => Tendsto.div_const (Tendsto.add (Tendsto.add ?_ ?_) ((hE i a j).mul (hsE j))) _
      · exact (hE i a j).zero_mul_isBoundedUnder_le (hbR i j)
      · have := (hsE j).zero_mul_isBoundedUnder_le (hbA i a j)
        exact this.congr fun t => mul_comm _ _
    have := (f2' i a).sub hz
    simpa using this
  refine ⟨f1, f2, fun i a j => ?_, ⨅ t, q t, ?_, ?_, ?_⟩
  · have := (hE i a j).add (hF i a j)
    simp only [add_zero] at this
    refine this.congr fun t => ?_
    ring
  · exact hlim.congr fun t => (qLoss_amounts V U _ _).symm
  · obtain ⟨X, -, φ, h2, h3⟩ := (isCompact_Icc (a := (0 : Fin m → Fin k → Fin n → ℝ)) (b := fun i _ j => |U i j| * √(2 * S + 2 * q 0))).tendsto_subseq
      (x := A) (fun t => ⟨fun i a j => hA0 t i a j, fun i a j => hle t i a j⟩)
    exact ⟨X, φ, h2, h3⟩
  · intro X φ hφ hX
    have hφt := hφ.tendsto_atTop
    refine ⟨fun i a j => ?_, fun a j => ?_, fun i a => ?_, ?_⟩
    · refine ge_of_tendsto' (x := atTop) (f := fun s => amounts (Ws (φ s)) (Hs (φ s)) i a j) ?_ fun s => ?_
      · exact tendsto_pi_nhds.1 (tendsto_pi_nhds.1 (tendsto_pi_nhds.1 hX i) a) j
      exact hA0 (φ s) i a j
    · exact tendsto_nhds_unique (((continuous_featureBalance V U a j).tendsto X).comp hX) ((f1 a j).comp hφt)
    · exact tendsto_nhds_unique (((continuous_sampleBalance V U i a).tendsto X).comp hX) ((f2 i a).comp hφt)
    · exact tendsto_nhds_unique (((continuous_amountsLoss V U).tendsto X).comp hX) (hlim.comp hφt)

/-- If from some point on the profiles are updated, the balances become and stay small. -/
theorem balanced_from {V U : Mat m n ℝ} {W : Mat m k ℝ} {H : Mat k n ℝ} (g : GoodStart V U W H) (flags : ℕ → Bool) (s0 : ℕ) (hf : ∀ s, s0 ≤ s → flags s = true) (ε : ℝ) (hε : 0 < ε) :
    ∃ T : ℕ, ∀ t, T ≤ t → ∃ W' H', traj (lsLoopStep V (weights U)) flags (some W, some H) t = (some W', some H') ∧
      (∀ a j, |featureBalance V U (amounts W' H') a j| < ε) ∧ ∀ i a, |sampleBalance V U (amounts W' H') i a| < ε := by
  obtain ⟨Ws, Hs, -, -, ht, hp, hu⟩ := traj_updates g flags
  obtain ⟨f1, f2, -⟩ := C255_limit (W := Ws s0) (H := Hs s0) ⟨g.rows, g.cols, g.data, g.row, g.col, g.unc, (hp s0).1, (hp s0).2⟩ (fun t => Ws (s0 + t)) (fun t => Hs (s0 + t)) rfl rfl
    (fun t => by have := hu (s0 + t); rwa [hf _ (Nat.le_add_right _ _)] at this)
  have e1 : ∀ᶠ t in atTop, ∀ a j, |featureBalance V U (amounts (Ws (s0 + t)) (Hs (s0 + t))) a j| < ε := by
    rw [eventually_all]
    intro a
    rw [eventually_all]
    intro j
    have := (f1 a j).eventually (Metric.ball_mem_nhds 0 hε)
    simpa [Real.dist_eq] using this
  have e2 : ∀ᶠ t in atTop, ∀ i a, |sampleBalance V U (amounts (Ws (s0 + t)) (Hs (s0 + t))) i a| < ε := by
    rw [eventually_all]
    intro i
    rw [eventually_all]
    intro a
    have := (f2 i a).eventually (Metric.ball_mem_nhds 0 hε)
    simpa [Real.dist_eq] using this
  obtain ⟨T, hT⟩ := eventually_atTop.1 (e1.and e2)
  refine ⟨s0 + T, fun t hle => ⟨_, _, ht t, ?_⟩⟩
  obtain ⟨t', rfl⟩ : ∃ t', t = s0 + t' := ⟨t - s0, by omega⟩
  exact hT t' (by omega)

/-- **C255, runs.** For every proper start and every accuracy there is a number of iterations from which on the result of every run without `hold_h`, compiled or in Python, has all balances below it, whatever the other settings of the loop. -/
theorem C255_run {V U : Mat m n ℝ} {W : Mat m k ℝ} {H : Mat k n ℝ} (g : GoodStart V U W H) (ε : ℝ) (hε : 0 < ε) :
    ∃ T : ℕ,
      (∀ (cfg : LoopCfg ℝ) (clock : ℕ → Bool) (rm : Bool) (rn : ℤ), cfg.holdH = false → T ≤ (lsTrain V U cfg clock rm rn W H).losses.length →
        ∃ W' H', (lsTrain V U cfg clock rm rn W H).factors = (some W', some H') ∧
          (∀ a j, |∑ i, W' i a * H' a j * ((∑ b, W' i b * H' b j) - V i j) / U i j ^ 2| < ε) ∧ ∀ i a, |∑ j, W' i a * H' a j * ((∑ b, W' i b * H' b j) - V i j) / U i j ^ 2| < ε) ∧
      ∀ (alpha : ℝ) (cfg : LoopCfg ℝ), 1 ≤ cfg.convergeN → cfg.holdH = false → ∃ r, lsTrainPy V U alpha cfg W H = .ok r ∧ (T ≤ r.losses.length →
        ∃ W' H', r.factors = (some W', some H') ∧
          (∀ a j, |∑ i, W' i a * H' a j * ((∑ b, W' i b * H' b j) - V i j) / U i j ^ 2| < ε) ∧ ∀ i a, |∑ j, W' i a * H' a j * ((∑ b, W' i b * H' b j) - V i j) / U i j ^ 2| < ε) := by
  obtain ⟨T, hT⟩ := balanced_from g (fun _ => true) 0 (fun _ _ => rfl) ε hε
  have hfl : ∀ cfg : LoopCfg ℝ, cfg.holdH = false → rustUpdatesH cfg = fun _ => true := by
    intro cfg hh
    funext i
    simp [rustUpdatesH, hh]
  refine ⟨T, fun cfg clock rm rn hh hlen => ?_, fun alpha cfg hn hh => ?_⟩
  · obtain ⟨hf, -⟩ := rustLoop_factors (lsLoopStep V (weights U)) (lsQ V U) cfg clock (some W, some H)
    rw [hfl cfg hh] at hf
    obtain ⟨W', H', e, h⟩ := hT _ hlen
    exact ⟨W', H', hf.trans e, h⟩
  · obtain ⟨Ws', Hs', t, r, e, -, -, -, -, ht', hl, -, hf, -⟩ := lsTrainPy_course g alpha cfg hn
    refine ⟨r, e, fun hlen => ?_⟩
    rw [← ht' t, hfl cfg hh] at hf
    rw [hl] at hlen
    obtain ⟨W', H', e', h⟩ := hT _ hlen
    exact ⟨W', H', hf.trans e', h⟩

/-- **C255, delayed profiles.** The same with `hold_h` and a positive `delay_h`; the number of iterations then depends on the delay. -/
theorem C255_delayed {V U : Mat m n ℝ} {W : Mat m k ℝ} {H : Mat k n ℝ} (g : GoodStart V U W H) (delay : ℤ) (hd : 0 < delay) (ε : ℝ) (hε : 0 < ε) :
    ∃ T : ℕ,
      (∀ (cfg : LoopCfg ℝ) (clock : ℕ → Bool) (rm : Bool) (rn : ℤ), cfg.delayH = delay → T ≤ (lsTrain V U cfg clock rm rn W H).losses.length →
        ∃ W' H', (lsTrain V U cfg clock rm rn W H).factors = (some W', some H') ∧
          (∀ a j, |∑ i, W' i a * H' a j * ((∑ b, W' i b * H' b j) - V i j) / U i j ^ 2| < ε) ∧ ∀ i a, |∑ j, W' i a * H' a j * ((∑ b, W' i b * H' b j) - V i j) / U i j ^ 2| < ε) ∧
      ∀ (alpha : ℝ) (cfg : LoopCfg ℝ), 1 ≤ cfg.convergeN → cfg.delayH = delay → ∃ r, lsTrainPy V U alpha cfg W H = .ok r ∧ (T ≤ r.losses.length →
        ∃ W' H', r.factors = (some W', some H') ∧
          (∀ a j, |∑ i, W' i a * H' a j * ((∑ b, W' i b * H' b j) - V i j) / U i j ^ 2| < ε) ∧ ∀ i a, |∑ j, W' i a * H' a j * ((∑ b, W' i b * H' b j) - V i j) / U i j ^ 2| < ε) := by
  -- the flags with `hold_h` and those without
  obtain ⟨T, hT⟩ := balanced_from g (fun i => decide (delay < i)) (delay.toNat + 1) (fun s hs => by simp only [decide_eq_true_eq]; omega) ε hε
  obtain ⟨T', hT'⟩ := balanced_from g (fun _ => true) 0 (fun _ _ => rfl) ε hε
  have key : ∀ cfg : LoopCfg ℝ, cfg.delayH = delay → ∀ t, max T T' ≤ t → ∃ W' H', traj (lsLoopStep V (weights U)) (rustUpdatesH cfg) (some W, some H) t = (some W', some H') ∧
      (∀ a j, |featureBalance V U (amounts W' H') a j| < ε) ∧ ∀ i a, |sampleBalance V U (amounts W' H') i a| < ε := by
    intro cfg hc t hle
    cases hh : cfg.holdH
    · have : rustUpdatesH cfg = fun _ => true := by
        funext i
        simp [rustUpdatesH, hh]
      rw [this]
      exact hT' t ((le_max_right _ _).trans hle)
    · have : rustUpdatesH cfg = fun i : ℕ => decide (delay < i) := by
        funext i
        simp [rustUpdatesH, hh, hc, hd]
      rw [this]
      exact hT t ((le_max_left _ _).trans hle)
  refine ⟨max T T', fun cfg clock rm rn hh hlen => ?_, fun alpha cfg hn hh => ?_⟩
  · obtain ⟨hf, -⟩ := rustLoop_factors (lsLoopStep V (weights U)) (lsQ V U) cfg clock (some W, some H)
    obtain ⟨W', H', e, h⟩ := key cfg hh _ hlen
    exact ⟨W', H', hf.trans e, h⟩
  · obtain ⟨Ws', Hs', t, r, e, -, -, -, -, ht', hl, -, hf, -⟩ := lsTrainPy_course g alpha cfg hn
    refine ⟨r, e, fun hlen => ?_⟩
    rw [← ht' t] at hf
    rw [hl] at hlen
    obtain ⟨W', H', e', h⟩ := key cfg hh _ hlen
    exact ⟨W', H', hf.trans e', h⟩

/-- **C255, what it does not say.** Vanishing balances do not make a best solution: there are data and a positive start which every compiled run, of any length and with any settings, returns unchanged, with all balances zero and a loss of 1,
although the data are the product of other non-negative factors of the same size, so that the least loss is 0. -/
theorem C255_not_best : ∃ (V U : Mat 2 2 ℝ) (W : Mat 2 2 ℝ) (H : Mat 2 2 ℝ), GoodStart V U W H ∧
    (∀ (cfg : LoopCfg ℝ) (clock : ℕ → Bool) (rm : Bool) (rn : ℤ), (lsTrain V U cfg clock rm rn W H).factors = (some W, some H)) ∧
    (∀ a j, ∑ i, W i a * H a j * ((∑ b, W i b * H b j) - V i j) / U i j ^ 2 = 0) ∧ (∀ i a, ∑ j, W i a * H a j * ((∑ b, W i b * H b j) - V i j) / U i j ^ 2 = 0) ∧
    (∑ i, ∑ j, ((V i j - ∑ a, W i a * H a j) / U i j) ^ 2) = 1 ∧
    ∃ (W' H' : Mat 2 2 ℝ), (∀ i a, 0 ≤ W' i a) ∧ (∀ a j, 0 ≤ H' a j) ∧ (∑ i, ∑ j, ((V i j - ∑ a, W' i a * H' a j) / U i j) ^ 2) = 0 := by
  set V : Mat 2 2 ℝ := fun i j => if i = j then 1 else 0 with hV
  have hu : ∀ hold, lsUpdate V (weights fun _ _ => 1) hold (fun _ _ => 1 / 2 : Mat 2 2 ℝ) (fun _ _ => 1 / 2 : Mat 2 2 ℝ) = some (fun _ _ => 1 / 2, fun _ _ => 1 / 2) := by
    have hn : ∀ a j, lsHNum V (weights fun _ _ => 1) (fun _ _ => 1 / 2 : Mat 2 2 ℝ) a j = 1 / 2 := by
      intro a j
      fin_cases j <;> simp [lsHNum, mmul, tr, emul, weights, hV, Fin.sum_univ_two]
    have hd : ∀ a j, lsHDen (weights fun _ _ => 1 : Mat 2 2 ℝ) (fun _ _ => 1 / 2 : Mat 2 2 ℝ) (fun _ _ => 1 / 2 : Mat 2 2 ℝ) a j = 1 / 2 := by
      intro a j
      simp [lsHDen, mmul, tr, emul, weights, Fin.sum_univ_two]
    have wn : ∀ i a, lsWNum V (weights fun _ _ => 1) (fun _ _ => 1 / 2 : Mat 2 2 ℝ) i a = 1 / 2 := by
      intro i a
      fin_cases i <;> simp [lsWNum, mmul, tr, emul, weights, hV, Fin.sum_univ_two]
    have wd : ∀ i a, lsWDen (weights fun _ _ => 1 : Mat 2 2 ℝ) (fun _ _ => 1 / 2 : Mat 2 2 ℝ) (fun _ _ => 1 / 2 : Mat 2 2 ℝ) i a = 1 / 2 := by
      intro i a
      simp [lsWDen, mmul, tr, emul, weights, Fin.sum_univ_two]
    have h1 : lsStepH V (weights fun _ _ => 1) (fun _ _ => 1 / 2 : Mat 2 2 ℝ) (fun _ _ => 1 / 2 : Mat 2 2 ℝ) = some fun _ _ => 1 / 2 := by
      refine lsStepH_eq_some.2 ⟨fun a j => ?_, fun a j => ?_⟩
      · rw [hd]; norm_num
      · rw [hn, hd]; norm_num
    have h2 : lsStepW V (weights fun _ _ => 1) (fun _ _ => 1 / 2 : Mat 2 2 ℝ) (fun _ _ => 1 / 2 : Mat 2 2 ℝ) = some fun _ _ => 1 / 2 := by
      refine lsStepW_eq_some.2 ⟨fun a j => ?_, fun a j => ?_⟩
      · rw [wd]; norm_num
      · rw [wn, wd]; norm_num
    intro hold
    cases hold
    · exact lsUpdate_eq_some.2 ⟨.inr ⟨rfl, h1⟩, h2⟩
    · exact lsUpdate_eq_some.2 ⟨.inl ⟨rfl, rfl⟩, h2⟩
  have hg : GoodStart V (fun _ _ => 1) (fun _ _ => 1 / 2 : Mat 2 2 ℝ) (fun _ _ => 1 / 2) :=
    ⟨by norm_num, by norm_num, fun i j => by simp only [hV]; split <;> norm_num, fun i => ⟨i, by simp [hV]⟩, fun j => ⟨j, by simp [hV]⟩, fun _ _ => one_ne_zero, fun _ _ => by norm_num, fun _ _ => by norm_num⟩
  refine ⟨V, fun _ _ => 1, fun _ _ => 1 / 2, fun _ _ => 1 / 2, hg, fun cfg clock rm rn => ?_, fun a j => ?_, fun i a => ?_, ?_, V, V, ?_, ?_, ?_⟩
  · obtain ⟨hf, -⟩ := rustLoop_factors (lsLoopStep V (weights fun _ _ => 1)) (lsQ V fun _ _ => 1) cfg clock (some fun _ _ => 1 / 2, some fun _ _ => 1 / 2)
    obtain ⟨Ws, Hs, h0, h1, ht, -, hs⟩ := traj_updates hg (rustUpdatesH cfg)
    have hall : ∀ t, Ws t = (fun _ _ => 1 / 2) ∧ Hs t = fun _ _ => 1 / 2 := by
      intro t
      induction t with
      | zero => exact ⟨h0, h1⟩
      | succ t ih =>
        have := hs t
        rw [ih.1, ih.2, hu] at this
        have := Option.some.inj this
        exact ⟨(congrArg Prod.fst this).symm, (congrArg Prod.snd this).symm⟩
    rw [ht, (hall _).1, (hall _).2] at hf
    exact hf
  · fin_cases j <;> simp [hV, Fin.sum_univ_two] <;> norm_num
  · fin_cases i <;> simp [hV, Fin.sum_univ_two] <;> norm_num
  · simp [hV, Fin.sum_univ_two]
    norm_num
  · intro i a; simp only [hV]; split <;> norm_num
  · intro i a; simp only [hV]; split <;> norm_num
  · simp [hV, Fin.sum_univ_two]

/-- The example of C238 as a start. With `converge_delta = 0` the run makes all its iterations, so there is a `max_iter` with which all balances are below one in a million. -/
example : ∃ N : ℤ, 0 < N ∧ ∃ W' H', (lsTrain (![![3, 1]] : Mat 1 2 ℝ) (fun _ _ => 1) ⟨N, 0, 2, false, -1⟩ (fun _ => false) false 0 (fun _ _ => 1 : Mat 1 2 ℝ) ![![1, 2], ![2, 1]]).factors = (some W', some H') ∧
    ∀ a j, |∑ i, W' i a * H' a j * ((∑ b, W' i b * H' b j) - (![![3, 1]] : Mat 1 2 ℝ) i j) / 1 ^ 2| < 1 / 1000000 := by
  obtain ⟨T, h, -⟩ := C255_run caseHold (1 / 1000000) (by norm_num)
  have hl := (C152_never caseHold ⟨(T : ℤ) + 1, 0, 2, false, -1⟩ (fun _ => false) false 0 (by norm_num) (show (0 : ℤ) < (T : ℤ) + 1 by omega)).2
  dsimp only at hl
  obtain ⟨W', H', h1, h2, -⟩ := h ⟨(T : ℤ) + 1, 0, 2, false, -1⟩ (fun _ => false) false 0 rfl (by omega)
  exact ⟨_, by omega, W', H', h1, h2⟩

end real

/-- At the start of the rational example the balances are not zero. -/
example : 1 < featureBalance exV exU (amounts exW exH) 0 0 := by decide +kernel

end Esat
