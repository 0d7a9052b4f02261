import Verif.Props.Training

/-!
# C239: what convergence of an ls-nmf run guarantees

The stopping criterion only looks at recorded losses. For ls-nmf it nevertheless bounds how far the factors still moved and how far they are from satisfying the optimality conditions: both are summed up by the decrease of
the loss.
-/

namespace Esat

section generic
variable {K : Type*} [Field K] [LinearOrder K] [IsStrictOrderedRing K] {m n k : ℕ}

/-! ## Specification -/

/-- How far one iteration moved the factors from `(W, H)` to `(W', H')`: the changes of the amounts every factor explains in every cell, in units of the uncertainties, squared and summed, first for the new profiles, then for
the new contributions. -/
def amountMoved (U : Mat m n K) (W W' : Mat m k K) (H H' : Mat k n K) : K :=
  ∑ i, ∑ j, ∑ a, (((W i a * H' a j - W i a * H a j) / U i j) ^ 2 + ((W' i a * H' a j - W i a * H' a j) / U i j) ^ 2)

/-- How strongly the profiles violate the optimality conditions: half the derivative of the loss in every entry, squared and scaled. -/
def profilePull (V U : Mat m n K) (W : Mat m k K) (H : Mat k n K) : K :=
  ∑ a, ∑ j, H a j * (∑ i, W i a * ((∑ b, W i b * H b j) - V i j) / U i j ^ 2) ^ 2 / ∑ i, W i a * (∑ b, W i b * H b j) / U i j ^ 2

/-- The same for the contributions. -/
def contributionPull (V U : Mat m n K) (W : Mat m k K) (H : Mat k n K) : K :=
  ∑ i, ∑ a, W i a * (∑ j, H a j * ((∑ b, W i b * H b j) - V i j) / U i j ^ 2) ^ 2 / ∑ j, H a j * (∑ b, W i b * H b j) / U i j ^ 2

/-! ## One update -/

theorem stepH_drop {V We : Mat m n K} {W : Mat m k K} {H H' : Mat k n K} (he : ∀ i j, 0 ≤ We i j) (hW : ∀ i a, 0 ≤ W i a) (hH : ∀ a j, 0 ≤ H a j) (h : lsStepH V We W H = some H') :
    wl V We W H' + ∑ j, ∑ a, H a j * (lsHDen We W H a j - lsHNum V We W a j) ^ 2 / lsHDen We W H a j ≤ wl V We W H := by
  refine le_trans (le_of_eq ?_) (lsStepH_descent he hW hH h)
  congr 1
  refine Finset.sum_congr rfl fun j _ => Finset.sum_congr rfl fun a _ => ?_
  have := (lsStepH_eq_some.1 h).1 a j
  field_simp
  ring

theorem stepH_moved {V We : Mat m n K} {W : Mat m k K} {H H' : Mat k n K} (he : ∀ i j, 0 ≤ We i j) (hW : ∀ i a, 0 ≤ W i a) (hH : ∀ a j, 0 ≤ H a j) (h : lsStepH V We W H = some H') :
    wl V We W H' + ∑ j, ∑ a, ∑ i, We i j * (W i a * H' a j - W i a * H a j) ^ 2 ≤ wl V We W H := by
  refine le_trans (add_le_add_right ?_ _) (lsStepH_descent he hW hH h)
  refine Finset.sum_le_sum fun j _ => Finset.sum_le_sum fun a _ => ?_
  rw [(lsStepH_eq_some.1 h).2 a j]
  generalize lsHNum V We W a j / lsHDen We W H a j = r
  rw [lsHDen_apply, Finset.mul_sum, Finset.sum_mul]
  refine Finset.sum_le_sum fun i _ => ?_
  have h1 : W i a * H a j ≤ ∑ b, W i b * H b j :=
    Finset.single_le_sum (f := fun b => W i b * H b j) (fun b _ => mul_nonneg (hW i b) (hH b j)) (Finset.mem_univ a)
  have h2 : 0 ≤ We i j * (W i a * H a j) * (r - 1) ^ 2 := mul_nonneg (mul_nonneg (he i j) (mul_nonneg (hW i a) (hH a j))) (sq_nonneg _)
  calc We i j * (W i a * (H a j * r) - W i a * H a j) ^ 2 = (We i j * (W i a * H a j) * (r - 1) ^ 2) * (W i a * H a j) := by ring
    _ ≤ (We i j * (W i a * H a j) * (r - 1) ^ 2) * ∑ b, W i b * H b j := mul_le_mul_of_nonneg_left h1 h2
    _ = H a j * (W i a * (We i j * ∑ b, W i b * H b j)) * (r - 1) ^ 2 := by ring

theorem stepW_drop {V We : Mat m n K} {W W' : Mat m k K} {H : Mat k n K} (he : ∀ i j, 0 ≤ We i j) (hW : ∀ i a, 0 ≤ W i a) (hH : ∀ a j, 0 ≤ H a j) (h : lsStepW V We W H = some W') :
    wl V We W' H + ∑ i, ∑ a, W i a * (lsWDen We W H i a - lsWNum V We H i a) ^ 2 / lsWDen We W H i a ≤ wl V We W H := by
  rw [← wl_transpose V We W' H, ← wl_transpose V We W H]
  refine le_trans (le_of_eq ?_) (stepH_drop (fun i j => he j i) (fun i j => hH j i) (fun i j => hW j i) (lsStepW_iff_transpose.1 h))
  congr 1
  refine Finset.sum_congr rfl fun i _ => Finset.sum_congr rfl fun a _ => ?_
  rw [lsWDen_eq_transpose, lsWNum_eq_transpose]
  rfl

theorem stepW_moved {V We : Mat m n K} {W W' : Mat m k K} {H : Mat k n K} (he : ∀ i j, 0 ≤ We i j) (hW : ∀ i a, 0 ≤ W i a) (hH : ∀ a j, 0 ≤ H a j) (h : lsStepW V We W H = some W') :
    wl V We W' H + ∑ i, ∑ a, ∑ j, We i j * (W' i a * H a j - W i a * H a j) ^ 2 ≤ wl V We W H := by
  rw [← wl_transpose V We W' H, ← wl_transpose V We W H]
  refine le_trans (le_of_eq ?_) (stepH_moved (fun i j => he j i) (fun i j => hH j i) (fun i j => hW j i) (lsStepW_iff_transpose.1 h))
  congr 1
  refine Finset.sum_congr rfl fun i _ => Finset.sum_congr rfl fun a _ => Finset.sum_congr rfl fun j _ => ?_
  simp only [tr]
  ring

theorem qLoss_eq_wl (V U : Mat m n K) (W : Mat m k K) (H : Mat k n K) : qLoss V U W H = wl V (weights U) W H := qLoss_eq_WLoss V U W H

theorem hden_U (U : Mat m n K) (W : Mat m k K) (H : Mat k n K) (a j) :
    lsHDen (weights U) W H a j = ∑ i, W i a * (∑ b, W i b * H b j) / U i j ^ 2 := by
  rw [lsHDen_apply]
  refine Finset.sum_congr rfl fun i _ => ?_
  simp only [weights]
  ring

theorem hslope_U (V U : Mat m n K) (W : Mat m k K) (H : Mat k n K) (a j) :
    lsHDen (weights U) W H a j - lsHNum V (weights U) W a j = ∑ i, W i a * ((∑ b, W i b * H b j) - V i j) / U i j ^ 2 := by
  rw [lsHDen_apply, lsHNum_apply, ← Finset.sum_sub_distrib]
  refine Finset.sum_congr rfl fun i _ => ?_
  simp only [weights]
  ring

theorem wden_U (U : Mat m n K) (W : Mat m k K) (H : Mat k n K) (i a) :
    lsWDen (weights U) W H i a = ∑ j, H a j * (∑ b, W i b * H b j) / U i j ^ 2 := by
  rw [lsWDen_apply]
  refine Finset.sum_congr rfl fun j _ => ?_
  simp only [weights]
  ring

theorem wslope_U (V U : Mat m n K) (W : Mat m k K) (H : Mat k n K) (i a) :
    lsWDen (weights U) W H i a - lsWNum V (weights U) H i a = ∑ j, H a j * ((∑ b, W i b * H b j) - V i j) / U i j ^ 2 := by
  rw [lsWDen_apply, lsWNum_apply, ← Finset.sum_sub_distrib]
  refine Finset.sum_congr rfl fun j _ => ?_
  simp only [weights]
  ring

theorem weights_nonneg' (U : Mat m n K) (i j) : 0 ≤ weights U i j := by
  unfold weights
  positivity

/-- **C239 (one update).** An ls-nmf update lowers the loss by at least the amount it moved the factors. -/
theorem C239_moved (V U : Mat m n K) (hold : Bool) (W W' : Mat m k K) (H H' : Mat k n K) (hV : ∀ i j, 0 ≤ V i j) (hW : ∀ i a, 0 ≤ W i a) (hH : ∀ a j, 0 ≤ H a j)
    (h : lsUpdate V (weights U) hold W H = some (W', H')) : qLoss V U W' H' + amountMoved U W W' H H' ≤ qLoss V U W H := by
  obtain ⟨h1, h2⟩ := lsUpdate_eq_some.1 h
  have hH' : ∀ a j, 0 ≤ H' a j := (lsUpdate_nonneg hV (weights_nonneg' U) hW hH h).2
  have e : amountMoved U W W' H H' = (∑ j, ∑ a, ∑ i, weights U i j * (W i a * H' a j - W i a * H a j) ^ 2)
      + ∑ i, ∑ a, ∑ j, weights U i j * (W' i a * H' a j - W i a * H' a j) ^ 2 := by
    have e1 : (∑ j, ∑ a, ∑ i, weights U i j * (W i a * H' a j - W i a * H a j) ^ 2) = ∑ i, ∑ j, ∑ a, weights U i j * (W i a * H' a j - W i a * H a j) ^ 2 := by
      rw [Finset.sum_comm (s := (Finset.univ : Finset (Fin m)))]
      exact Finset.sum_congr rfl fun j _ => Finset.sum_comm
    have e2 : (∑ i, ∑ a, ∑ j, weights U i j * (W' i a * H' a j - W i a * H' a j) ^ 2) = ∑ i, ∑ j, ∑ a, weights U i j * (W' i a * H' a j - W i a * H' a j) ^ 2 :=
      Finset.sum_congr rfl fun i _ => Finset.sum_comm
    rw [e1, e2, amountMoved]
    simp only [← Finset.sum_add_distrib]
    refine Finset.sum_congr rfl fun i _ => Finset.sum_congr rfl fun j _ => Finset.sum_congr rfl fun a _ => ?_
    simp only [weights]
    ring
  have w := stepW_moved (weights_nonneg' U) hW hH' h2
  rw [e, qLoss_eq_wl, qLoss_eq_wl]
  rcases h1 with ⟨-, rfl⟩ | ⟨-, h1⟩
  · simp only [sub_self, ne_eq, OfNat.ofNat_ne_zero, not_false_eq_true, zero_pow, mul_zero, Finset.sum_const_zero, zero_add]
    exact w
  · have := stepH_moved (weights_nonneg' U) hW hH h1
    linarith

/-- **C239 (one update).** An ls-nmf update lowers the loss by at least the violation of the optimality conditions: that of the profiles before the update (unless they are held) plus that of the contributions against the new
profiles. -/
theorem C239_pull (V U : Mat m n K) (hold : Bool) (W W' : Mat m k K) (H H' : Mat k n K) (hV : ∀ i j, 0 ≤ V i j) (hW : ∀ i a, 0 ≤ W i a) (hH : ∀ a j, 0 ≤ H a j)
    (h : lsUpdate V (weights U) hold W H = some (W', H')) :
    qLoss V U W' H' + ((if hold then 0 else profilePull V U W H) + contributionPull V U W H') ≤ qLoss V U W H := by
  obtain ⟨h1, h2⟩ := lsUpdate_eq_some.1 h
  have hH' : ∀ a j, 0 ≤ H' a j := (lsUpdate_nonneg hV (weights_nonneg' U) hW hH h).2
  have w := stepW_drop (weights_nonneg' U) hW hH' h2
  simp only [wslope_U] at w
  simp only [wden_U] at w
  rw [qLoss_eq_wl, qLoss_eq_wl]
  rcases h1 with ⟨rfl, rfl⟩ | ⟨rfl, h1⟩
  · rw [if_pos rfl, zero_add]
    exact w
  · have := stepH_drop (weights_nonneg' U) hW hH h1
    simp only [hslope_U] at this
    simp only [hden_U] at this
    rw [Finset.sum_comm] at this
    rw [if_neg (by simp)]
    unfold profilePull contributionPull
    linarith

/-! ## A whole run -/

/-- From a good start the run is a sequence of positive factors connected by updates. -/
theorem traj_updates {V U : Mat m n K} {W : Mat m k K} {H : Mat k n K} (g : GoodStart V U W H) (flags : ℕ → Bool) :
    ∃ (Ws : ℕ → Mat m k K) (Hs : ℕ → Mat k n K), Ws 0 = W ∧ Hs 0 = H ∧ (∀ s, traj (lsLoopStep V (weights U)) flags (some W, some H) s = (some (Ws s), some (Hs s))) ∧
      (∀ s, (∀ i a, 0 < Ws s i a) ∧ ∀ a j, 0 < Hs s a j) ∧ ∀ s, lsUpdate V (weights U) (!flags s) (Ws s) (Hs s) = some (Ws (s + 1), Hs (s + 1)) := by
  have ex : ∀ t, ∃ W' H', traj (lsLoopStep V (weights U)) flags (some W, some H) t = (some W', some H') ∧ (∀ i a, 0 < W' i a) ∧ ∀ a j, 0 < H' a j := fun t => by
    obtain ⟨W', H', h, h1, h2, -⟩ := traj_good g flags t
    exact ⟨W', H', h, h1, h2⟩
  choose Ws Hs hs hp using ex
  have h0 : (some W, some H) = (some (Ws 0), some (Hs 0)) := (hs 0)
  simp only [Prod.mk.injEq, Option.some.injEq] at h0
  refine ⟨Ws, Hs, h0.1.symm, h0.2.symm, hs, hp, fun s => (C04_lsnmf_loop_is_update V (weights U) (flags s) _ _ _ _).2 ?_⟩
  rw [← hs, ← hs]
  rfl

theorem sum_drops (q d : ℕ → K) (h : ∀ s, q (s + 1) + d s ≤ q s) (lo c : ℕ) : q (lo + c) + ∑ s ∈ Finset.range c, d (lo + s) ≤ q lo := by
  induction c with
  | zero => simp
  | succ c ih =>
    rw [Finset.sum_range_succ]
    have := h (lo + c)
    rw [← add_assoc lo c 1]
    linarith

/-- **C239 (whole run).** Over any number of iterations the movements, and the violations of the optimality conditions, add up to no more than the loss of the start: a run of `T` iterations contains one whose movement
is at most the starting loss divided by `T`. -/
theorem C239_total {V U : Mat m n K} {W : Mat m k K} {H : Mat k n K} (g : GoodStart V U W H) (flags : ℕ → Bool) (T : ℕ) :
    ∃ (Ws : ℕ → Mat m k K) (Hs : ℕ → Mat k n K), Ws 0 = W ∧ Hs 0 = H ∧ (∀ s, traj (lsLoopStep V (weights U)) flags (some W, some H) s = (some (Ws s), some (Hs s))) ∧
      (∑ s ∈ Finset.range T, amountMoved U (Ws s) (Ws (s + 1)) (Hs s) (Hs (s + 1))) ≤ ∑ i, ∑ j, ((V i j - ∑ a, W i a * H a j) / U i j) ^ 2 ∧
      (∑ s ∈ Finset.range T, ((if flags s then profilePull V U (Ws s) (Hs s) else 0) + contributionPull V U (Ws s) (Hs (s + 1)))) ≤ ∑ i, ∑ j, ((V i j - ∑ a, W i a * H a j) / U i j) ^ 2 := by
  obtain ⟨Ws, Hs, h0, h1, ht, hp, hu⟩ := traj_updates g flags
  have hQ : qLoss V U W H = ∑ i, ∑ j, ((V i j - ∑ a, W i a * H a j) / U i j) ^ 2 := by
    simp only [qLoss, if_true, ← pow_two]; rfl
  have hnn : 0 ≤ qLoss V U (Ws T) (Hs T) := by
    rw [qLoss_eq_WLoss]
    exact Finset.sum_nonneg fun i _ => Finset.sum_nonneg fun j _ => mul_nonneg (weights_nonneg' U i j) (sq_nonneg _)
  refine ⟨Ws, Hs, h0, h1, ht, ?_, ?_⟩
  · have := sum_drops (fun s => qLoss V U (Ws s) (Hs s)) (fun s => amountMoved U (Ws s) (Ws (s + 1)) (Hs s) (Hs (s + 1)))
      (fun s => C239_moved V U _ _ _ _ _ g.data (fun i a => ((hp s).1 i a).le) (fun a j => ((hp s).2 a j).le) (hu s)) 0 T
    simp only [Nat.zero_add, h0, h1, hQ] at this
    linarith
  · have := sum_drops (fun s => qLoss V U (Ws s) (Hs s)) (fun s => (if !flags s then 0 else profilePull V U (Ws s) (Hs s)) + contributionPull V U (Ws s) (Hs (s + 1)))
      (fun s => C239_pull V U _ _ _ _ _ g.data (fun i a => ((hp s).1 i a).le) (fun a j => ((hp s).2 a j).le) (hu s)) 0 T
    simp only [Nat.zero_add, h0, h1, hQ, Bool.not_eq_true', ← Bool.not_eq_true, ite_not] at this
    linarith

/-- **C239 (converged run).** A run reported as converged moved the factors by less than `converge_delta` in its last `converge_n - 1` iterations together, and the violations of the optimality conditions at those iterations add up
to less than `converge_delta`. -/
theorem C239_converged {V U : Mat m n K} {W : Mat m k K} {H : Mat k n K} (g : GoodStart V U W H) (cfg : LoopCfg K) (clock : ℕ → Bool) (rm : Bool) (rn : ℤ)
    (hc : (lsTrain V U cfg clock rm rn W H).converged = true) :
    ∃ (Ws : ℕ → Mat m k K) (Hs : ℕ → Mat k n K) (t : ℕ), (lsTrain V U cfg clock rm rn W H).losses.length = t ∧ (max cfg.convergeN 1).toNat ≤ t ∧ (lsTrain V U cfg clock rm rn W H).factors = (some (Ws t), some (Hs t)) ∧
      (∀ s, traj (lsLoopStep V (weights U)) (rustUpdatesH cfg) (some W, some H) s = (some (Ws s), some (Hs s))) ∧
      (∑ s ∈ Finset.Ico (t + 1 - (max cfg.convergeN 1).toNat) t, amountMoved U (Ws s) (Ws (s + 1)) (Hs s) (Hs (s + 1))) < cfg.delta ∧
      (∑ s ∈ Finset.Ico (t + 1 - (max cfg.convergeN 1).toNat) t, ((if rustUpdatesH cfg s then profilePull V U (Ws s) (Hs s) else 0) + contributionPull V U (Ws s) (Hs (s + 1)))) < cfg.delta := by
  have hmax : 0 < cfg.maxIter := by
    by_contra h
    rw [lsTrain, rustLoop_zero _ _ _ _ _ (by omega)] at hc
    exact absurd hc (by simp [rustInit])
  obtain ⟨t, t1, t2, t3, t4, t5, t6, t7, t8, t9, -⟩ := rustLoop_spec (lsLoopStep V (weights U)) (lsQ V U) cfg clock (some W, some H) hmax
  obtain ⟨Ws, Hs, h0, h1, ht, hp, hu⟩ := traj_updates g (rustUpdatesH cfg)
  obtain ⟨c1, a, b, c2, c3, c4⟩ := t7.1 hc
  have hN : effN cfg.convergeN = (max cfg.convergeN 1).toNat := rfl
  have hN1 := effN_pos cfg.convergeN
  rw [hN] at c1 c2 hN1
  generalize (max cfg.convergeN 1).toNat = N at *
  simp only [lossAt, ht, lsQ, Option.some.injEq] at c2 c3
  rw [show t - 1 + 1 - N + 1 = t + 1 - N by omega] at c2
  rw [show t - 1 + 1 = t by omega] at c3
  refine ⟨Ws, Hs, t, ?_, by omega, ?_, ht, ?_, ?_⟩
  · rw [lsTrain, t4]; simp
  · rw [lsTrain, t3, ht]
  · have := sum_drops (fun s => qLoss V U (Ws s) (Hs s)) (fun s => amountMoved U (Ws s) (Ws (s + 1)) (Hs s) (Hs (s + 1)))
      (fun s => C239_moved V U _ _ _ _ _ g.data (fun i a => ((hp s).1 i a).le) (fun a j => ((hp s).2 a j).le) (hu s)) (t + 1 - N) (N - 1)
    rw [Finset.sum_Ico_eq_sum_range, show t - (t + 1 - N) = N - 1 by omega]
    rw [show t + 1 - N + (N - 1) = t by omega, c2, c3] at this
    linarith
  · have := sum_drops (fun s => qLoss V U (Ws s) (Hs s)) (fun s => (if !rustUpdatesH cfg s then 0 else profilePull V U (Ws s) (Hs s)) + contributionPull V U (Ws s) (Hs (s + 1)))
      (fun s => C239_pull V U _ _ _ _ _ g.data (fun i a => ((hp s).1 i a).le) (fun a j => ((hp s).2 a j).le) (hu s)) (t + 1 - N) (N - 1)
    rw [Finset.sum_Ico_eq_sum_range, show t - (t + 1 - N) = N - 1 by omega]
    rw [show t + 1 - N + (N - 1) = t by omega, c2, c3] at this
    simp only [Bool.not_eq_true', ← Bool.not_eq_true, ite_not] at this
    linarith

/-- A converged run: with `converge_delta = 20` and `converge_n = 2` the last update of the example moved the amounts by less than 20 squared uncertainties. -/
example : ∃ (Ws : ℕ → Mat 3 2 ℚ) (Hs : ℕ → Mat 2 2 ℚ) (t : ℕ), 2 ≤ t ∧ (∀ s, traj (lsLoopStep exV (weights exU)) (rustUpdatesH ⟨7, 20, 2, false, -1⟩) (some exW, some exH) s = (some (Ws s), some (Hs s))) ∧
      amountMoved exU (Ws (t - 1)) (Ws t) (Hs (t - 1)) (Hs t) < 20 := by
  have hc := (C151_converges exGood ⟨7, 20, 2, false, -1⟩ (fun _ => false) false 0 (by norm_num) (by norm_num) 5 (by decide +kernel) (by norm_num)).1
  obtain ⟨Ws, Hs, t, -, h2, -, h4, h5, -⟩ := C239_converged exGood ⟨7, 20, 2, false, -1⟩ (fun _ => false) false 0 hc
  have e : ((max (2 : ℤ) 1).toNat) = 2 := rfl
  dsimp only at h2 h5
  rw [e] at h2 h5
  refine ⟨Ws, Hs, t, h2, h4, ?_⟩
  obtain ⟨u, rfl⟩ : ∃ u, t = u + 1 := ⟨t - 1, by omega⟩
  simpa using h5

/-- The first update of the example does move. -/
example : 1 < amountMoved exU exW (((lsUpdate exV (weights exU) false exW exH).get (by decide +kernel)).1) exH (((lsUpdate exV (weights exU) false exW exH).get (by decide +kernel)).2) := by
  decide +kernel

end generic
end Esat
