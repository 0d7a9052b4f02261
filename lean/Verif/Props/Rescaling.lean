import Verif.Props.Converged

/-!
# C246: an ls-nmf update is at least as good as rescaling

Lee and Seung's update minimises a bound of the loss that is exact on the multiples of the current row. So no rescaling of a sample's contributions beats the update, and in particular not the empty model.
-/

namespace Esat
section
variable {K : Type*} [Field K] [LinearOrder K] [IsStrictOrderedRing K] {m n k : ℕ}

/-- One column of the update against the multiples of the current column. -/
theorem column_rescaling (w : Fin m → Fin k → K) (e v : Fin m → K) (h h' N D : Fin k → K)
    (he : ∀ i, 0 ≤ e i) (hwh : ∀ i a, 0 ≤ w i a * h a)
    (hN : ∀ a, N a = ∑ i, w i a * (e i * v i))
    (hD : ∀ a, D a = ∑ i, w i a * (e i * ∑ b, w i b * h b))
    (hD0 : ∀ a, D a ≠ 0) (hh : ∀ a, h' a = h a * (N a / D a)) :
    (∑ i, e i * ((∑ a, w i a * h a) * ∑ a, w i a * h' a) = ∑ i, e i * (v i * ∑ a, w i a * h a)) ∧
      ∀ t, ∑ i, e i * (v i - ∑ a, w i a * h' a) ^ 2 ≤ ∑ i, e i * (v i - t * ∑ a, w i a * h a) ^ 2 := by
  have e0 : ∀ x : Fin k → K, ∑ i, e i * ((∑ a, w i a * h a) * ∑ a, w i a * x a) = ∑ a, x a * D a := fun x => by
    simp only [hD, Finset.mul_sum]
    rw [Finset.sum_comm]
    refine Finset.sum_congr rfl fun a _ => Finset.sum_congr rfl fun i _ => ?_
    rw [← Finset.mul_sum, Finset.sum_mul, Finset.mul_sum, Finset.mul_sum]
    exact Finset.sum_congr rfl fun b _ => by ring
  have e3 : ∑ i, e i * (v i * ∑ a, w i a * h a) = ∑ a, h a * N a := by
    simp only [Finset.mul_sum, hN]
    rw [Finset.sum_comm]
    exact Finset.sum_congr rfl fun a _ => Finset.sum_congr rfl fun i _ => by ring
  have e4 : ∑ i, e i * (∑ a, w i a * h a) ^ 2 = ∑ a, h a * D a := by
    rw [← e0]
    exact Finset.sum_congr rfl fun i _ => by rw [pow_two]
  refine ⟨?_, fun t => ?_⟩
  · rw [e0, e3]
    exact Finset.sum_congr rfl fun a _ => by rw [hh, mul_assoc, div_mul_cancel₀ _ (hD0 a)]
  · have l := column_descent w e v h h' N D he hwh hN hD hD0 hh
    have hpos : 0 ≤ ∑ a, h a * D a * (N a / D a - t) ^ 2 := by
      refine Finset.sum_nonneg fun a _ => mul_nonneg ?_ (sq_nonneg _)
      rw [hD, Finset.mul_sum]
      refine Finset.sum_nonneg fun i _ => ?_
      have := mul_nonneg (hwh i a) (mul_nonneg (he i) (Finset.sum_nonneg (s := Finset.univ) fun b _ => hwh i b))
      calc (0 : K) ≤ _ := this
        _ = _ := by ring
    have hexp : ∀ t, ∑ a, h a * D a * (N a / D a - t) ^ 2 = (∑ a, h a * N a * (N a / D a)) - 2 * t * (∑ a, h a * N a) + t ^ 2 * ∑ a, h a * D a := fun t => by
      rw [Finset.mul_sum, Finset.mul_sum, ← Finset.sum_sub_distrib, ← Finset.sum_add_distrib]
      refine Finset.sum_congr rfl fun a _ => ?_
      have := hD0 a
      field_simp
      ring
    have hF : ∀ t, ∑ i, e i * (v i - t * ∑ a, w i a * h a) ^ 2 = (∑ i, e i * v i ^ 2) - 2 * t * (∑ a, h a * N a) + t ^ 2 * ∑ a, h a * D a := fun t => by
      rw [← e3, ← e4, Finset.mul_sum, Finset.mul_sum, ← Finset.sum_sub_distrib, ← Finset.sum_add_distrib]
      exact Finset.sum_congr rfl fun i _ => by ring
    have h1 := hF 1
    simp only [one_mul] at h1
    rw [h1, hexp] at l
    rw [hexp] at hpos
    rw [hF]
    linarith

private theorem sq_scaled (U : Mat m n K) (i j) (x : K) : weights U i j * x ^ 2 = (x / U i j) ^ 2 := by
  simp only [weights]
  ring

private theorem mul_scaled (U : Mat m n K) (i j) (x y : K) : weights U i j * (x * y) = x * y / U i j ^ 2 := by
  simp only [weights]
  ring

/-- **C246 (features).** After the profile step of an update the loss of every feature is at most its loss with the old profile values of the feature multiplied by any number, and the new model of the feature has the same weighted
product with the old model as the data have. -/
theorem C246_features (V U : Mat m n K) (W : Mat m k K) (H H' : Mat k n K) (hW : ∀ i a, 0 ≤ W i a) (hH : ∀ a j, 0 ≤ H a j)
    (h : lsStepH V (weights U) W H = some H') (j : Fin n) :
    (∑ i, (∑ a, W i a * H a j) * (∑ a, W i a * H' a j) / U i j ^ 2 = ∑ i, V i j * (∑ a, W i a * H a j) / U i j ^ 2) ∧
      ∀ t : K, ∑ i, ((V i j - ∑ a, W i a * H' a j) / U i j) ^ 2 ≤ ∑ i, ((V i j - t * ∑ a, W i a * H a j) / U i j) ^ 2 := by
  obtain ⟨h0, h1⟩ := lsStepH_eq_some.1 h
  have := column_rescaling (fun i a => W i a) (fun i => weights U i j) (fun i => V i j) (fun a => H a j) (fun a => H' a j)
    (fun a => lsHNum V (weights U) W a j) (fun a => lsHDen (weights U) W H a j) (fun i => weights_nonneg' U i j)
    (fun i a => mul_nonneg (hW i a) (hH a j)) (fun a => lsHNum_apply V _ W a j)
    (fun a => lsHDen_apply _ W H a j) (fun a => h0 a j) (fun a => h1 a j)
  simpa only [sq_scaled, mul_scaled] using this

theorem stepW_rescaling (V U : Mat m n K) (W W' : Mat m k K) (H : Mat k n K) (hW : ∀ i a, 0 ≤ W i a) (hH : ∀ a j, 0 ≤ H a j)
    (h : lsStepW V (weights U) W H = some W') (i : Fin m) :
    (∑ j, (∑ a, W i a * H a j) * (∑ a, W' i a * H a j) / U i j ^ 2 = ∑ j, V i j * (∑ a, W i a * H a j) / U i j ^ 2) ∧
      ∀ t : K, ∑ j, ((V i j - ∑ a, W' i a * H a j) / U i j) ^ 2 ≤ ∑ j, ((V i j - t * ∑ a, W i a * H a j) / U i j) ^ 2 := by
  have h' : lsStepH (tr V) (weights (tr U)) (tr H) (tr W) = some (tr W') := lsStepW_iff_transpose.1 h
  have := C246_features (tr V) (tr U) (tr H) (tr W) (tr W') (fun j a => hH a j) (fun a i => hW i a) h' i
  simpa only [tr, mul_comm (H _ _)] using this

/-- **C246 (samples).** After an update the loss of every sample is at most its loss with the old contributions of the sample multiplied by any number, and the new model of the sample has the same weighted product with the
old contributions' model as the data have. -/
theorem C246_samples (V U : Mat m n K) (hold : Bool) (W W' : Mat m k K) (H H' : Mat k n K) (hV : ∀ i j, 0 ≤ V i j) (hW : ∀ i a, 0 ≤ W i a) (hH : ∀ a j, 0 ≤ H a j)
    (h : lsUpdate V (weights U) hold W H = some (W', H')) (i : Fin m) :
    (∑ j, (∑ a, W i a * H' a j) * (∑ a, W' i a * H' a j) / U i j ^ 2 = ∑ j, V i j * (∑ a, W i a * H' a j) / U i j ^ 2) ∧
      ∀ t : K, ∑ j, ((V i j - ∑ a, W' i a * H' a j) / U i j) ^ 2 ≤ ∑ j, ((V i j - t * ∑ a, W i a * H' a j) / U i j) ^ 2 :=
  stepW_rescaling V U W W' H' hW (lsUpdate_nonneg hV (weights_nonneg' U) hW hH h).2 (lsUpdate_eq_some.1 h).2 i

/-- **C246 (empty model).** After one update every sample, and so the whole data set, has a loss of at most that of a model that predicts zero, whatever the start. -/
theorem C246_empty_model (V U : Mat m n K) (hold : Bool) (W W' : Mat m k K) (H H' : Mat k n K) (hV : ∀ i j, 0 ≤ V i j) (hW : ∀ i a, 0 ≤ W i a) (hH : ∀ a j, 0 ≤ H a j)
    (h : lsUpdate V (weights U) hold W H = some (W', H')) :
    (∀ i, ∑ j, ((V i j - ∑ a, W' i a * H' a j) / U i j) ^ 2 ≤ ∑ j, (V i j / U i j) ^ 2) ∧ qLoss V U W' H' ≤ ∑ i, ∑ j, (V i j / U i j) ^ 2 := by
  have hs : ∀ i, ∑ j, ((V i j - ∑ a, W' i a * H' a j) / U i j) ^ 2 ≤ ∑ j, (V i j / U i j) ^ 2 := fun i => by
    simpa only [zero_mul, sub_zero] using (C246_samples V U hold W W' H H' hV hW hH h i).2 0
  refine ⟨hs, ?_⟩
  have e : qLoss V U W' H' = ∑ i, ∑ j, ((V i j - ∑ a, W' i a * H' a j) / U i j) ^ 2 := by
    simp only [qLoss, if_true, ← pow_two]; rfl
  rw [e]
  exact Finset.sum_le_sum fun i _ => hs i

/-- **C246 (unchanged factors).** Factors an update leaves as they are split the weighted sum of squares of the data of every sample into that of the model and the loss. If the profiles are updated too, the same holds for every
feature. The model therefore never has the larger sum of squares. -/
theorem C246_unchanged (V U : Mat m n K) (hold : Bool) (W : Mat m k K) (H : Mat k n K) (hV : ∀ i j, 0 ≤ V i j) (hW : ∀ i a, 0 ≤ W i a) (hH : ∀ a j, 0 ≤ H a j)
    (h : lsUpdate V (weights U) hold W H = some (W, H)) :
    (∀ i, ∑ j, (V i j / U i j) ^ 2 = (∑ j, ((∑ a, W i a * H a j) / U i j) ^ 2) + ∑ j, ((V i j - ∑ a, W i a * H a j) / U i j) ^ 2) ∧
      (hold = false → ∀ j, ∑ i, (V i j / U i j) ^ 2 = (∑ i, ((∑ a, W i a * H a j) / U i j) ^ 2) + ∑ i, ((V i j - ∑ a, W i a * H a j) / U i j) ^ 2) := by
  have split : ∀ {ι : Type} [Fintype ι] (v p u : ι → K), (∑ x, p x * p x / u x ^ 2 = ∑ x, v x * p x / u x ^ 2) →
      ∑ x, (v x / u x) ^ 2 = (∑ x, (p x / u x) ^ 2) + ∑ x, ((v x - p x) / u x) ^ 2 := fun v p u e => by
    have e' : ∑ x, (v x / u x) ^ 2 = ((∑ x, (p x / u x) ^ 2) + ∑ x, ((v x - p x) / u x) ^ 2) + 2 * ((∑ x, v x * p x / u x ^ 2) - ∑ x, p x * p x / u x ^ 2) := by
      rw [← Finset.sum_sub_distrib, Finset.mul_sum, ← Finset.sum_add_distrib, ← Finset.sum_add_distrib]
      exact Finset.sum_congr rfl fun x _ => by ring
    rw [e', e, sub_self, mul_zero, add_zero]
  refine ⟨fun i => split _ _ _ (C246_samples V U hold W W H H hV hW hH h i).1, fun hf j => ?_⟩
  subst hf
  obtain ⟨h1, -⟩ := lsUpdate_eq_some.1 h
  rcases h1 with ⟨h1, -⟩ | ⟨-, h1⟩
  · cases h1
  · exact split _ _ _ (C246_features V U W H H hW hH h1 j).1

/-- **C246 (whole run).** Every Q recorded by a training of ls-nmf from a proper start is at most the Q of a model that predicts zero, and so is the final one. -/
theorem C246_run {V U : Mat m n K} {W : Mat m k K} {H : Mat k n K} (g : GoodStart V U W H) (cfg : LoopCfg K) (clock : ℕ → Bool) (rm : Bool) (rn : ℤ) :
    ∀ q ∈ (lsTrain V U cfg clock rm rn W H).losses, ∃ x, q = some x ∧ 0 ≤ x ∧ x ≤ ∑ i, ∑ j, (V i j / U i j) ^ 2 := by
  intro q hq
  by_cases hmax : 0 < cfg.maxIter
  · obtain ⟨t, t1, t2, t3, t4, -⟩ := rustLoop_spec (lsLoopStep V (weights U)) (lsQ V U) cfg clock (some W, some H) hmax
    obtain ⟨Ws, Hs, h0, h1, ht, hp, hu⟩ := traj_updates g (rustUpdatesH cfg)
    rw [lsTrain, t4, List.mem_map] at hq
    obtain ⟨s, -, rfl⟩ := hq
    refine ⟨qLoss V U (Ws (s + 1)) (Hs (s + 1)), by simp only [lossAt, ht, lsQ], ?_, ?_⟩
    · rw [qLoss_eq_WLoss]
      exact Finset.sum_nonneg fun i _ => Finset.sum_nonneg fun j _ => mul_nonneg (weights_nonneg' U i j) (sq_nonneg _)
    · exact (C246_empty_model V U _ _ _ _ _ g.data (fun i a => ((hp s).1 i a).le) (fun a j => ((hp s).2 a j).le) (hu s)).2
  · rw [lsTrain, rustLoop_zero _ _ _ _ _ (by omega)] at hq
    simp [rustInit] at hq

end

/-! ## Concrete cases -/

/-- A start a thousand times too large: its Q is more than a thousand times that of the empty model, that of the update is below it. -/
example :
    let V : Mat 2 2 ℚ := ![![1, 2], ![3, 1]]
    let U : Mat 2 2 ℚ := ![![1, 2], ![1, 1]]
    let W : Mat 2 2 ℚ := ![![100, 300], ![200, 100]]
    let H : Mat 2 2 ℚ := ![![1, 2], ![3, 1]]
    1000 * (∑ i, ∑ j, (V i j / U i j) ^ 2) < qLoss V U W H ∧ ∃ p, lsUpdate V (weights U) false W H = some p ∧ qLoss V U p.1 p.2 ≤ ∑ i, ∑ j, (V i j / U i j) ^ 2 := by
  intro V U W H
  refine ⟨by decide +kernel, ?_⟩
  have hs : (lsUpdate V (weights U) false W H).isSome := by decide +kernel
  obtain ⟨p, hp⟩ := Option.isSome_iff_exists.1 hs
  exact ⟨p, hp, (C246_empty_model V U false W p.1 H p.2 (by decide +kernel) (by decide +kernel) (by decide +kernel) hp).2⟩

/-- Factors that do not change although they do not fit: the sum of squares 10 of the first sample is 8 for the model plus the loss 2. -/
example :
    let V : Mat 2 2 ℚ := ![![1, 3], ![2, 2]]
    let U : Mat 2 2 ℚ := ![![1, 1], ![1, 1]]
    let W : Mat 2 1 ℚ := ![![2], ![2]]
    let H : Mat 1 2 ℚ := ![![1, 1]]
    lsUpdate V (weights U) true W H = some (W, H) ∧ (∑ j, (V 0 j / U 0 j) ^ 2 = 10) ∧ (∑ j, ((∑ a, W 0 a * H a j) / U 0 j) ^ 2 = 8) ∧ qLoss V U W H = 2 := by
  decide +kernel

/-- From the same start the update of the first sample beats every multiple of its old contributions. -/
example (t : ℚ) :
    let V : Mat 2 2 ℚ := ![![1, 2], ![3, 1]]
    let U : Mat 2 2 ℚ := ![![1, 2], ![1, 1]]
    let W : Mat 2 2 ℚ := ![![100, 300], ![200, 100]]
    let H : Mat 2 2 ℚ := ![![1, 2], ![3, 1]]
    ∃ p, lsUpdate V (weights U) true W H = some p ∧ ∑ j, ((V 0 j - ∑ a, p.1 0 a * p.2 a j) / U 0 j) ^ 2 ≤ ∑ j, ((V 0 j - t * ∑ a, W 0 a * p.2 a j) / U 0 j) ^ 2 := by
  intro V U W H
  have hs : (lsUpdate V (weights U) true W H).isSome := by decide +kernel
  obtain ⟨p, hp⟩ := Option.isSome_iff_exists.1 hs
  exact ⟨p, hp, (C246_samples V U true W p.1 H p.2 (by decide +kernel) (by decide +kernel) (by decide +kernel) hp 0).2 t⟩

end Esat
