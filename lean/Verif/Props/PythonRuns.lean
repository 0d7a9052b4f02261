import Verif.Props.Dependence
import Verif.Props.HoldOptimal
import Verif.Props.Rescaling
import Verif.Props.Order

/-!
# C251: runs of the Python loop

What C152, C238, C239, C243, C244, C246 and C248 say about the compiled ls-nmf loop, for the loop written in Python. That loop tests convergence one iteration later and leaves with an error for `converge_n < 1`.
-/

namespace Esat
variable {m n k l : ℕ}

/-! ## Whole runs -/

section loops
variable {σ τ K : Type*} [Field K] [LinearOrder K]

theorem pyBody_invariant (I : σ → Prop) (step : Bool → σ → σ) (loss : σ → Option K × Option K) (cfg : LoopCfg K) (a : Bool) (hI : ∀ u s, I s → I (step u s)) (i : ℕ) (st : PyState σ K) (h : I st.factors)
    (p : PyState σ K × Bool) (hp : pyBody step loss cfg a i st = .ok p) : I p.1.factors := by
  unfold pyBody at hp
  dsimp only at hp
  generalize (if (decide (0 < cfg.delayH) && decide (cfg.delayH < (i : ℤ))) = true then false else st.holdH) = hold at hp
  split_ifs at hp
  · cases hp; exact hI _ _ h
  · split at hp
    · cases hp
    · split_ifs at hp <;> (cases hp; exact hI _ _ h)
  · cases hp; exact hI _ _ h

theorem pyIter_invariant (I : σ → Prop) (step : Bool → σ → σ) (loss : σ → Option K × Option K) (cfg : LoopCfg K) (a : Bool) (hI : ∀ u s, I s → I (step u s)) :
    ∀ fuel i (st : PyState σ K), I st.factors → ∀ r, pyIter step loss cfg a fuel i st = .ok r → I r.factors := by
  intro fuel
  induction fuel with
  | zero => intro i st h r e; cases e; exact h
  | succ f ih =>
    intro i st h r e
    unfold pyIter at e
    split at e
    · cases e
    · next st' hb => cases e; exact pyBody_invariant I step loss cfg a hI i st h _ hb
    · next st' hb => exact ih _ _ (pyBody_invariant I step loss cfg a hI i st h _ hb) _ e

/-- A map of the factors that keeps the loss, and keeps whether the robust loss is a number. -/
theorem pyLoop_map' (f : σ → τ) (step : Bool → σ → σ) (step' : Bool → τ → τ) (l : σ → Option K × Option K) (l' : τ → Option K × Option K)
    (hs : ∀ u s, step' u (f s) = f (step u s)) (hl : ∀ s, (l' (f s)).1 = (l s).1 ∧ (l' (f s)).2.isNone = (l s).2.isNone) (cfg : LoopCfg K) (a c0 : Bool) (k0 : ℕ) (s : σ) :
    pyLoop step' l' cfg a c0 k0 (f s) = (pyLoop step l cfg a c0 k0 s).map (PyState.withFactors f) := by
  unfold pyLoop
  rw [← pyIter_congr step (fun s => l' (f s)) l cfg a hl]
  exact pyIter_map f step step' (fun s => l' (f s)) l' hs (fun _ => rfl) cfg a _ 0 ⟨s, cfg.holdH, [], [], c0, k0⟩

theorem pyLoop_forgets (step : Bool → σ → σ) (loss : σ → Option K × Option K) (cfg : LoopCfg K) (a c0 : Bool) (k0 : ℕ) (s s' : σ) (h : 0 < cfg.maxIter)
    (hs : step (!cfg.holdH) s = step (!cfg.holdH) s') :
    pyLoop step loss cfg a c0 k0 s = pyLoop step loss cfg a c0 k0 s' := by
  unfold pyLoop
  obtain ⟨f, hf⟩ : ∃ f, cfg.maxIter.toNat = f + 1 := ⟨cfg.maxIter.toNat - 1, by omega⟩
  have hd : (decide (0 < cfg.delayH) && decide (cfg.delayH < ((0 : ℕ) : ℤ))) = false := by
    by_cases h : 0 < cfg.delayH <;> simp [h]
    omega
  rw [hf]
  simp only [pyIter, pyBody, hd, Bool.false_eq_true, if_false, hs]

end loops

/-! ## ls-nmf from a proper start -/

theorem lsQPy_fst (V U : Mat m n ℝ) (alpha : ℝ) (p : Option (Mat m k ℝ) × Option (Mat k n ℝ)) : (lsQPy V U alpha p).1 = lsQ V U p ∧ (lsQPy V U alpha p).2.isNone = (lsQ V U p).isNone := by
  obtain ⟨_ | W, _ | H⟩ := p <;> exact ⟨rfl, rfl⟩

/-- The course of a run of the Python loop from a proper start. -/
theorem lsTrainPy_course {V U : Mat m n ℝ} {W : Mat m k ℝ} {H : Mat k n ℝ} (g : GoodStart V U W H) (alpha : ℝ) (cfg : LoopCfg ℝ) (hn : 1 ≤ cfg.convergeN) :
    ∃ (Ws : ℕ → Mat m k ℝ) (Hs : ℕ → Mat k n ℝ) (t : ℕ) (r : PyState (Option (Mat m k ℝ) × Option (Mat k n ℝ)) ℝ), lsTrainPy V U alpha cfg W H = .ok r ∧ Ws 0 = W ∧ Hs 0 = H ∧
      (∀ s, (∀ i a, 0 < Ws s i a) ∧ ∀ a j, 0 < Hs s a j) ∧ (∀ s, lsUpdate V (weights U) (!rustUpdatesH cfg s) (Ws s) (Hs s) = some (Ws (s + 1), Hs (s + 1))) ∧
      (∀ s, traj (lsLoopStep V (weights U)) (rustUpdatesH cfg) (some W, some H) s = (some (Ws s), some (Hs s))) ∧
      r.losses.length = t ∧ r.losses = (List.range t).map (fun s => some (qLoss V U (Ws (s + 1)) (Hs (s + 1)))) ∧ r.factors = (some (Ws t), some (Hs t)) ∧ (t : ℤ) ≤ max cfg.maxIter 0 ∧
      (r.converged = true → cfg.convergeN + 1 ≤ t ∧ qLoss V U (Ws (t + 1 - cfg.convergeN.toNat)) (Hs (t + 1 - cfg.convergeN.toNat)) - qLoss V U (Ws t) (Hs t) < cfg.delta) ∧
      (r.converged = false → (t : ℤ) = max cfg.maxIter 0) := by
  obtain ⟨Ws, Hs, h0, h1, ht, hp, hu⟩ := traj_updates g (rustUpdatesH cfg)
  obtain ⟨r, t, e, t1, t2, t3, t4, t5⟩ := pyLoop_spec (lsLoopStep V (weights U)) (lsQPy V U alpha) cfg false 0 (some W, some H) hn
  have hℓ : ∀ j, lossAt (lsLoopStep V (weights U)) (lsQPy V U alpha) (rustUpdatesH cfg) (some W, some H) j = (some (qLoss V U (Ws (j + 1)) (Hs (j + 1))), some (qrLoss V U (Ws (j + 1)) (Hs (j + 1)) alpha).1) := fun j => by
    rw [lossAt, ht]
    rfl
  have hnan : ∀ j, ¬ PyNan (lossAt (lsLoopStep V (weights U)) (lsQPy V U alpha) (rustUpdatesH cfg) (some W, some H)) j := fun j => by
    unfold PyNan
    rw [hℓ]
    simp
  have hlen : r.losses.length = t := by rw [t3]; simp
  refine ⟨Ws, Hs, t, r, e, h0, h1, hp, hu, ht, hlen, ?_, by rw [t2, ht], by omega, fun hc => ?_, fun hc => ?_⟩
  · rw [t3]
    exact List.map_congr_left fun s _ => by rw [hℓ]
  · rcases t5 with ⟨-, -, h, -⟩ | ⟨hpos, hstop, -, -⟩
    · rw [h] at hc; cases hc
    · rcases hstop with h | ⟨h2, -, a, b, h3, h4, h5⟩
      · exact absurd h (hnan _)
      · simp only [hℓ, Option.some.injEq] at h3 h4
        rw [show t - 1 + 1 - cfg.convergeN.toNat + 1 = t + 1 - cfg.convergeN.toNat by omega] at h3
        rw [show t - 1 + 1 = t by omega] at h4
        refine ⟨by omega, ?_⟩
        rw [h3, h4]
        exact h5
  · rcases t5 with ⟨-, h, -, -⟩ | ⟨hpos, -, -, h⟩
    · omega
    · have := h.2 (.inr (hnan _))
      rw [hc] at this; cases this

/-- **C251 (loss history).** The Python loop from a proper start returns, with at most `max_iter` iterations. No recorded loss is above its predecessor and none is above the loss of the empty model. The last recorded loss is that of the returned
factors. With a tolerance that is not positive no run is reported as converged. -/
theorem C251_losses {V U : Mat m n ℝ} {W : Mat m k ℝ} {H : Mat k n ℝ} (g : GoodStart V U W H) (alpha : ℝ) (cfg : LoopCfg ℝ) (hn : 1 ≤ cfg.convergeN) :
    ∃ (r : PyState (Option (Mat m k ℝ) × Option (Mat k n ℝ)) ℝ) (W' : Mat m k ℝ) (H' : Mat k n ℝ) (qs : List ℝ), lsTrainPy V U alpha cfg W H = .ok r ∧ r.factors = (some W', some H') ∧ r.losses = qs.map some ∧ (qs.length : ℤ) ≤ max cfg.maxIter 0 ∧ qs.Pairwise (fun q q' => q' ≤ q) ∧
      (∀ q ∈ qs, 0 ≤ q ∧ q ≤ ∑ i, ∑ j, (V i j / U i j) ^ 2) ∧ (∀ q ∈ qs.getLast?, q = ∑ i, ∑ j, ((V i j - ∑ a, W' i a * H' a j) / U i j) ^ 2) ∧
      (cfg.delta ≤ 0 → r.converged = false ∧ (qs.length : ℤ) = max cfg.maxIter 0) := by
  obtain ⟨Ws, Hs, t, r, e, h0, h1, hp, hu, -, hlen, hl, hf, ht, hc, hnc⟩ := lsTrainPy_course g alpha cfg hn
  have hanti : Antitone fun s => qLoss V U (Ws s) (Hs s) := antitone_nat_of_succ_le fun s => by
    have := C239_moved V U _ _ _ _ _ g.data (fun i a => ((hp s).1 i a).le) (fun a j => ((hp s).2 a j).le) (hu s)
    have h2 : 0 ≤ amountMoved U (Ws s) (Ws (s + 1)) (Hs s) (Hs (s + 1)) := by unfold amountMoved; positivity
    linarith
  have hlast : ∀ q, q ∈ ((List.range t).map fun s => qLoss V U (Ws (s + 1)) (Hs (s + 1))).getLast? → q = qLoss V U (Ws t) (Hs t) := by
    intro q hq
    cases t with
    | zero => simp at hq
    | succ u => simp [List.range_succ] at hq; exact hq.symm
  refine ⟨r, Ws t, Hs t, (List.range t).map fun s => qLoss V U (Ws (s + 1)) (Hs (s + 1)), e, hf, by rw [hl, List.map_map]; rfl, by simpa using ht, ?_, ?_, fun q hq => ?_, fun hδ => ?_⟩
  · rw [List.pairwise_map]
    exact List.pairwise_lt_range.imp fun h => hanti (by omega)
  · intro q hq
    obtain ⟨s, -, rfl⟩ := List.mem_map.1 hq
    exact ⟨by
      rw [qLoss_eq_WLoss]
      exact Finset.sum_nonneg fun i _ => Finset.sum_nonneg fun j _ => mul_nonneg (weights_nonneg' U i j) (sq_nonneg _),
      (C246_empty_model V U _ _ _ _ _ g.data (fun i a => ((hp s).1 i a).le) (fun a j => ((hp s).2 a j).le) (hu s)).2⟩
  · rw [hlast q hq]
    simp only [qLoss, if_true, ← pow_two]
    rfl
  · have hcf : r.converged = false := by
      by_contra h
      obtain ⟨h2, h3⟩ := hc (by simpa using h)
      have := hanti (show t + 1 - cfg.convergeN.toNat ≤ t by omega)
      dsimp only at this
      linarith
    exact ⟨hcf, by simpa using hnc hcf⟩

/-- **C251 (converged run).** A run of the Python loop reported as converged took at least `converge_n + 1` iterations, moved the factors by less than `converge_delta` in its last `converge_n - 1` iterations together, and the violations of the
optimality conditions at those iterations add up to less than `converge_delta`. -/
theorem C251_converged {V U : Mat m n ℝ} {W : Mat m k ℝ} {H : Mat k n ℝ} (g : GoodStart V U W H) (alpha : ℝ) (cfg : LoopCfg ℝ) (hn : 1 ≤ cfg.convergeN)
    {r : PyState (Option (Mat m k ℝ) × Option (Mat k n ℝ)) ℝ} (hr : lsTrainPy V U alpha cfg W H = .ok r) (hc : r.converged = true) :
    ∃ (Ws : ℕ → Mat m k ℝ) (Hs : ℕ → Mat k n ℝ) (t : ℕ), r.losses.length = t ∧ cfg.convergeN + 1 ≤ t ∧ r.factors = (some (Ws t), some (Hs t)) ∧ Ws 0 = W ∧ Hs 0 = H ∧
      (∀ s, lsUpdate V (weights U) (!rustUpdatesH cfg s) (Ws s) (Hs s) = some (Ws (s + 1), Hs (s + 1))) ∧
      (∑ s ∈ Finset.Ico (t + 1 - cfg.convergeN.toNat) t, amountMoved U (Ws s) (Ws (s + 1)) (Hs s) (Hs (s + 1))) < cfg.delta ∧
      (∑ s ∈ Finset.Ico (t + 1 - cfg.convergeN.toNat) t, ((if rustUpdatesH cfg s then profilePull V U (Ws s) (Hs s) else 0) + contributionPull V U (Ws s) (Hs (s + 1)))) < cfg.delta := by
  obtain ⟨Ws, Hs, t, r', e, h0, h1, hp, hu, -, hlen, hl, hf, -, hcc, -⟩ := lsTrainPy_course g alpha cfg hn
  obtain rfl : r' = r := by rw [hr] at e; cases e; rfl
  obtain ⟨c1, c2⟩ := hcc hc
  obtain ⟨N, hN⟩ : ∃ N : ℕ, cfg.convergeN = N := ⟨cfg.convergeN.toNat, by omega⟩
  rw [hN, Int.toNat_natCast] at c2 ⊢
  refine ⟨Ws, Hs, t, hlen, by omega, hf, h0, h1, hu, ?_, ?_⟩
  · have := sum_drops (fun s => qLoss V U (Ws s) (Hs s)) (fun s => amountMoved U (Ws s) (Ws (s + 1)) (Hs s) (Hs (s + 1)))
      (fun s => C239_moved V U _ _ _ _ _ g.data (fun i a => ((hp s).1 i a).le) (fun a j => ((hp s).2 a j).le) (hu s)) (t + 1 - N) (N - 1)
    rw [Finset.sum_Ico_eq_sum_range, show t - (t + 1 - N) = N - 1 by omega]
    rw [show t + 1 - N + (N - 1) = t by omega] at this
    linarith
  · have := sum_drops (fun s => qLoss V U (Ws s) (Hs s)) (fun s => (if !rustUpdatesH cfg s then 0 else profilePull V U (Ws s) (Hs s)) + contributionPull V U (Ws s) (Hs (s + 1)))
      (fun s => C239_pull V U _ _ _ _ _ g.data (fun i a => ((hp s).1 i a).le) (fun a j => ((hp s).2 a j).le) (hu s)) (t + 1 - N) (N - 1)
    rw [Finset.sum_Ico_eq_sum_range, show t - (t + 1 - N) = N - 1 by omega]
    rw [show t + 1 - N + (N - 1) = t by omega] at this
    simp only [Bool.not_eq_true', ← Bool.not_eq_true, ite_not] at this
    linarith

/-- **C251 (held profiles).** A run of the Python loop with `hold_h` and no delay returns the profiles unchanged, and its loss is at most that of any other non-negative contributions `X` plus a constant, which does not depend on the settings,
divided by the number of iterations. -/
theorem C251_held {V U : Mat m n ℝ} {W : Mat m k ℝ} {H : Mat k n ℝ} (g : GoodStart V U W H) (X : Mat m k ℝ) (hX : ∀ i a, 0 ≤ X i a) :
    ∃ C, ∀ (alpha : ℝ) (cfg : LoopCfg ℝ), 1 ≤ cfg.convergeN → cfg.holdH = true → cfg.delayH ≤ 0 → 0 < cfg.maxIter →
      ∃ r W', lsTrainPy V U alpha cfg W H = .ok r ∧ r.factors = (some W', some H) ∧ 0 < r.losses.length ∧
        (∑ i, ∑ j, ((V i j - ∑ a, W' i a * H a j) / U i j) ^ 2) ≤ (∑ i, ∑ j, ((V i j - ∑ a, X i a * H a j) / U i j) ^ 2) + C / r.losses.length := by
  obtain ⟨Ws, Hs, u, rfl, rfl, htraj⟩ := hold_updates g
  obtain ⟨C, hC⟩ := C238_bound u g.cols g.row (weights_pos g.unc) g.w g.h X hX
  have hH : ∀ t, Hs t = Hs 0 := fun t => (C238_rate u g.cols g.row (weights_pos g.unc) g.w g.h X hX t).1
  have hQ : ∀ Y : Mat m k ℝ, WLoss V (weights U) Y (Hs 0) = ∑ i, ∑ j, ((V i j - ∑ a, Y i a * Hs 0 a j) / U i j) ^ 2 := fun Y => by
    rw [← qLoss_eq_WLoss]
    simp only [qLoss, if_true, ← pow_two]
    rfl
  refine ⟨C, fun alpha cfg hn hh hd hm => ?_⟩
  have hf : rustUpdatesH cfg = fun _ => false := by
    funext i
    simp [rustUpdatesH, hh, show ¬ (0 < cfg.delayH) by omega]
  obtain ⟨Ws', Hs', t, r, e, -, -, -, -, htr, hlen, -, hfac, -, hc, hnc⟩ := lsTrainPy_course g alpha cfg hn
  have ht : 1 ≤ t := by
    cases hb : r.converged
    · have := hnc hb; omega
    · have := (hc hb).1; omega
  rw [hf] at htr
  replace htr := htr t
  rw [htraj] at htr
  refine ⟨r, Ws t, e, by rw [hfac, ← htr, hH t], by omega, ?_⟩
  rw [← hQ, hlen, ← hQ]
  have := hC t ht
  rwa [hH t] at this

/-! ## Starting points with copies -/

/-- **C251 (copies of factors).** C243 for the Python loop, for every `converge_n`: a run whose starting factors are multiples of the factors of a smaller model takes the course of the run of the smaller model. If one of them fails, both fail with
the same error. -/
theorem C251_factor_copies (χ : Fin l → Fin k) (c d : Fin l → ℝ) (hc : ∀ b, c b ≠ 0) (hd : ∀ b, d b ≠ 0) (h : ∀ a, ∑ b with χ b = a, c b * d b = 1) (V U : Mat m n ℝ) (alpha : ℝ) (cfg : LoopCfg ℝ) (W : Mat m k ℝ) (H : Mat k n ℝ) :
    lsTrainPy V U alpha cfg (fun i b => c b * W i (χ b)) (fun b j => d b * H (χ b) j) =
      (lsTrainPy V U alpha cfg W H).map fun st =>
        ⟨(st.factors.1.map fun X => fun i b => c b * X i (χ b), st.factors.2.map fun X => fun b j => d b * X (χ b) j), st.holdH, st.window, st.losses, st.converged, st.convergeSteps⟩ := by
  refine pyLoop_map' (splitFactors χ c d) (lsLoopStep V (weights U)) (lsLoopStep V (weights U)) (lsQPy V U alpha) (lsQPy V U alpha) (fun u p => lsLoopStep_split χ c d hc hd h V (weights U) u p) (fun p => ?_) cfg true false 0 (some W, some H)
  obtain ⟨_ | W, _ | H⟩ := p
  · exact ⟨rfl, rfl⟩
  · exact ⟨rfl, rfl⟩
  · exact ⟨rfl, rfl⟩
  · exact ⟨congrArg some (qLoss_split χ c d h V U W H), rfl⟩

/-- **C251 (proportional factors).** Two starting factors that are multiples of each other are the same multiples of each other at the end of every run of the Python loop. -/
theorem C251_proportional (a b : Fin k) (x y : ℝ) (hx : x ≠ 0) (hy : y ≠ 0) (V U : Mat m n ℝ) (alpha : ℝ) (cfg : LoopCfg ℝ) (W : Mat m k ℝ) (H : Mat k n ℝ) (hW : ∀ i, W i b = x * W i a) (hH : ∀ j, H b j = y * H a j)
    {r : PyState (Option (Mat m k ℝ) × Option (Mat k n ℝ)) ℝ} (hr : lsTrainPy V U alpha cfg W H = .ok r) :
    (∀ W', r.factors.1 = some W' → ∀ i, W' i b = x * W' i a) ∧ ∀ H', r.factors.2 = some H' → ∀ j, H' b j = y * H' a j :=
  pyIter_invariant (Multiple a b x y) _ _ cfg true (lsLoopStep_multiple a b x y hx hy V (weights U)) _ 0 _ ⟨fun W' h i => by cases h; exact hW i, fun H' h j => by cases h; exact hH j⟩ r hr

/-- **C251 (copies of samples).** C244 for the Python loop: repeated samples with equal starting contributions are samples with smaller uncertainty. The robust loss, which is not the same, has no influence on the course of the run. -/
theorem C251_sample_copies {φ : Fin l → Fin m} (hφ : Function.Surjective φ) (V U : Mat m n ℝ) (alpha alpha' : ℝ) (cfg : LoopCfg ℝ) (W : Mat m k ℝ) (H : Mat k n ℝ) :
    lsTrainPy (fun s j => V (φ s) j) (fun s j => U (φ s) j) alpha cfg (fun s a => W (φ s) a) H =
      (lsTrainPy V (fun i j => U i j / √((Finset.univ.filter fun s => φ s = i).card : ℝ)) alpha' cfg W H).map fun st =>
        ⟨(st.factors.1.map fun X => fun s a => X (φ s) a, st.factors.2), st.holdH, st.window, st.losses, st.converged, st.convergeSteps⟩ := by
  refine pyLoop_map' (copySamples φ) (lsLoopStep V (weights (sharedUncertainty φ U))) (lsLoopStep (fun s j => V (φ s) j) (weights fun s j => U (φ s) j)) (lsQPy V (sharedUncertainty φ U) alpha')
    (lsQPy (fun s j => V (φ s) j) (fun s j => U (φ s) j) alpha) (fun u p => by rw [weights_shared]; exact lsLoopStep_copies hφ V (weights U) u p) (fun p => ?_) cfg true false 0 (some W, some H)
  rw [(lsQPy_fst _ _ _ _).1, (lsQPy_fst _ _ _ _).1, (lsQPy_fst _ _ _ _).2, (lsQPy_fst _ _ _ _).2, lsQ_copies]
  exact ⟨rfl, rfl⟩

/-- **C251 (one factor).** A run of the Python loop with one factor and profiles that are not held is the same for all starting profiles without a zero. -/
theorem C251_one_factor (V U : Mat m n ℝ) (alpha : ℝ) (cfg : LoopCfg ℝ) (hmax : 0 < cfg.maxIter) (hhold : cfg.holdH = false) (W : Mat m 1 ℝ) (H H' : Mat 1 n ℝ) (hH : ∀ j, H 0 j ≠ 0) (h' : ∀ j, H' 0 j ≠ 0) (c : ℝ) (hc : c ≠ 0) :
    lsTrainPy V U alpha cfg W H' = lsTrainPy V U alpha cfg W H ∧
      lsTrainPy V U alpha cfg (fun i a => c * W i a) H' = (lsTrainPy V U alpha cfg W H).map fun st =>
        ⟨(st.factors.1.map fun X => fun i a => c * X i a, st.factors.2.map fun X => fun a j => X a j / c), st.holdH, st.window, st.losses, st.converged, st.convergeSteps⟩ := by
  have key : ∀ (X : Mat m 1 ℝ) (A B : Mat 1 n ℝ), (∀ j, A 0 j ≠ 0) → (∀ j, B 0 j ≠ 0) → lsTrainPy V U alpha cfg X A = lsTrainPy V U alpha cfg X B := fun X A B hA hB =>
    pyLoop_forgets _ _ _ _ _ _ _ _ hmax (by simp only [lsLoopStep, hhold, Bool.not_false, if_true, Option.bind_some, lsStepH_one V (weights U) X A B hA hB])
  refine ⟨key W H' H h' hH, ?_⟩
  have hsum : ∀ a : Fin 1, ∑ b with (id b : Fin 1) = a, c * c⁻¹ = (1 : ℝ) := fun a => by
    rw [Finset.filter_true_of_mem (fun b _ => Subsingleton.elim _ _), Finset.sum_const, Finset.card_univ, Fintype.card_fin, one_smul, mul_inv_cancel₀ hc]
  have h1 := C251_factor_copies (id : Fin 1 → Fin 1) (fun _ => c) (fun _ => c⁻¹) (fun _ => hc) (fun _ => inv_ne_zero hc) hsum V U alpha cfg W H
  rw [key _ H' (fun b j => c⁻¹ * H (id b) j) h' fun j => mul_ne_zero (inv_ne_zero hc) (hH j)]
  simp only [div_eq_inv_mul]
  exact h1

/-! ## Concrete cases -/

/-- Two samples and two features. -/
def pyV : Mat 2 2 ℝ := ![![1, 2], ![3, 1]]

theorem pyGood : GoodStart pyV (fun _ _ => 1) (fun _ _ => 1 : Mat 2 2 ℝ) (fun _ _ => 1) where
  rows := by norm_num
  cols := by norm_num
  data := by intro i j; fin_cases i <;> fin_cases j <;> simp [pyV]
  row := by intro i; exact ⟨0, by fin_cases i <;> simp [pyV]⟩
  col := by intro j; exact ⟨0, by fin_cases j <;> simp [pyV]⟩
  unc := by intro _ _; norm_num
  w := by intro _ _; norm_num
  h := by intro _ _; norm_num

/-- Its losses stay below that of the empty model, 15. -/
example : ∃ r, lsTrainPy pyV (fun _ _ => 1) 4 ⟨50, 1, 3, false, -1⟩ (fun _ _ => 1 : Mat 2 2 ℝ) (fun _ _ => 1) = .ok r ∧ ∀ q ∈ r.losses, ∃ x, q = some x ∧ x ≤ 15 := by
  obtain ⟨r, W', H', qs, h1, -, h2, -, -, h3, -⟩ := C251_losses pyGood 4 ⟨50, 1, 3, false, -1⟩ (by norm_num)
  refine ⟨r, h1, fun q hq => ?_⟩
  rw [h2] at hq
  obtain ⟨x, hx, rfl⟩ := List.mem_map.1 hq
  refine ⟨x, rfl, (h3 x hx).2.trans (le_of_eq ?_)⟩
  simp [Fin.sum_univ_two, pyV]
  norm_num

/-- It converges with `converge_delta = 1` and `converge_n = 2`, so that its last update moved the amounts by less than 1. -/
example : ∃ (r : PyState (Option (Mat 2 2 ℝ) × Option (Mat 2 2 ℝ)) ℝ) (W' W'' : Mat 2 2 ℝ) (H' H'' : Mat 2 2 ℝ), lsTrainPy pyV (fun _ _ => 1) 4 ⟨50, 1, 2, false, -1⟩ (fun _ _ => 1 : Mat 2 2 ℝ) (fun _ _ => 1) = .ok r ∧ r.converged = true ∧
    r.factors = (some W'', some H'') ∧ lsUpdate pyV (weights fun _ _ => 1) false W' H' = some (W'', H'') ∧ amountMoved (fun _ _ => 1) W' W'' H' H'' < 1 := by
  obtain ⟨r, h1, h2, -⟩ := C151_python pyGood 4 ⟨50, 1, 2, false, -1⟩ (by norm_num) (by norm_num) 4 (by simp [Fin.sum_univ_two, pyV]; norm_num) (by norm_num)
  obtain ⟨Ws, Hs, t, -, ht, hf, -, -, hu, hm, -⟩ := C251_converged pyGood 4 ⟨50, 1, 2, false, -1⟩ (by norm_num) h1 h2
  dsimp only at ht hm
  obtain ⟨u, rfl⟩ : ∃ u, t = u + 1 := ⟨t - 1, by omega⟩
  have hI : u + 1 + 1 - (2 : ℤ).toNat = u := by have : (2 : ℤ).toNat = 2 := rfl; omega
  rw [hI] at hm
  simp only [Nat.Ico_succ_singleton, Finset.sum_singleton] at hm
  exact ⟨r, Ws u, _, Hs u, _, h1, h2, hf, hu u, hm⟩

/-- The two factors of its start are equal and stay so. -/
example : ∃ r, lsTrainPy pyV (fun _ _ => 1) 4 ⟨50, 1, 2, false, -1⟩ (fun _ _ => 1 : Mat 2 2 ℝ) (fun _ _ => 1) = .ok r ∧ ∀ W', r.factors.1 = some W' → ∀ i, W' i 1 = W' i 0 := by
  obtain ⟨r, W', H', qs, h1, -⟩ := C251_losses pyGood 4 ⟨50, 1, 2, false, -1⟩ (by norm_num)
  refine ⟨r, h1, fun X hX i => ?_⟩
  have := (C251_proportional 0 1 1 1 one_ne_zero one_ne_zero _ _ 4 _ _ _ (by simp) (by simp) h1).1 X hX i
  rwa [one_mul] at this

/-- The first sample twice: the same losses as one copy of it with uncertainty `1 / √2`. -/
example : (lsTrainPy (fun s j => pyV (![0, 0, 1] s) j) (fun _ _ => 1) 4 ⟨50, 1, 2, false, -1⟩ (fun _ _ => 1 : Mat 3 2 ℝ) (fun _ _ => 1)).map (·.losses) =
    (lsTrainPy pyV (fun i _ => 1 / √(![2, 1] i)) 4 ⟨50, 1, 2, false, -1⟩ (fun _ _ => 1 : Mat 2 2 ℝ) (fun _ _ => 1)).map (·.losses) := by
  have hφ : Function.Surjective (![0, 0, 1] : Fin 3 → Fin 2) := by decide
  have h := C251_sample_copies hφ pyV (fun _ _ => 1) 4 4 ⟨50, 1, 2, false, -1⟩ (fun _ _ => 1 : Mat 2 2 ℝ) (fun _ _ => 1)
  have e : (fun (i : Fin 2) (_ : Fin 2) => (1 : ℝ) / √((Finset.univ.filter fun s => (![0, 0, 1] : Fin 3 → Fin 2) s = i).card : ℝ)) = fun i _ => 1 / √(![2, 1] i) := by
    funext i j
    have h0 : (Finset.univ.filter fun s => (![0, 0, 1] : Fin 3 → Fin 2) s = 0).card = 2 := by decide
    have h1 : (Finset.univ.filter fun s => (![0, 0, 1] : Fin 3 → Fin 2) s = 1).card = 1 := by decide
    fin_cases i
    · simp [h0]
    · simp [h1]
  rw [e] at h
  rw [h]
  cases lsTrainPy pyV (fun i _ => 1 / √(![2, 1] i)) 4 ⟨50, 1, 2, false, -1⟩ (fun _ _ => 1 : Mat 2 2 ℝ) (fun _ _ => 1) <;> rfl

end Esat
