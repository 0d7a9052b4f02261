import Verif.Props.WsRuns
import Verif.Props.HoldLimit
import Verif.Props.WsLongRun
import Verif.Props.PythonRuns

/-!
# C248, C252, C256 and C260 for the Python loop

The course of ws-nmf runs and the limit of the contributions with held profiles, for the loop written in Python (`sa.py:430-464`, `optimized=False`). It tests convergence one iteration later than the compiled loop.
-/

namespace Esat

section
variable {m n k : ℕ}

/-- A run of the Python loop whose losses are numbers, fall, and start below `p · converge_delta` converges in time. -/
theorem pyLoop_in_time {σ K : Type*} [Field K] [LinearOrder K] [IsStrictOrderedRing K] (step : Bool → σ → σ) (loss : σ → Option K × Option K) (cfg : LoopCfg K) (s : σ) (q : ℕ → K)
    (hq : ∀ i, (lossAt step loss (rustUpdatesH cfg) s i).1 = some (q i)) (hr : ∀ i, (lossAt step loss (rustUpdatesH cfg) s i).2 ≠ none) (hanti : Antitone q) (h0 : ∀ i, 0 ≤ q i) (hδ : 0 < cfg.delta) (hn : 1 ≤ cfg.convergeN)
    (p : ℕ) (hp : q 0 < p * cfg.delta) (hmax : (cfg.convergeN - 1) * p + 2 ≤ cfg.maxIter) :
    ∃ r, pyLoop step loss cfg true false 0 s = .ok r ∧ r.converged = true ∧ (r.losses.length : ℤ) ≤ (cfg.convergeN - 1) * p + 2 := by
  have hnn : (0 : ℤ) ≤ (cfg.convergeN - 1) * p := mul_nonneg (by omega) (by omega)
  obtain ⟨i, hi0, hi1, hi2, hi3⟩ := crit_in_time q hanti h0 cfg.convergeN.toNat (by omega) cfg.delta hδ p 1 (lt_of_le_of_lt (hanti (Nat.zero_le 1)) hp)
  have hcrit : PyCrit (lossAt step loss (rustUpdatesH cfg) s) cfg.convergeN.toNat cfg.delta i := ⟨by omega, hi1, _, _, hq _, hq _, hi3⟩
  have hN : ((cfg.convergeN.toNat - 1 : ℕ) : ℤ) = cfg.convergeN - 1 := by omega
  have hi4 : (i : ℤ) ≤ 1 + (cfg.convergeN - 1) * p := by
    rw [← hN]
    exact_mod_cast hi2
  have hnan : ∀ j, ¬ PyNan (lossAt step loss (rustUpdatesH cfg) s) j := fun j h => by
    rcases h with h | h
    · rw [hq] at h; cases h
    · exact hr j h
  obtain ⟨r, t, e, t1, -, t3, t4, t5⟩ := pyLoop_spec step loss cfg false 0 s hn
  have hlen : r.losses.length = t := by rw [t3]; simp
  have hti : t ≤ i + 1 := by
    by_contra h
    exact t4 i (by omega) (.inr hcrit)
  refine ⟨r, e, ?_, by rw [hlen]; omega⟩
  rcases t5 with ⟨h, ht, -⟩ | ⟨-, -, -, h⟩
  · exact absurd (.inr hcrit) (h i (by omega))
  · exact h.2 (.inr (hnan _))

/-- **C252, the Python loop.** A ws-nmf run of the Python loop along which the contributions stay non-negative returns factors, records a loss per iteration, none above its predecessor and none above the loss of the empty model, and with a
tolerance that is not positive makes all iterations and is not reported as converged. A converged run took at least `converge_n + 1` iterations and its last `converge_n` losses differ by less than the tolerance. -/
theorem C252_python {inv : Mat k k ℝ → Mat k k ℝ} {V U : Mat m n ℝ} {W : Mat m k ℝ} {H : Mat k n ℝ} (alpha : ℝ) (cfg : LoopCfg ℝ) (g : WsProper inv V U (rustUpdatesH cfg) W H) (hn : 1 ≤ cfg.convergeN) :
    ∃ (r : PyState (Option (Mat m k ℝ) × Option (Mat k n ℝ)) ℝ) (W' : Mat m k ℝ) (H' : Mat k n ℝ) (qs : List ℝ), pyLoop (wsLoopStep inv V (weights U)) (lsQPy V U alpha) cfg true false 0 (some W, some H) = .ok r ∧ r.factors = (some W', some H') ∧ r.losses = qs.map some ∧ (qs.length : ℤ) ≤ max cfg.maxIter 0 ∧
      qs.Pairwise (fun q q' => q' ≤ q) ∧ (∀ q ∈ qs, 0 ≤ q ∧ q ≤ ∑ i, ∑ j, (V i j / U i j) ^ 2) ∧ (∀ q ∈ qs.getLast?, q = ∑ i, ∑ j, ((V i j - ∑ a, W' i a * H' a j) / U i j) ^ 2) ∧
      (cfg.delta ≤ 0 → r.converged = false) ∧ (r.converged = false → (qs.length : ℤ) = max cfg.maxIter 0) ∧
      (r.converged = true → cfg.convergeN + 1 ≤ qs.length ∧ ∀ q ∈ qs[qs.length - cfg.convergeN.toNat]?, ∀ q' ∈ qs.getLast?, q - q' < cfg.delta) := by
  obtain ⟨Ws, Hs, h0, h1, ht, -, -, hanti, hnn, hle⟩ := ws_losses g
  obtain ⟨r, t, e, t1, t2, t3, t4, t5⟩ := pyLoop_spec (wsLoopStep inv V (weights U)) (lsQPy V U alpha) cfg false 0 (some W, some H) hn
  have hℓ : ∀ j, lossAt (wsLoopStep inv V (weights U)) (lsQPy V U alpha) (rustUpdatesH cfg) (some W, some H) j = (some (qLoss V U (Ws (j + 1)) (Hs (j + 1))), some (qrLoss V U (Ws (j + 1)) (Hs (j + 1)) alpha).1) := fun j => by
    rw [lossAt, ht]
    rfl
  have hnan : ∀ j, ¬ PyNan (lossAt (wsLoopStep inv V (weights U)) (lsQPy V U alpha) (rustUpdatesH cfg) (some W, some H)) j := fun j => by
    unfold PyNan
    rw [hℓ]
    simp
  have hlast : ∀ q, q ∈ ((List.range t).map fun s => qLoss V U (Ws (s + 1)) (Hs (s + 1))).getLast? → q = qLoss V U (Ws t) (Hs t) := by
    intro q hq
    cases t with
    | zero => simp at hq
    | succ u => simp [List.range_succ] at hq; exact hq.symm
  have hconv : r.converged = true → cfg.convergeN + 1 ≤ t ∧ qLoss V U (Ws (t + 1 - cfg.convergeN.toNat)) (Hs (t + 1 - cfg.convergeN.toNat)) - qLoss V U (Ws t) (Hs t) < cfg.delta := fun hc => by
    rcases t5 with ⟨-, -, h, -⟩ | ⟨hpos, hstop, -, -⟩
    · rw [h] at hc; cases hc
    · rcases hstop with h | ⟨h2, -, a, b, h3, h4, h5⟩
      · exact absurd h (hnan _)
      · simp only [hℓ, Option.some.injEq] at h3 h4
        rw [show t - 1 + 1 - cfg.convergeN.toNat + 1 = t + 1 - cfg.convergeN.toNat by omega] at h3
        rw [show t - 1 + 1 = t by omega] at h4
        refine ⟨by omega, ?_⟩
        rw [h3, h4]
        exact h5
  refine ⟨r, Ws t, Hs t, (List.range t).map fun s => qLoss V U (Ws (s + 1)) (Hs (s + 1)), e, by rw [t2, ht], ?_, ?_, ?_, ?_, fun q hq => ?_, fun hδ => ?_, fun hc => ?_, fun hc => ?_⟩
  · rw [t3, List.map_map]
    exact List.map_congr_left fun s _ => by rw [hℓ]; rfl
  · simp only [List.length_map, List.length_range]; omega
  · rw [List.pairwise_map]
    exact List.pairwise_lt_range.imp fun h => hanti (by omega)
  · intro q hq
    obtain ⟨s, -, rfl⟩ := List.mem_map.1 hq
    exact ⟨hnn _, hle s⟩
  · rw [hlast q hq]
    simp only [qLoss, if_true, ← pow_two]
    rfl
  · by_contra h
    obtain ⟨h2, h3⟩ := hconv (by simpa using h)
    have := hanti (show t + 1 - cfg.convergeN.toNat ≤ t by omega)
    dsimp only at this
    linarith
  · rcases t5 with ⟨-, h, -, -⟩ | ⟨hpos, -, -, h⟩
    · simp only [List.length_map, List.length_range]; omega
    · have := h.2 (.inr (hnan _))
      rw [hc] at this; cases this
  · obtain ⟨h2, h3⟩ := hconv hc
    simp only [List.length_map, List.length_range]
    refine ⟨h2, fun q hq q' hq' => ?_⟩
    rw [hlast q' hq']
    rw [List.getElem?_map, List.getElem?_range (by omega)] at hq
    simp only [Option.map_some, Option.mem_def, Option.some.injEq] at hq
    rw [← hq, show t - cfg.convergeN.toNat + 1 = t + 1 - cfg.convergeN.toNat by omega]
    exact h3

/-- **C252 (movement), the Python loop.** The factors move in total by at most the starting loss, and a converged run moved by less than the tolerance in its last `converge_n - 1` iterations. -/
theorem C252_python_moved {inv : Mat k k ℝ → Mat k k ℝ} {V U : Mat m n ℝ} {W : Mat m k ℝ} {H : Mat k n ℝ} (alpha : ℝ) (cfg : LoopCfg ℝ) (g : WsProper inv V U (rustUpdatesH cfg) W H) (hn : 1 ≤ cfg.convergeN) :
    ∃ (r : PyState (Option (Mat m k ℝ) × Option (Mat k n ℝ)) ℝ) (Ws : ℕ → Mat m k ℝ) (Hs : ℕ → Mat k n ℝ), pyLoop (wsLoopStep inv V (weights U)) (lsQPy V U alpha) cfg true false 0 (some W, some H) = .ok r ∧ Ws 0 = W ∧ Hs 0 = H ∧
      (∀ s, wsUpdate inv V (weights U) (!rustUpdatesH cfg s) (Ws s) (Hs s) = (Ws (s + 1), some (Hs (s + 1)))) ∧ r.factors = (some (Ws r.losses.length), some (Hs r.losses.length)) ∧
      (∑ s ∈ Finset.range r.losses.length, wsAmountMoved U (Ws s) (Ws (s + 1)) (Hs s) (Hs (s + 1))) ≤ ∑ i, ∑ j, ((V i j - ∑ a, W i a * H a j) / U i j) ^ 2 ∧
      (r.converged = true → (∑ s ∈ Finset.Ico (r.losses.length + 1 - cfg.convergeN.toNat) r.losses.length, wsAmountMoved U (Ws s) (Ws (s + 1)) (Hs s) (Hs (s + 1))) < cfg.delta) := by
  obtain ⟨Ws', Hs', -, -, ht', -, hd', -, hnn', -⟩ := ws_losses g
  obtain ⟨Ws, Hs, h0, h1, ht, -, hu⟩ := ws_traj inv V U (rustUpdatesH cfg) W H g.data g.profiles
  have same : ∀ s, Ws' s = Ws s ∧ Hs' s = Hs s := fun s => by
    have := (ht' s).symm.trans (ht s)
    simpa using this
  have hd : ∀ s, qLoss V U (Ws (s + 1)) (Hs (s + 1)) + wsAmountMoved U (Ws s) (Ws (s + 1)) (Hs s) (Hs (s + 1)) ≤ qLoss V U (Ws s) (Hs s) := fun s => by
    have := hd' s
    rwa [(same s).1, (same s).2, (same (s + 1)).1, (same (s + 1)).2] at this
  have hnn : ∀ s, 0 ≤ qLoss V U (Ws s) (Hs s) := fun s => by
    have := hnn' s
    rwa [(same s).1, (same s).2] at this
  have sums := fun lo T => sum_drops (fun s => qLoss V U (Ws s) (Hs s)) (fun s => wsAmountMoved U (Ws s) (Ws (s + 1)) (Hs s) (Hs (s + 1))) hd lo T
  obtain ⟨r, t, e, t1, t2, t3, t4, t5⟩ := pyLoop_spec (wsLoopStep inv V (weights U)) (lsQPy V U alpha) cfg false 0 (some W, some H) hn
  have hℓ : ∀ j, lossAt (wsLoopStep inv V (weights U)) (lsQPy V U alpha) (rustUpdatesH cfg) (some W, some H) j = (some (qLoss V U (Ws (j + 1)) (Hs (j + 1))), some (qrLoss V U (Ws (j + 1)) (Hs (j + 1)) alpha).1) := fun j => by
    rw [lossAt, ht]
    rfl
  have hlen : r.losses.length = t := by rw [t3]; simp
  refine ⟨r, Ws, Hs, e, h0, h1, hu, by rw [t2, ht, hlen], ?_, fun hc => ?_⟩
  · have a1 := sums 0 t
    have a2 := hnn (0 + t)
    have hQ : qLoss V U W H = ∑ i, ∑ j, ((V i j - ∑ a, W i a * H a j) / U i j) ^ 2 := by
      simp only [qLoss, if_true, ← pow_two]; rfl
    simp only [Nat.zero_add, h0, h1] at a1 a2
    rw [hlen, ← hQ]
    linarith
  · rcases t5 with ⟨-, -, h, -⟩ | ⟨hpos, hstop, -, -⟩
    · rw [h] at hc; cases hc
    · rcases hstop with h | ⟨h2, -, a, b, h3, h4, h5⟩
      · unfold PyNan at h
        rw [hℓ] at h
        simp at h
      · simp only [hℓ, Option.some.injEq] at h3 h4
        rw [show t - 1 + 1 - cfg.convergeN.toNat + 1 = t + 1 - cfg.convergeN.toNat by omega] at h3
        rw [show t - 1 + 1 = t by omega] at h4
        have a1 := sums (t + 1 - cfg.convergeN.toNat) (cfg.convergeN.toNat - 1)
        rw [hlen, Finset.sum_Ico_eq_sum_range, show t - (t + 1 - cfg.convergeN.toNat) = cfg.convergeN.toNat - 1 by omega]
        rw [show t + 1 - cfg.convergeN.toNat + (cfg.convergeN.toNat - 1) = t by omega] at a1
        linarith

/-- **C252 (convergence), the Python loop.** With a positive `converge_delta` such a run converges within `(converge_n - 1) · p + 2` iterations if `p · converge_delta` exceeds the loss of the empty model. -/
theorem C252_python_converges {inv : Mat k k ℝ → Mat k k ℝ} {V U : Mat m n ℝ} {W : Mat m k ℝ} {H : Mat k n ℝ} (alpha : ℝ) (cfg : LoopCfg ℝ) (g : WsProper inv V U (rustUpdatesH cfg) W H) (hδ : 0 < cfg.delta) (hn : 1 ≤ cfg.convergeN) (p : ℕ)
    (hp : (∑ i, ∑ j, (V i j / U i j) ^ 2) < p * cfg.delta) (hmax : (cfg.convergeN - 1) * p + 2 ≤ cfg.maxIter) :
    ∃ r, pyLoop (wsLoopStep inv V (weights U)) (lsQPy V U alpha) cfg true false 0 (some W, some H) = .ok r ∧ r.converged = true ∧ (r.losses.length : ℤ) ≤ (cfg.convergeN - 1) * p + 2 := by
  obtain ⟨Ws, Hs, -, -, ht, -, -, hanti, hnn, hle⟩ := ws_losses g
  exact pyLoop_in_time _ _ cfg _ (fun s => qLoss V U (Ws (s + 1)) (Hs (s + 1))) (fun i => by rw [lossAt, ht]; rfl) (fun i => by rw [lossAt, ht]; simp [lsQPy]) (fun a b h => hanti (by omega)) (fun i => hnn _) hδ hn p
    (lt_of_le_of_lt (hle 0) hp) hmax

/-- **C252 (ls-nmf), the Python loop.** The same bound for ls-nmf from a proper start. -/
theorem C252_python_ls {V U : Mat m n ℝ} {W : Mat m k ℝ} {H : Mat k n ℝ} (g : GoodStart V U W H) (alpha : ℝ) (cfg : LoopCfg ℝ) (hδ : 0 < cfg.delta) (hn : 1 ≤ cfg.convergeN) (p : ℕ)
    (hp : (∑ i, ∑ j, (V i j / U i j) ^ 2) < p * cfg.delta) (hmax : (cfg.convergeN - 1) * p + 2 ≤ cfg.maxIter) :
    ∃ r, lsTrainPy V U alpha cfg W H = .ok r ∧ r.converged = true ∧ (r.losses.length : ℤ) ≤ (cfg.convergeN - 1) * p + 2 := by
  obtain ⟨q, hq, hanti, h0, -⟩ := lossAt_good g (rustUpdatesH cfg)
  obtain ⟨Ws, Hs, -, -, ht, hpos, hu⟩ := traj_updates g (rustUpdatesH cfg)
  have hq' : ∀ i, qLoss V U (Ws (i + 1)) (Hs (i + 1)) = q i := fun i => by
    have e := hq i
    rw [lossAt, ht] at e
    exact Option.some.inj e
  exact pyLoop_in_time _ _ cfg _ q (fun i => by rw [lossAt, ht, ← hq']; rfl) (fun i => by rw [lossAt, ht]; simp [lsQPy]) hanti h0 hδ hn p
    (lt_of_le_of_lt (hq' 0 ▸ (C246_empty_model V U _ _ _ _ _ g.data (fun i a => ((hpos 0).1 i a).le) (fun a j => ((hpos 0).2 a j).le) (hu 0)).2) hp) hmax

/-- **C248 (ws-nmf), the Python loop.** A run of at least one iteration is the same for all starting contributions. -/
theorem C248_python_ws (inv : Mat k k ℝ → Mat k k ℝ) (V U : Mat m n ℝ) (cfg : LoopCfg ℝ) (loss : Option (Mat m k ℝ) × Option (Mat k n ℝ) → Option ℝ × Option ℝ) (hmax : 0 < cfg.maxIter) (W W' : Mat m k ℝ) (H : Mat k n ℝ) (a c0 : Bool) (k0 : ℕ) :
    pyLoop (wsLoopStep inv V (weights U)) loss cfg a c0 k0 (some W, some H) = pyLoop (wsLoopStep inv V (weights U)) loss cfg a c0 k0 (some W', some H) :=
  pyLoop_forgets _ _ cfg a c0 k0 _ _ hmax rfl

/-- **C256 (runs), the Python loop.** For every accuracy there are arbitrarily large `max_iter` with which the Python loop with `converge_delta ≤ 0` returns factors whose balances are all below it. -/
theorem C256_python {inv : Mat k k ℝ → Mat k k ℝ} {V U : Mat m n ℝ} {W : Mat m k ℝ} {H : Mat k n ℝ} (g : WsProper inv V U (fun _ => true) W H) (hU : ∀ i j, U i j ≠ 0) (ε : ℝ) (hε : 0 < ε) (T : ℕ) :
    ∃ N : ℕ, T ≤ N ∧ ∀ (alpha : ℝ) (cfg : LoopCfg ℝ), 1 ≤ cfg.convergeN → cfg.holdH = false → cfg.delta ≤ 0 → cfg.maxIter = N →
      ∃ r W' H', pyLoop (wsLoopStep inv V (weights U)) (lsQPy V U alpha) cfg true false 0 (some W, some H) = .ok r ∧ r.factors = (some W', some H') ∧
        (∀ a j, |∑ i, W' i a * H' a j * ((∑ b, W' i b * H' b j) - V i j) / U i j ^ 2| < ε) ∧ ∀ i a, |∑ j, W' i a * H' a j * ((∑ b, W' i b * H' b j) - V i j) / U i j ^ 2| < ε := by
  obtain ⟨Ws, Hs, -, -, ht, -, hf, -⟩ := C256_limit g hU
  obtain ⟨N, hN, h1, h2⟩ := hf ε hε T
  refine ⟨N, hN, fun alpha cfg hn hh hδ hm => ?_⟩
  have hfl : rustUpdatesH cfg = fun _ => true := by
    funext i
    simp [rustUpdatesH, hh]
  obtain ⟨r, -, -, qs, e, -, hq, -, -, -, -, c1, c2, -⟩ := C252_python alpha cfg (hfl ▸ g) hn
  obtain ⟨r', t, e', -, t2, t3, -⟩ := pyLoop_spec (wsLoopStep inv V (weights U)) (lsQPy V U alpha) cfg false 0 (some W, some H) hn
  obtain rfl : r = r' := by rw [e] at e'; exact Except.ok.inj e'
  have hl : r.losses.length = t := by rw [t3]; simp
  have hl' : r.losses.length = qs.length := by rw [hq]; simp
  have htN : t = N := by
    have := c2 (c1 hδ)
    omega
  subst htN
  rw [hfl, ht] at t2
  exact ⟨r, Ws t, Hs t, e, t2, h1, h2⟩

/-- **C260, the Python loop.** As `C260_train`, for all values of `robust_alpha`. -/
theorem C260_python {V U : Mat m n ℝ} {W : Mat m k ℝ} {H : Mat k n ℝ} (g : GoodStart V U W H) :
    ∃ X : Mat m k ℝ, (∀ i a, 0 ≤ X i a) ∧ (∀ Y : Mat m k ℝ, (∀ i a, 0 ≤ Y i a) → ∑ i, ∑ j, ((V i j - ∑ a, X i a * H a j) / U i j) ^ 2 ≤ ∑ i, ∑ j, ((V i j - ∑ a, Y i a * H a j) / U i j) ^ 2) ∧
      ∀ ε : ℝ, 0 < ε → ∃ T : ℕ, ∀ (alpha : ℝ) (cfg : LoopCfg ℝ), 1 ≤ cfg.convergeN → cfg.holdH = true → cfg.delayH ≤ 0 → 0 < cfg.maxIter →
        ∃ r W', lsTrainPy V U alpha cfg W H = .ok r ∧ r.factors = (some W', some H) ∧
          (∑ i, ∑ j, ((V i j - ∑ a, W' i a * H a j) / U i j) ^ 2) ≤ (∑ i, ∑ j, ((V i j - ∑ a, X i a * H a j) / U i j) ^ 2) + solutionGap V (fun i j => 1 / U i j ^ 2) H X W / r.losses.length ∧
          (T ≤ r.losses.length → ∀ i a, |W' i a - X i a| < ε) := by
  obtain ⟨Ws, Hs, u, rfl, rfl, htraj⟩ := hold_updates g
  obtain ⟨X, hb, hX⟩ := C260_limit u g.cols g.row (weights_pos g.unc) g.w g.h
  have hH : ∀ t, Hs t = Hs 0 := fun t => (C238_rate u g.cols g.row (weights_pos g.unc) g.w g.h X hb.nonneg t).1
  have hQ : ∀ Y : Mat m k ℝ, (∑ i, ∑ j, weights U i j * (V i j - ∑ a, Y i a * Hs 0 a j) ^ 2) = ∑ i, ∑ j, ((V i j - ∑ a, Y i a * Hs 0 a j) / U i j) ^ 2 := fun Y =>
    Finset.sum_congr rfl fun i _ => Finset.sum_congr rfl fun j _ => by rw [weights, div_pow, one_div_mul_eq_div]
  refine ⟨X, hb.nonneg, fun Y hY => by rw [← hQ, ← hQ]; exact hb.best Y hY, fun ε hε => ?_⟩
  have hev : ∀ᶠ t in Filter.atTop, ∀ i a, |Ws t i a - X i a| < ε := by
    rw [Filter.eventually_all]
    intro i
    rw [Filter.eventually_all]
    intro a
    exact (Metric.tendsto_nhds.1 (hX i a)) ε hε
  obtain ⟨T, hT⟩ := Filter.eventually_atTop.1 hev
  refine ⟨T, fun alpha cfg hn hh hd hm => ?_⟩
  have hf : rustUpdatesH cfg = fun _ => false := by
    funext i
    simp [rustUpdatesH, hh, show ¬ (0 < cfg.delayH) by omega]
  obtain ⟨Ws', Hs', t, r, e, -, -, -, -, htr, hlen, -, hfac, -, hc, hnc⟩ := lsTrainPy_course g alpha cfg hn
  have ht : 1 ≤ t := by
    cases hb : r.converged
    · have := hnc hb; omega
    · have := (hc hb).1; omega
  rw [hf] at htr
  replace htr := htr t
  rw [htraj] at htr
  refine ⟨r, Ws t, e, by rw [hfac, ← htr, hH t], ?_, fun h => hT t (hlen ▸ h)⟩
  rw [← hQ, ← hQ, hlen]
  have := C260_rate u g.cols g.row (weights_pos g.unc) g.w g.h hb t ht
  rwa [hH t] at this

/-- Every run with one factor and positive data: with the sum of `(V/U)²` below 12 and `converge_delta = 1/10`, `converge_n = 3` it converges within 242 iterations. -/
example (V U : Mat 5 4 ℝ) (W : Mat 5 1 ℝ) (H : Mat 1 4 ℝ) (hV : ∀ i j, 0 ≤ V i j) (hU : ∀ i j, U i j ≠ 0) (hH : ∀ a j, 0 < H a j) (h : (∑ i, ∑ j, (V i j / U i j) ^ 2) < 12) :=
  C252_python_converges (inv := fun A _ _ => 1 / A 0 0) 4 ⟨300, 1 / 10, 3, false, 0⟩ (C252_one_factor _ (fun _ _ => rfl) V U W H _ (by norm_num) hV hU hH) (by norm_num) (by norm_num) 120 (by norm_num; exact h) (by norm_num)

end

end Esat
