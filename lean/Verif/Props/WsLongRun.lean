import Verif.Props.LongRun
import Verif.Props.WsRuns
import Mathlib.Analysis.PSeries
import Mathlib.Algebra.Order.Chebyshev

/-!
# C256: ws-nmf in the long run

The balances of C255 for ws-nmf, as long as the recomputed contributions are non-negative.
-/

namespace Esat

open Filter Topology

variable {m n k : ℕ}

/-! ## One update -/

theorem ratio_drop (N D ε h : ℝ) (hε : 0 < ε) (hD : 0 ≤ D) (hh : 0 ≤ h) (h0 : 0 ≤ (N + ε) / (D + ε)) :
    let r := Real.sqrt ((N + ε) / (D + ε))
    h * (D * r ^ 2 - 2 * N * r) + h * ((r - 1) ^ 2 * ((D + ε) * (1 + r))) ≤ h * (D - 2 * N) ∧
      (h * (D - N)) ^ 2 ≤ (2 * (h * D) + h * N + 3 * ε * h) * (h * ((r - 1) ^ 2 * ((D + ε) * (1 + r)))) := by
  intro r
  have hDε : 0 < D + ε := by linarith
  have hr0 : 0 ≤ r := Real.sqrt_nonneg _
  have hr2 : r ^ 2 * (D + ε) = N + ε := by rw [show r ^ 2 = (N + ε) / (D + ε) from Real.sq_sqrt h0, div_mul_cancel₀ _ hDε.ne']
  have hN : N = r ^ 2 * D + ε * (r ^ 2 - 1) := by linarith
  constructor
  · have key : D - 2 * N - (D * r ^ 2 - 2 * N * r + (r - 1) ^ 2 * ((D + ε) * (1 + r))) = (r - 1) ^ 2 * (r * D + ε * (1 + r)) := by rw [hN]; ring
    have h1 : 0 ≤ (r - 1) ^ 2 * (r * D + ε * (1 + r)) := by positivity
    have h2 := mul_nonneg hh (key ▸ h1)
    linarith
  · have e1 : (h * (D - N)) ^ 2 = (h * ((D + ε) * (1 + r))) * (h * ((r - 1) ^ 2 * ((D + ε) * (1 + r)))) := by rw [hN]; ring
    rw [e1]
    refine mul_le_mul_of_nonneg_right ?_ (by positivity)
    have e2 : 2 * (h * D) + h * N + 3 * ε * h - h * ((D + ε) * (1 + r)) = h * (D + ε) * ((r - 1 / 2) ^ 2 + 3 / 4) := by rw [hN]; ring
    have : 0 ≤ h * (D + ε) * ((r - 1 / 2) ^ 2 + 3 / 4) := by positivity
    linarith

theorem entry_growth (D ε h r : ℝ) (hε : 0 < ε) (hD : 0 ≤ D) (hh : 0 ≤ h) (hr : 0 ≤ r) (d : ℝ) (hd : h * ((r - 1) ^ 2 * ((D + ε) * (1 + r))) ≤ d) : √(h * r) ≤ √h + √(d / ε) := by
  have h1 : h * (r - 1) ^ 2 ≤ d / ε := by
    rw [le_div_iff₀ hε]
    refine le_trans ?_ hd
    have h2 : 0 ≤ h * (r - 1) ^ 2 := by positivity
    have h3 : ε ≤ (D + ε) * (1 + r) := by nlinarith
    nlinarith [mul_le_mul_of_nonneg_left h3 h2]
  have h2 : √h * |r - 1| ≤ √(d / ε) := by
    refine Real.le_sqrt_of_sq_le ?_
    rw [mul_pow, Real.sq_sqrt hh, sq_abs]
    exact h1
  have h3 : √r ≤ 1 + |r - 1| := by
    rw [Real.sqrt_le_left (by positivity)]
    nlinarith [abs_nonneg (r - 1), le_abs_self (r - 1)]
  rw [Real.sqrt_mul hh]
  nlinarith [mul_le_mul_of_nonneg_left h3 (Real.sqrt_nonneg h)]

/-- What the profile step does with non-negative contributions. -/
theorem ws_profiles_drop (V U : Mat m n ℝ) (W : Mat m k ℝ) (H H' : Mat k n ℝ) (hH : ∀ a j, 0 ≤ H a j) (hW : ∀ i a, 0 ≤ W i a) (h : wsStepH V (weights U) W H = some H') :
    ∃ s : Fin k → Fin n → ℝ, (∀ a j, 0 ≤ s a j) ∧ qLoss V U W H' + ∑ j, ∑ a, s a j ≤ qLoss V U W H ∧ ∀ a j,
      featureBalance V U (amounts W H) a j ^ 2 ≤
        (2 * (∑ i, W i a * H a j * (∑ b, W i b * H b j) / U i j ^ 2) + (∑ i, W i a * H a j * V i j / U i j ^ 2) + 3 / 1000000000000 * H a j) * s a j ∧
      √(H' a j) ≤ √(H a j) + √(s a j / (1 / 1000000000000)) := by
  have he : ∀ i j, 0 ≤ weights U i j := weights_nonneg' U
  obtain ⟨h3, h4⟩ := wsStepH_eq_some.1 h
  have hneg : wsNeg W = fun _ _ => 0 := by
    funext i a; simp only [wsNeg, abs_of_nonneg (hW i a), sub_self, zero_div]
  have hpos : wsPos W = W := by
    funext i a; simp only [wsPos, abs_of_nonneg (hW i a)]; ring
  have hD : ∀ a j, wsQuad (weights U) W H a j = ∑ i, W i a * (weights U i j * ∑ b, W i b * H b j) := fun a j => by
    simp only [wsQuad, Finset.mul_sum]
    rw [Finset.sum_comm]
    exact Finset.sum_congr rfl fun i _ => Finset.sum_congr rfl fun b _ => by ring
  have hn : ∀ a j, wsNum V (weights U) W H a j = wsLin V (weights U) W a j + wsEps := fun a j => by simp [wsNum, hneg, hpos, wsQuad]
  have hd : ∀ a j, wsDen V (weights U) W H a j = wsQuad (weights U) W H a j + wsEps := fun a j => by simp [wsDen, hneg, hpos, wsLin]
  have hq0 : ∀ a j, 0 ≤ wsQuad (weights U) W H a j := fun a j => wsQuad_nonneg he hW hH a j
  have hε : wsEps = 1 / 1000000000000 := rfl
  set r : Fin k → Fin n → ℝ := fun a j => Real.sqrt ((wsLin V (weights U) W a j + wsEps) / (wsQuad (weights U) W H a j + wsEps)) with hr
  have h5 : ∀ a j, 0 ≤ (wsLin V (weights U) W a j + wsEps) / (wsQuad (weights U) W H a j + wsEps) := fun a j => by
    have := (h3 a j).2
    rwa [hn, hd] at this
  have h6 : ∀ a j, H' a j = H a j * r a j := fun a j => by rw [h4 a j, hn, hd]
  have kd := fun a j => ratio_drop (wsLin V (weights U) W a j) (wsQuad (weights U) W H a j) wsEps (H a j) wsEps_pos (hq0 a j) (hH a j) (h5 a j)
  refine ⟨fun a j => H a j * ((r a j - 1) ^ 2 * ((wsQuad (weights U) W H a j + wsEps) * (1 + r a j))), fun a j => ?_, ?_, fun a j => ⟨?_, ?_⟩⟩
  · have := hH a j
    have := hq0 a j
    have := wsEps_pos
    have : 0 ≤ r a j := Real.sqrt_nonneg _
    positivity
  · have hc : ∀ X : Mat k n ℝ, qLoss V U W X = ∑ j, ∑ i, weights U i j * (V i j - ∑ a, W i a * X a j) ^ 2 := fun X => by
      rw [← totalLoss_eq]; exact Finset.sum_comm
    rw [hc, hc, ← Finset.sum_add_distrib]
    refine Finset.sum_le_sum fun j _ => ?_
    exact sum_square_drop (fun i a => W i a) (fun i => weights U i j) (fun i => V i j) (fun a => H a j) (fun a => H' a j) (fun a => wsLin V (weights U) W a j) (fun a => wsQuad (weights U) W H a j)
      (fun a => r a j) _ (fun i => he i j) (fun i a => mul_nonneg (hW i a) (hH a j)) (fun a => Finset.sum_congr rfl fun i _ => mul_comm _ _) (fun a => hD a j) (fun a => h6 a j) (fun a => (kd a j).1)
  · have k2 := (kd a j).2
    have e1 : H a j * wsQuad (weights U) W H a j = ∑ i, W i a * H a j * (∑ b, W i b * H b j) / U i j ^ 2 := by
      rw [hD, Finset.mul_sum]
      exact Finset.sum_congr rfl fun i _ => by rw [weights]; ring
    have e2 : H a j * wsLin V (weights U) W a j = ∑ i, W i a * H a j * V i j / U i j ^ 2 := by
      rw [wsLin, Finset.mul_sum]
      exact Finset.sum_congr rfl fun i _ => by rw [weights]; ring
    have e3 : featureBalance V U (amounts W H) a j = H a j * (wsQuad (weights U) W H a j - wsLin V (weights U) W a j) := by
      rw [mul_sub, e1, e2, ← Finset.sum_sub_distrib]
      unfold featureBalance amounts
      exact Finset.sum_congr rfl fun i _ => by ring
    rw [e3]
    rw [e1, e2] at k2
    rw [show 3 * wsEps * H a j = 3 / 1000000000000 * H a j by rw [hε]; ring] at k2
    exact k2
  · rw [h6, ← hε]
    exact entry_growth _ _ _ _ wsEps_pos (hq0 a j) (hH a j) (Real.sqrt_nonneg _) _ le_rfl

/-- **C256, one update.** The new contributions balance exactly against the old profiles; the square of each balance of the profiles is bounded by the decrease of Q. -/
theorem C256_update (inv : Mat k k ℝ → Mat k k ℝ) (V U : Mat m n ℝ) (W W' : Mat m k ℝ) (H H' : Mat k n ℝ) (hV : ∀ i j, 0 ≤ V i j) (hH : ∀ a j, 0 ≤ H a j)
    (hinv : ∀ i, IsLeftInverse (inv (fun a b => ∑ j, H a j * (weights U i j * H b j))) (fun a b => ∑ j, H a j * (weights U i j * H b j)))
    (h : wsUpdate inv V (weights U) false W H = (W', some H')) (hW : ∀ i a, 0 ≤ W' i a) :
    (∀ i a, ∑ j, H a j * ((∑ b, W' i b * H b j) - V i j) / U i j ^ 2 = 0) ∧
    (∀ i a, sampleBalance V U (amounts W' H) i a = 0) ∧
    ∀ a j, featureBalance V U (amounts W' H) a j ^ 2 ≤
      (2 * (∑ i, W' i a * H a j * (∑ b, W' i b * H b j) / U i j ^ 2) + (∑ i, W' i a * H a j * V i j / U i j ^ 2) + 3 / 1000000000000 * H a j) * (qLoss V U W H - qLoss V U W' H') := by
  have h1 : wsStepW inv V (weights U) H = W' := congrArg Prod.fst h
  have h2 : wsStepH V (weights U) W' H = some H' := by
    have := congrArg Prod.snd h
    simpa [wsUpdate, h1] using this
  have f1 : ∀ i a, ∑ j, H a j * ((∑ b, W' i b * H b j) - V i j) / U i j ^ 2 = 0 := fun i a => by
    have hz := wsStepW_normal inv V (weights U) H i (hinv i) a
    rw [h1] at hz
    have e1 : ∑ b, W' i b * ∑ j, H b j * (weights U i j * H a j) = ∑ j, H a j * (∑ b, W' i b * H b j) / U i j ^ 2 := by
      simp only [Finset.mul_sum, Finset.sum_div]
      rw [Finset.sum_comm]
      exact Finset.sum_congr rfl fun j _ => Finset.sum_congr rfl fun b _ => by rw [weights]; ring
    have e2 : ∑ j, H a j * (weights U i j * V i j) = ∑ j, H a j * V i j / U i j ^ 2 := Finset.sum_congr rfl fun j _ => by rw [weights]; ring
    rw [e1, e2] at hz
    simp only [mul_sub, sub_div, Finset.sum_sub_distrib]
    linarith
  refine ⟨f1, fun i a => ?_, fun a j => ?_⟩
  · have := congrArg (W' i a * ·) (f1 i a)
    simp only [mul_zero, Finset.mul_sum] at this
    rw [← this]
    unfold sampleBalance amounts
    exact Finset.sum_congr rfl fun j _ => by ring
  · obtain ⟨s, s1, s2, s3⟩ := ws_profiles_drop V U W' H H' hH hW h2
    have q1 := (C252_update inv V U true W W' H H hH hinv (by simp [wsUpdate, h1]) hW).2.1 W
    refine ((s3 a j).1).trans (mul_le_mul_of_nonneg_left ?_ ?_)
    · have : s a j ≤ ∑ j, ∑ a, s a j :=
        (Finset.single_le_sum (f := fun a => s a j) (fun a _ => s1 a j) (Finset.mem_univ a)).trans
          (Finset.single_le_sum (f := fun j => ∑ a, s a j) (fun j _ => Finset.sum_nonneg fun a _ => s1 a j) (Finset.mem_univ j))
      linarith
    · have a1 : 0 ≤ ∑ i, W' i a * H a j * (∑ b, W' i b * H b j) / U i j ^ 2 := Finset.sum_nonneg fun i _ =>
        div_nonneg (mul_nonneg (mul_nonneg (hW i a) (hH a j)) (Finset.sum_nonneg fun b _ => mul_nonneg (hW i b) (hH b j))) (sq_nonneg _)
      have a2 : 0 ≤ ∑ i, W' i a * H a j * V i j / U i j ^ 2 := Finset.sum_nonneg fun i _ => div_nonneg (mul_nonneg (mul_nonneg (hW i a) (hH a j)) (hV i j)) (sq_nonneg _)
      have := hH a j
      positivity

/-! ## The long run -/

/-- Amounts that come closer and closer to bounded amounts have balances that do so. -/
theorem balance_close (V U : Mat m n ℝ) (A B : ℕ → Fin m → Fin k → Fin n → ℝ) (M : ℝ) (hM : ∀ t i a j, |A t i a j| ≤ M) (hc : ∀ i a j, Tendsto (fun t => B t i a j - A t i a j) atTop (𝓝 0)) :
    (∀ a j, Tendsto (fun t => featureBalance V U (B t) a j - featureBalance V U (A t) a j) atTop (𝓝 0)) ∧
    ∀ i a, Tendsto (fun t => sampleBalance V U (B t) i a - sampleBalance V U (A t) i a) atTop (𝓝 0) := by
  have cell : ∀ i a j, Tendsto (fun t => B t i a j * ((∑ b, B t i b j) - V i j) / U i j ^ 2 - A t i a j * ((∑ b, A t i b j) - V i j) / U i j ^ 2) atTop (𝓝 0) := by
    intro i a j
    have b1 : IsBoundedUnder (· ≤ ·) atTop ((‖·‖) ∘ fun t => A t i a j) := isBoundedUnder_of ⟨M, fun t => hM t i a j⟩
    have b2 : IsBoundedUnder (· ≤ ·) atTop ((‖·‖) ∘ fun t => (∑ b, A t i b j) - V i j) := isBoundedUnder_of ⟨(∑ _b : Fin k, M) + |V i j|, fun t => by
      show |(∑ b, A t i b j) - V i j| ≤ _
      refine (abs_sub _ _).trans (add_le_add_left ?_ _)
      exact (Finset.abs_sum_le_sum_abs _ _).trans (Finset.sum_le_sum fun b _ => hM t i b j)⟩
    have hs : Tendsto (fun t => ∑ b, (B t i b j - A t i b j)) atTop (𝓝 0) := by
      simpa using tendsto_finset_sum (Finset.univ : Finset (Fin k)) fun b _ => hc i b j
    have c1 := (hc i a j).zero_mul_isBoundedUnder_le b2
    have c2 := hs.zero_mul_isBoundedUnder_le b1
    have c3 := (hc i a j).mul hs
    have := ((c1.add c2).add c3).div_const (U i j ^ 2)
    rw [show ((0 : ℝ) + 0 + 0 * 0) / U i j ^ 2 = 0 by simp] at this
    refine this.congr fun t => ?_
    simp only [Finset.sum_sub_distrib]
    ring
  constructor
  · intro a j
    have := tendsto_finset_sum (Finset.univ : Finset (Fin m)) fun i _ => cell i a j
    simpa [featureBalance, Finset.sum_sub_distrib] using this
  · intro i a
    have := tendsto_finset_sum (Finset.univ : Finset (Fin n)) fun j _ => cell i a j
    simpa [sampleBalance, Finset.sum_sub_distrib] using this

/-- A sequence below a linear function times the terms of a convergent series is small again and again. -/
theorem small_again (β d : ℕ → ℝ) (c : ℝ) (hc : 0 < c) (hd : Summable d) (h : ∀ t, β t ≤ c * (t + 1) * d t) (η : ℝ) (hη : 0 < η) (T : ℕ) : ∃ t, T ≤ t ∧ β t < η := by
  by_contra hno
  push Not at hno
  have h1 : ∀ t, η / c * (1 / ((t + (T + 1) : ℕ) : ℝ)) ≤ d (t + T) := fun t => by
    have e := (hno (t + T) (Nat.le_add_left _ _)).trans (h (t + T))
    have hp : (0 : ℝ) < ((t + (T + 1) : ℕ) : ℝ) := by positivity
    have e2 : ((t + T : ℕ) : ℝ) + 1 = ((t + (T + 1) : ℕ) : ℝ) := by push_cast; ring
    rw [e2] at e
    rw [div_mul_div_comm, mul_one, div_le_iff₀ (mul_pos hc hp)]
    linarith
  have h2 : Summable fun t : ℕ => η / c * (1 / ((t + (T + 1) : ℕ) : ℝ)) :=
    Summable.of_nonneg_of_le (fun t => by positivity) h1 ((summable_nat_add_iff T).2 hd)
  have h3 : Summable fun t : ℕ => 1 / ((t + (T + 1) : ℕ) : ℝ) := by
    have := h2.mul_left (c / η)
    refine this.congr fun t => ?_
    rw [← mul_assoc, div_mul_div_comm, mul_comm c η, div_self (by positivity), one_mul]
  exact Real.not_summable_one_div_natCast ((summable_nat_add_iff (f := fun t : ℕ => 1 / (t : ℝ)) (T + 1)).1 h3)

/-- Numbers whose roots grow by at most the roots of the terms of a series grow at most linearly. -/
theorem roots_grow (h d : ℕ → ℝ) (Q : ℝ) (hh : ∀ t, 0 ≤ h t) (hd : ∀ t, 0 ≤ d t) (hs : ∀ T, ∑ t ∈ Finset.range T, d t ≤ Q) (hg : ∀ t, √(h (t + 1)) ≤ √(h t) + √(d t)) (t : ℕ) :
    h t ≤ 2 * h 0 + 2 * t * Q := by
  have h1 : ∀ t, √(h t) ≤ √(h 0) + ∑ s ∈ Finset.range t, √(d s) := by
    intro t
    induction t with
    | zero => simp
    | succ t ih => rw [Finset.sum_range_succ]; linarith [hg t]
  have h2 : (∑ s ∈ Finset.range t, √(d s)) ^ 2 ≤ t * Q := by
    have := sq_sum_le_card_mul_sum_sq (s := Finset.range t) (f := fun s => √(d s))
    rw [Finset.card_range] at this
    refine this.trans (mul_le_mul_of_nonneg_left ?_ (Nat.cast_nonneg t))
    simp only [Real.sq_sqrt (hd _)]
    exact hs t
  have h3 := h1 t
  have h4 := pow_le_pow_left₀ (Real.sqrt_nonneg (h t)) h3 2
  rw [Real.sq_sqrt (hh t)] at h4
  have h5 := Real.sq_sqrt (hh 0)
  nlinarith [sq_nonneg (√(h 0) - ∑ s ∈ Finset.range t, √(d s))]

/-- **C256, limit.** A proper ws-nmf run without `hold_h`, however long: every balance of the contributions tends to zero; all balances of the profiles are small again and again; and they tend to zero if the profiles stay bounded. -/
theorem C256_limit {inv : Mat k k ℝ → Mat k k ℝ} {V U : Mat m n ℝ} {W : Mat m k ℝ} {H : Mat k n ℝ} (g : WsProper inv V U (fun _ => true) W H) (hU : ∀ i j, U i j ≠ 0) :
    ∃ (Ws : ℕ → Mat m k ℝ) (Hs : ℕ → Mat k n ℝ), Ws 0 = W ∧ Hs 0 = H ∧ (∀ s, traj (wsLoopStep inv V (weights U)) (fun _ => true) (some W, some H) s = (some (Ws s), some (Hs s))) ∧
      (∀ i a, Tendsto (fun t => sampleBalance V U (amounts (Ws t) (Hs t)) i a) atTop (𝓝 0)) ∧
      (∀ ε, 0 < ε → ∀ T, ∃ t, T ≤ t ∧ (∀ a j, |featureBalance V U (amounts (Ws t) (Hs t)) a j| < ε) ∧ ∀ i a, |sampleBalance V U (amounts (Ws t) (Hs t)) i a| < ε) ∧
      ((∃ B, ∀ t a j, Hs t a j ≤ B) → ∀ a j, Tendsto (fun t => featureBalance V U (amounts (Ws t) (Hs t)) a j) atTop (𝓝 0)) := by
  obtain ⟨Ws, Hs, h0, h1, ht, hp, hu⟩ := ws_traj inv V U (fun _ => true) W H g.data g.profiles
  refine ⟨Ws, Hs, h0, h1, ht, ?_⟩
  have hinv := fun s => g.inverse s (Hs s) (by rw [ht])
  have hW := fun s => g.contributions s (Ws (s + 1)) (by rw [ht])
  have hH : ∀ s a j, 0 ≤ Hs s a j := fun s a j => (hp s a j).le
  have hu' : ∀ s, wsUpdate inv V (weights U) false (Ws s) (Hs s) = (Ws (s + 1), some (Hs (s + 1))) := hu
  set q : ℕ → ℝ := fun t => qLoss V U (Ws t) (Hs t) with hq
  set S : ℝ := ∑ i, ∑ j, (V i j / U i j) ^ 2 with hS
  have key := fun s => C252_update inv V U false _ _ _ _ (hH s) (hinv s) (hu' s) (hW s)
  have hstepW : ∀ s, wsStepW inv V (weights U) (Hs s) = Ws (s + 1) := fun s => congrArg Prod.fst (hu' s)
  have hstepH : ∀ s, wsStepH V (weights U) (Ws (s + 1)) (Hs s) = some (Hs (s + 1)) := fun s => by
    have := congrArg Prod.snd (hu' s)
    simpa [wsUpdate, hstepW s] using this
  have keyW := fun s => C252_update inv V U true (Ws s) (Ws (s + 1)) (Hs s) (Hs s) (hH s) (hinv s) (by simp [wsUpdate, hstepW s]) (hW s)
  have hqnn : ∀ (X : Mat m k ℝ) (Y : Mat k n ℝ), 0 ≤ qLoss V U X Y := fun X Y => by
    rw [qLoss_amounts]
    exact Finset.sum_nonneg fun i _ => Finset.sum_nonneg fun j _ => sq_nonneg _
  have hanti : Antitone q := antitone_nat_of_succ_le fun s => (key s).2.1 (Ws s)
  set d : ℕ → ℝ := fun t => q t - q (t + 1) with hd
  have hd0 : ∀ t, 0 ≤ d t := fun t => sub_nonneg.2 (hanti (Nat.le_succ t))
  have hdsum : ∀ T, ∑ t ∈ Finset.range T, d t ≤ q 0 := fun T => by
    rw [Finset.sum_range_sub']
    linarith [hqnn (Ws T) (Hs T)]
  have hdS : Summable d := summable_of_sum_range_le hd0 hdsum
  have hdt : Tendsto d atTop (𝓝 0) := hdS.tendsto_atTop_zero
  -- the amounts between the two half steps
  set M : ℕ → Fin m → Fin k → Fin n → ℝ := fun t => amounts (Ws (t + 1)) (Hs t) with hM
  have hM0 : ∀ t i a j, 0 ≤ M t i a j := fun t i a j => mul_nonneg (hW t i a) (hH t a j)
  have hMS : ∀ t, ∑ i, ∑ j, ((∑ a, M t i a j) / U i j) ^ 2 ≤ 4 * S := fun t => by
    have e1 := model_bound V U (M t)
    have e2 : amountsLoss V U (M t) ≤ S := by rw [hM, ← qLoss_amounts]; exact (keyW t).2.2
    linarith
  have hS0 : 0 ≤ S := Finset.sum_nonneg fun i _ => Finset.sum_nonneg fun j _ => sq_nonneg _
  have hcol : ∀ t j, ∑ i, ((∑ a, M t i a j) / U i j) ^ 2 ≤ 4 * S := fun t j => by
    refine le_trans ?_ (hMS t)
    rw [Finset.sum_comm]
    exact Finset.single_le_sum (f := fun j => ∑ i, ((∑ a, M t i a j) / U i j) ^ 2) (fun j _ => Finset.sum_nonneg fun i _ => sq_nonneg _) (Finset.mem_univ j)
  have hVcol : ∀ j, ∑ i, (V i j / U i j) ^ 2 ≤ S := fun j => by
    rw [hS, Finset.sum_comm]
    exact Finset.single_le_sum (f := fun j => ∑ i, (V i j / U i j) ^ 2) (fun j _ => Finset.sum_nonneg fun i _ => sq_nonneg _) (Finset.mem_univ j)
  have hle : ∀ t i a j, M t i a j ≤ ∑ b, M t i b j := fun t i a j => Finset.single_le_sum (f := fun b => M t i b j) (fun b _ => hM0 t i b j) (Finset.mem_univ a)
  have hMb : ∀ t i a j, |M t i a j| ≤ (∑ i, ∑ j, |U i j|) * √(4 * S) := fun t i a j => by
    rw [abs_of_nonneg (hM0 t i a j)]
    have e1 : ((∑ a, M t i a j) / U i j) ^ 2 ≤ 4 * S :=
      (Finset.single_le_sum (f := fun i => ((∑ a, M t i a j) / U i j) ^ 2) (fun i _ => sq_nonneg _) (Finset.mem_univ i)).trans (hcol t j)
    have e2 := Real.abs_le_sqrt e1
    rw [abs_div, div_le_iff₀ (abs_pos.2 (hU i j)), mul_comm] at e2
    have e3 : |U i j| ≤ ∑ i, ∑ j, |U i j| :=
      (Finset.single_le_sum (f := fun j => |U i j|) (fun j _ => abs_nonneg _) (Finset.mem_univ j)).trans
        (Finset.single_le_sum (f := fun i => ∑ j, |U i j|) (fun i _ => Finset.sum_nonneg fun j _ => abs_nonneg _) (Finset.mem_univ i))
    exact (hle t i a j).trans ((le_abs_self _).trans (e2.trans (mul_le_mul_of_nonneg_right e3 (Real.sqrt_nonneg _))))
  have hX : ∀ t a j, ∑ i, Ws (t + 1) i a * Hs t a j * (∑ b, Ws (t + 1) i b * Hs t b j) / U i j ^ 2 ≤ 4 * S := fun t a j => by
    refine le_trans (Finset.sum_le_sum fun i _ => ?_) (hcol t j)
    rw [div_pow]
    refine div_le_div_of_nonneg_right ?_ (sq_nonneg _)
    rw [pow_two]
    exact mul_le_mul_of_nonneg_right (hle t i a j) (Finset.sum_nonneg fun b _ => hM0 t i b j)
  have hY : ∀ t a j, ∑ i, Ws (t + 1) i a * Hs t a j * V i j / U i j ^ 2 ≤ 5 * S := fun t a j => by
    have e1 : ∑ i, Ws (t + 1) i a * Hs t a j * V i j / U i j ^ 2 ≤ ∑ i, (((∑ a, M t i a j) / U i j) ^ 2 + (V i j / U i j) ^ 2) := by
      refine Finset.sum_le_sum fun i _ => ?_
      rw [div_pow, div_pow, ← add_div]
      refine div_le_div_of_nonneg_right ?_ (sq_nonneg _)
      have e2 := mul_le_mul_of_nonneg_right (hle t i a j) (g.data i j)
      have e3 : Ws (t + 1) i a * Hs t a j = M t i a j := rfl
      rw [e3]
      nlinarith [sq_nonneg ((∑ b, M t i b j) - V i j), sq_nonneg (∑ b, M t i b j), sq_nonneg (V i j)]
    rw [Finset.sum_add_distrib] at e1
    linarith [hcol t j, hVcol j]
  have hb : ∀ t a j, featureBalance V U (M t) a j ^ 2 ≤ (13 * S + 3 / 1000000000000 * Hs t a j) * d t := fun t a j =>
    ((C256_update inv V U _ _ _ _ g.data (hH t) (hinv t) (hu' t) (hW t)).2.2 a j).trans (mul_le_mul_of_nonneg_right (by linarith [hX t a j, hY t a j]) (hd0 t))
  -- the growth of the profiles
  have hgrow : ∀ t a j, Hs t a j ≤ 2 * H a j + 2 * t * (q 0 * 1000000000000) := fun t a j => by
    have := roots_grow (fun t => Hs t a j) (fun t => d t / (1 / 1000000000000)) (q 0 * 1000000000000) (fun t => hH t a j) (fun t => div_nonneg (hd0 t) (by norm_num))
      (fun T => by rw [← Finset.sum_div, div_div_eq_mul_div, div_one]; exact mul_le_mul_of_nonneg_right (hdsum T) (by norm_num)) (fun t => by
        obtain ⟨s, s1, s2, s3⟩ := ws_profiles_drop V U (Ws (t + 1)) (Hs t) (Hs (t + 1)) (hH t) (hW t) (hstepH t)
        refine (s3 a j).2.trans (add_le_add_right (Real.sqrt_le_sqrt (div_le_div_of_nonneg_right ?_ (by norm_num))) _)
        have e1 : s a j ≤ ∑ j, ∑ a, s a j :=
          (Finset.single_le_sum (f := fun a => s a j) (fun a _ => s1 a j) (Finset.mem_univ a)).trans
            (Finset.single_le_sum (f := fun j => ∑ a, s a j) (fun j _ => Finset.sum_nonneg fun a _ => s1 a j) (Finset.mem_univ j))
        have e2 := (keyW t).2.1 (Ws t)
        simp only [hd, hq]
        linarith) t
    simpa [h1] using this
  have hclose : ∀ i a j, Tendsto (fun t => amounts (Ws (t + 1)) (Hs (t + 1)) i a j - M t i a j) atTop (𝓝 0) := fun i a j => by
    have e : ∀ t, ((amounts (Ws (t + 1)) (Hs (t + 1)) i a j - M t i a j) / U i j) ^ 2 ≤ d t := fun t => by
      have e1 : wsAmountMoved U (Ws t) (Ws (t + 1)) (Hs t) (Hs (t + 1)) ≤ d t := by have := (key t).1; simp only [hd, hq]; linarith
      refine le_trans ?_ e1
      unfold wsAmountMoved
      have hnn : ∀ i j, 0 ≤ (((∑ a, Ws (t + 1) i a * Hs t a j) - ∑ a, Ws t i a * Hs t a j) / U i j) ^ 2 + ∑ a, ((Ws (t + 1) i a * Hs (t + 1) a j - Ws (t + 1) i a * Hs t a j) / U i j) ^ 2 := fun i j =>
        add_nonneg (sq_nonneg _) (Finset.sum_nonneg fun a _ => sq_nonneg _)
      refine le_trans ?_ (Finset.single_le_sum (f := fun i => ∑ j, ((((∑ a, Ws (t + 1) i a * Hs t a j) - ∑ a, Ws t i a * Hs t a j) / U i j) ^ 2 +
        ∑ a, ((Ws (t + 1) i a * Hs (t + 1) a j - Ws (t + 1) i a * Hs t a j) / U i j) ^ 2)) (fun i _ => Finset.sum_nonneg fun j _ => hnn i j) (Finset.mem_univ i))
      refine le_trans ?_ (Finset.single_le_sum (f := fun j => (((∑ a, Ws (t + 1) i a * Hs t a j) - ∑ a, Ws t i a * Hs t a j) / U i j) ^ 2 +
        ∑ a, ((Ws (t + 1) i a * Hs (t + 1) a j - Ws (t + 1) i a * Hs t a j) / U i j) ^ 2) (fun j _ => hnn i j) (Finset.mem_univ j))
      refine le_trans ?_ (le_add_of_nonneg_left (sq_nonneg _))
      exact Finset.single_le_sum (f := fun a => ((Ws (t + 1) i a * Hs (t + 1) a j - Ws (t + 1) i a * Hs t a j) / U i j) ^ 2) (fun a _ => sq_nonneg _) (Finset.mem_univ a)
    have := (tendsto_of_sq_le e hdt).mul_const (U i j)
    simpa [div_mul_cancel₀ _ (hU i j)] using this
  obtain ⟨c1, c2⟩ := balance_close V U M (fun t => amounts (Ws (t + 1)) (Hs (t + 1))) _ hMb hclose
  have f2 : ∀ i a, Tendsto (fun t => sampleBalance V U (amounts (Ws (t + 1)) (Hs (t + 1))) i a) atTop (𝓝 0) := fun i a => by
    refine (c2 i a).congr fun t => ?_
    rw [(C256_update inv V U _ _ _ _ g.data (hH t) (hinv t) (hu' t) (hW t)).2.1 i a, sub_zero]
  refine ⟨fun i a => (tendsto_add_atTop_iff_nat (f := fun t => sampleBalance V U (amounts (Ws t) (Hs t)) i a) 1).1 (f2 i a), ?_, ?_⟩
  · intro ε hε T
    have e1 : ∀ᶠ t in atTop, ∀ a j, |featureBalance V U (amounts (Ws (t + 1)) (Hs (t + 1))) a j - featureBalance V U (M t) a j| < ε / 2 := by
      rw [eventually_all]
      intro a
      rw [eventually_all]
      intro j
      have := (c1 a j).eventually (Metric.ball_mem_nhds 0 (half_pos hε))
      simpa [Real.dist_eq] using this
    have e2 : ∀ᶠ t in atTop, ∀ i a, |sampleBalance V U (amounts (Ws (t + 1)) (Hs (t + 1))) i a| < ε := by
      rw [eventually_all]
      intro i
      rw [eventually_all]
      intro a
      have := (f2 i a).eventually (Metric.ball_mem_nhds 0 hε)
      simpa [Real.dist_eq] using this
    obtain ⟨T', hT'⟩ := eventually_atTop.1 (e1.and e2)
    have hq0 : 0 ≤ q 0 := hqnn _ _
    set c : ℝ := (∑ a : Fin k, ∑ j : Fin n, (13 * S + 6 * H a j + 6 * q 0)) + 1 with hcdef
    have hHn : ∀ a j, 0 ≤ H a j := fun a j => (g.profiles a j).le
    have hc : 0 < c := by
      have : 0 ≤ ∑ a : Fin k, ∑ j : Fin n, (13 * S + 6 * H a j + 6 * q 0) := Finset.sum_nonneg fun a _ => Finset.sum_nonneg fun j _ => by have := hHn a j; positivity
      linarith
    obtain ⟨t, t1, t2⟩ := small_again (fun t => ∑ a, ∑ j, featureBalance V U (M t) a j ^ 2) d c hc hdS (fun t => by
      have e3 : ∑ a, ∑ j, featureBalance V U (M t) a j ^ 2 ≤ ∑ a : Fin k, ∑ j : Fin n, (13 * S + 6 * H a j + 6 * q 0) * ((t : ℝ) + 1) * d t := by
        refine Finset.sum_le_sum fun a _ => Finset.sum_le_sum fun j _ => (hb t a j).trans (mul_le_mul_of_nonneg_right ?_ (hd0 t))
        have e4 := hgrow t a j
        have e5 := hHn a j
        have e6 : (0 : ℝ) ≤ t := Nat.cast_nonneg t
        nlinarith [mul_nonneg hS0 e6, mul_nonneg e5 e6, mul_nonneg hq0 e6]
      refine e3.trans ?_
      simp only [← Finset.sum_mul]
      refine mul_le_mul_of_nonneg_right (mul_le_mul_of_nonneg_right ?_ (by positivity)) (hd0 t)
      linarith) ((ε / 2) ^ 2) (by positivity) (max T T')
    refine ⟨t + 1, by have := (le_max_left T T').trans t1; omega, fun a j => ?_, (hT' t ((le_max_right _ _).trans t1)).2⟩
    have e7 : featureBalance V U (M t) a j ^ 2 < (ε / 2) ^ 2 := by
      refine lt_of_le_of_lt ?_ t2
      exact (Finset.single_le_sum (f := fun j => featureBalance V U (M t) a j ^ 2) (fun j _ => sq_nonneg _) (Finset.mem_univ j)).trans
        (Finset.single_le_sum (f := fun a => ∑ j, featureBalance V U (M t) a j ^ 2) (fun a _ => Finset.sum_nonneg fun j _ => sq_nonneg _) (Finset.mem_univ a))
    have e8 := abs_lt_of_sq_lt_sq e7 (by positivity)
    have e9 := (hT' t ((le_max_right _ _).trans t1)).1 a j
    rw [abs_lt] at e8 e9
    rw [abs_lt]
    constructor <;> linarith [e8.1, e8.2, e9.1, e9.2]
  · rintro ⟨B, hB⟩ a j
    refine (tendsto_add_atTop_iff_nat (f := fun t => featureBalance V U (amounts (Ws t) (Hs t)) a j) 1).1 ?_
    have e1 : Tendsto (fun t => featureBalance V U (M t) a j) atTop (𝓝 0) := by
      refine tendsto_of_sq_le (d := fun t => (13 * S + 3 / 1000000000000 * B) * d t) (fun t => (hb t a j).trans (mul_le_mul_of_nonneg_right ?_ (hd0 t))) (by simpa using hdt.const_mul (13 * S + 3 / 1000000000000 * B))
      linarith [hB t a j]
    have := (c1 a j).add e1
    simpa using this

/-- **C256, runs.** For every accuracy there are arbitrarily large `max_iter` with which a proper compiled run without `hold_h` and with `converge_delta` zero or negative returns factors with all balances below it. -/
theorem C256_run {inv : Mat k k ℝ → Mat k k ℝ} {V U : Mat m n ℝ} {W : Mat m k ℝ} {H : Mat k n ℝ} (g : WsProper inv V U (fun _ => true) W H) (hU : ∀ i j, U i j ≠ 0) (ε : ℝ) (hε : 0 < ε) (T : ℕ) :
    ∃ N : ℕ, T ≤ N ∧ ∀ (cfg : LoopCfg ℝ) (clock : ℕ → Bool), cfg.holdH = false → cfg.delta ≤ 0 → cfg.maxIter = N →
      ∃ W' H', (rustLoop (wsLoopStep inv V (weights U)) (lsQ V U) cfg clock (some W, some H)).factors = (some W', some H') ∧
        (∀ a j, |∑ i, W' i a * H' a j * ((∑ b, W' i b * H' b j) - V i j) / U i j ^ 2| < ε) ∧ ∀ i a, |∑ j, W' i a * H' a j * ((∑ b, W' i b * H' b j) - V i j) / U i j ^ 2| < ε := by
  obtain ⟨Ws, Hs, -, -, ht, -, hf, -⟩ := C256_limit g hU
  obtain ⟨N, hN, h1, h2⟩ := hf ε hε T
  refine ⟨N, hN, fun cfg clock hh hδ hm => ?_⟩
  have hfl : rustUpdatesH cfg = fun _ => true := by
    funext i
    simp [rustUpdatesH, hh]
  obtain ⟨qs, q1, -, -, q4⟩ := C252_losses cfg clock (hfl ▸ g)
  have hlen : (rustLoop (wsLoopStep inv V (weights U)) (lsQ V U) cfg clock (some W, some H)).losses.length = N := by
    have := (q4 hδ).2
    rw [q1, List.length_map]
    omega
  obtain ⟨hfac, -⟩ := rustLoop_factors (wsLoopStep inv V (weights U)) (lsQ V U) cfg clock (some W, some H)
  rw [hlen, hfl, ht] at hfac
  exact ⟨_, _, hfac, h1, h2⟩

/-- One factor, any positive profile: the run is proper, so the balances become small. -/
example (W : Mat 2 1 ℝ) (H : Mat 1 2 ℝ) (hH : ∀ a j, 0 < H a j) : ∃ N : ℕ, 100 ≤ N ∧ ∀ clock : ℕ → Bool,
    ∃ W' H', (rustLoop (wsLoopStep wsRunInv wsRunV (weights fun _ _ => 1)) (lsQ wsRunV fun _ _ => 1) ⟨N, 0, 5, false, 0⟩ clock (some W, some H)).factors = (some W', some H') ∧
      ∀ a j, |∑ i, W' i a * H' a j * ((∑ b, W' i b * H' b j) - wsRunV i j) / 1 ^ 2| < 1 / 1000 := by
  have g : WsProper wsRunInv wsRunV (fun _ _ => 1) (fun _ => true) W H :=
    C252_one_factor wsRunInv (fun A _ => rfl) wsRunV (fun _ _ => 1) W H _ (by norm_num)
      (by intro i j; fin_cases i <;> fin_cases j <;> simp [wsRunV]) (by intro i j; norm_num) hH
  obtain ⟨N, hN, h⟩ := C256_run g (fun _ _ => one_ne_zero) (1 / 1000) (by norm_num) 100
  refine ⟨N, hN, fun clock => ?_⟩
  obtain ⟨W', H', h1, h2, -⟩ := h ⟨N, 0, 5, false, 0⟩ clock rfl le_rfl rfl
  exact ⟨W', H', h1, h2⟩

end Esat
