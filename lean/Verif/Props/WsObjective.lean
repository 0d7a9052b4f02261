import Mathlib.Analysis.SpecialFunctions.Log.Basic
import Verif.Props.WsFixed
import Verif.Props.WsRuns

/-!
# C253: what the profile step of ws-nmf minimises

With contributions of both signs the step does not descend the loss (C77). It descends the loss of the model made of the positive parts of the contributions minus the loss of the model made of their negative parts. For non-negative
data this holds without exception, and it bounds how much the loss itself can rise.
-/

namespace Esat
variable {m n k : ℕ}

/-! ## Specification -/

/-- Loss of the model of the positive parts minus that of the model of the negative parts. -/
noncomputable def partsLoss (V U : Mat m n ℝ) (W : Mat m k ℝ) (H : Mat k n ℝ) : ℝ :=
  ∑ i, ∑ j, (((V i j - ∑ a, max (W i a) 0 * H a j) / U i j) ^ 2 - ((V i j - ∑ a, max (-W i a) 0 * H a j) / U i j) ^ 2)

/-- The weighted product of the model of the negative parts with the whole model. -/
noncomputable def negProduct (U : Mat m n ℝ) (W : Mat m k ℝ) (H : Mat k n ℝ) : ℝ :=
  ∑ i, ∑ j, (∑ a, max (-W i a) 0 * H a j) * (∑ a, W i a * H a j) / U i j ^ 2

/-! ## One column -/

theorem two_log_le (x y : ℝ) (hx : 0 < x) (hy : 0 < y) : 1 + Real.log x + Real.log y ≤ x * y := by
  have := Real.log_le_sub_one_of_pos (mul_pos hx hy)
  rw [Real.log_mul hx.ne' hy.ne'] at this
  linarith

theorem square_log (x r : Fin k → ℝ) (hx : ∀ a, 0 ≤ x a) (hr : ∀ a, 0 < r a) :
    (∑ a, x a) ^ 2 + 2 * ((∑ a, x a) * ∑ a, x a * Real.log (r a)) ≤ (∑ a, x a * r a) ^ 2 := by
  have e1 : (∑ a, x a) ^ 2 + 2 * ((∑ a, x a) * ∑ a, x a * Real.log (r a)) = ∑ a, ∑ b, x a * x b * (1 + Real.log (r a) + Real.log (r b)) := by
    have a1 : (∑ a, x a) ^ 2 = ∑ a, ∑ b, x a * x b := by rw [pow_two, Finset.sum_mul_sum]
    have a2 : (∑ a, x a) * ∑ a, x a * Real.log (r a) = ∑ a, ∑ b, x a * (x b * Real.log (r b)) := by rw [Finset.sum_mul_sum]
    have a3 : (∑ a, x a) * ∑ a, x a * Real.log (r a) = ∑ a, ∑ b, (x a * Real.log (r a)) * x b := by rw [mul_comm, Finset.sum_mul_sum]
    rw [two_mul, a1]
    nth_rw 1 [a2]
    rw [a3]
    simp only [← Finset.sum_add_distrib]
    exact Finset.sum_congr rfl fun a _ => Finset.sum_congr rfl fun b _ => by ring
  rw [e1, pow_two (∑ a, x a * r a), Finset.sum_mul_sum]
  refine Finset.sum_le_sum fun a _ => Finset.sum_le_sum fun b _ => ?_
  have := mul_le_mul_of_nonneg_left (two_log_le (r a) (r b) (hr a) (hr b)) (mul_nonneg (hx a) (hx b))
  linarith [mul_mul_mul_comm (x a) (r a) (x b) (r b)]

theorem column_parts (p q : Fin m → Fin k → ℝ) (e v : Fin m → ℝ) (h h' r D N : Fin k → ℝ) (he : ∀ i, 0 ≤ e i) (hv : ∀ i, 0 ≤ v i) (hp : ∀ i a, 0 ≤ p i a) (hq : ∀ i a, 0 ≤ q i a)
    (hh : ∀ a, 0 ≤ h a) (hr : ∀ a, 0 < r a) (hh' : ∀ a, h' a = h a * r a)
    (hD : ∀ a, D a = (∑ i, (e i * v i) * q i a) + ∑ i, p i a * (e i * ∑ b, p i b * h b)) (hN : ∀ a, N a = (∑ i, (e i * v i) * p i a) + ∑ i, q i a * (e i * ∑ b, q i b * h b)) :
    (∑ i, e i * ((v i - ∑ a, p i a * h' a) ^ 2 - (v i - ∑ a, q i a * h' a) ^ 2)) ≤
      (∑ i, e i * ((v i - ∑ a, p i a * h a) ^ 2 - (v i - ∑ a, q i a * h a) ^ 2)) + ∑ a, h a * (D a * (r a ^ 2 - 1) - 2 * N a * Real.log (r a)) := by
  have cell : ∀ i, e i * ((v i - ∑ a, p i a * h' a) ^ 2 - (v i - ∑ a, q i a * h' a) ^ 2) ≤ e i * ((v i - ∑ a, p i a * h a) ^ 2 - (v i - ∑ a, q i a * h a) ^ 2)
      + e i * ((∑ a, p i a * h a) * (∑ a, p i a * h a * (r a ^ 2 - 1)) - 2 * v i * (∑ a, p i a * h a * Real.log (r a)) - 2 * ((∑ a, q i a * h a) * ∑ a, q i a * h a * Real.log (r a))
        + v i * ∑ a, q i a * h a * (r a ^ 2 - 1)) := fun i => by
    rw [← mul_add]
    refine mul_le_mul_of_nonneg_left ?_ (he i)
    have ep : ∑ a, p i a * h' a = ∑ a, p i a * h a * r a := Finset.sum_congr rfl fun a _ => by rw [hh']; ring
    have eq : ∑ a, q i a * h' a = ∑ a, q i a * h a * r a := Finset.sum_congr rfl fun a _ => by rw [hh']; ring
    have hph : ∀ a, 0 ≤ p i a * h a := fun a => mul_nonneg (hp i a) (hh a)
    have hqh : ∀ a, 0 ≤ q i a * h a := fun a => mul_nonneg (hq i a) (hh a)
    have c1 : (∑ a, p i a * h a * r a) ^ 2 ≤ (∑ a, p i a * h a) * ∑ a, p i a * h a * r a ^ 2 :=
      Finset.sum_sq_le_sum_mul_sum_of_sq_le_mul _ (fun a _ => hph a) (fun a _ => mul_nonneg (hph a) (sq_nonneg _)) (fun a _ => le_of_eq (by ring))
    have c2 : (∑ a, p i a * h a) + ∑ a, p i a * h a * Real.log (r a) ≤ ∑ a, p i a * h a * r a := by
      rw [← Finset.sum_add_distrib]
      refine Finset.sum_le_sum fun a _ => ?_
      have := mul_le_mul_of_nonneg_left (Real.log_le_sub_one_of_pos (hr a)) (hph a)
      linarith
    have c3 := square_log (fun a => q i a * h a) r hqh hr
    have c4 : 2 * (∑ a, q i a * h a * r a) ≤ 2 * (∑ a, q i a * h a) + ∑ a, q i a * h a * (r a ^ 2 - 1) := by
      rw [Finset.mul_sum, Finset.mul_sum, ← Finset.sum_add_distrib]
      refine Finset.sum_le_sum fun a _ => ?_
      nlinarith [mul_nonneg (hqh a) (sq_nonneg (r a - 1))]
    have c5 : ∑ a, p i a * h a * (r a ^ 2 - 1) = (∑ a, p i a * h a * r a ^ 2) - ∑ a, p i a * h a := by
      rw [← Finset.sum_sub_distrib]; exact Finset.sum_congr rfl fun a _ => by ring
    rw [ep, eq, c5]
    nlinarith [mul_le_mul_of_nonneg_left c2 (hv i), mul_le_mul_of_nonneg_left c4 (hv i)]
  refine le_trans (Finset.sum_le_sum fun i _ => cell i) ?_
  rw [Finset.sum_add_distrib]
  refine le_of_eq (congrArg _ ?_)
  have e1 : ∀ (w : Fin m → Fin k → ℝ) (c : Fin m → ℝ) (g : Fin k → ℝ), ∑ i, c i * ∑ a, w i a * h a * g a = ∑ a, h a * g a * ∑ i, w i a * c i := fun w c g => by
    simp only [Finset.mul_sum]
    rw [Finset.sum_comm]
    exact Finset.sum_congr rfl fun a _ => Finset.sum_congr rfl fun i _ => by ring
  have t1 := e1 p (fun i => e i * ∑ b, p i b * h b) fun a => r a ^ 2 - 1
  have t2 := e1 p (fun i => e i * v i) fun a => Real.log (r a)
  have t3 := e1 q (fun i => e i * ∑ b, q i b * h b) fun a => Real.log (r a)
  have t4 := e1 q (fun i => e i * v i) fun a => r a ^ 2 - 1
  have lhs : ∑ i, e i * ((∑ a, p i a * h a) * (∑ a, p i a * h a * (r a ^ 2 - 1)) - 2 * v i * (∑ a, p i a * h a * Real.log (r a)) - 2 * ((∑ a, q i a * h a) * ∑ a, q i a * h a * Real.log (r a))
        + v i * ∑ a, q i a * h a * (r a ^ 2 - 1))
      = (∑ i, (e i * ∑ b, p i b * h b) * ∑ a, p i a * h a * (r a ^ 2 - 1)) - 2 * (∑ i, e i * v i * ∑ a, p i a * h a * Real.log (r a))
        - 2 * (∑ i, (e i * ∑ b, q i b * h b) * ∑ a, q i a * h a * Real.log (r a)) + ∑ i, e i * v i * ∑ a, q i a * h a * (r a ^ 2 - 1) := by
    simp only [Finset.mul_sum (Finset.univ : Finset (Fin m)), ← Finset.sum_sub_distrib, ← Finset.sum_add_distrib]
    exact Finset.sum_congr rfl fun i _ => by ring
  rw [lhs, t1, t2, t3, t4, Finset.mul_sum, Finset.mul_sum, ← Finset.sum_sub_distrib, ← Finset.sum_sub_distrib, ← Finset.sum_add_distrib]
  refine Finset.sum_congr rfl fun a _ => ?_
  have f1 : ∀ w : Fin m → Fin k → ℝ, ∑ i, (e i * v i) * w i a = ∑ i, w i a * (e i * v i) := fun w => Finset.sum_congr rfl fun i _ => mul_comm _ _
  rw [hD, hN, f1, f1]
  ring

/-- One entry: the bound falls, strictly unless the entry is unchanged. -/
theorem entry_falls (N D ε : ℝ) (hε : 0 < ε) (hN : 0 ≤ N) (hD : 0 ≤ D) :
    let r := Real.sqrt ((N + ε) / (D + ε))
    0 < r ∧ D * (r ^ 2 - 1) - 2 * N * Real.log r ≤ 0 ∧ (D * (r ^ 2 - 1) - 2 * N * Real.log r = 0 → r = 1) := by
  intro r
  have hx : 0 < (N + ε) / (D + ε) := by positivity
  have hr : 0 < r := Real.sqrt_pos.2 hx
  have h2 : r ^ 2 = (N + ε) / (D + ε) := Real.sq_sqrt hx.le
  set x := (N + ε) / (D + ε) with hxd
  have hNx : N = x * D + ε * (x - 1) := by
    have : x * (D + ε) = N + ε := by rw [hxd, div_mul_cancel₀ _ (by linarith)]
    linarith
  have hl : 2 * Real.log r = Real.log x := by rw [← h2, Real.log_pow]; norm_num
  have key : D * (r ^ 2 - 1) - 2 * N * Real.log r = D * (x - 1 - x * Real.log x) - ε * ((x - 1) * Real.log x) := by
    rw [h2, show 2 * N * Real.log r = N * (2 * Real.log r) by ring, hl, hNx]; ring
  have a1 : x - 1 ≤ x * Real.log x := by
    have := Real.one_sub_inv_le_log_of_pos hx
    have h3 := mul_le_mul_of_nonneg_left this hx.le
    rwa [mul_sub, mul_one, mul_inv_cancel₀ hx.ne'] at h3
  have a2 : x ≠ 1 → 0 < (x - 1) * Real.log x := fun hne => by
    rcases lt_or_gt_of_ne hne with h | h
    · exact mul_pos_of_neg_of_neg (by linarith) (Real.log_neg hx h)
    · exact mul_pos (by linarith) (Real.log_pos h)
  have a3 : 0 ≤ (x - 1) * Real.log x := by
    by_cases hne : x = 1
    · rw [hne]; simp
    · exact (a2 hne).le
  rw [key]
  refine ⟨hr, ?_, fun hz => ?_⟩
  · have b1 : D * (x - 1 - x * Real.log x) ≤ 0 := mul_nonpos_of_nonneg_of_nonpos hD (by linarith)
    have b2 := mul_nonneg hε.le a3
    linarith
  · have hx1 : x = 1 := by
      by_contra hne
      have b1 : D * (x - 1 - x * Real.log x) ≤ 0 := mul_nonpos_of_nonneg_of_nonpos hD (by linarith)
      have b2 := mul_pos hε (a2 hne)
      linarith
    show Real.sqrt x = 1
    rw [hx1, Real.sqrt_one]

/-! ## C253 -/

theorem partsLoss_eq (V U : Mat m n ℝ) (W : Mat m k ℝ) (H : Mat k n ℝ) :
    partsLoss V U W H = ∑ j, ∑ i, weights U i j * ((V i j - ∑ a, wsPos W i a * H a j) ^ 2 - (V i j - ∑ a, wsNeg W i a * H a j) ^ 2) := by
  unfold partsLoss
  rw [Finset.sum_comm]
  refine Finset.sum_congr rfl fun j _ => Finset.sum_congr rfl fun i _ => ?_
  simp only [wsPos_eq, wsNeg_eq, posPart', negPart', weights]
  rw [div_pow, div_pow]
  ring

/-- **C253 (what falls).** On non-negative data, with contributions of any sign and positive profiles, the profile step never increases the loss of the positive parts minus that of the negative parts, and lowers it unless it leaves every profile as it is. -/
theorem C253_step (V U : Mat m n ℝ) (W : Mat m k ℝ) (H H' : Mat k n ℝ) (hV : ∀ i j, 0 ≤ V i j) (hH : ∀ a j, 0 < H a j) (h : wsStepH V (weights U) W H = some H') :
    partsLoss V U W H' ≤ partsLoss V U W H ∧ (H' ≠ H → partsLoss V U W H' < partsLoss V U W H) := by
  have he : ∀ i j, 0 ≤ weights U i j := weights_nonneg' U
  obtain ⟨-, h2⟩ := wsStepH_eq_some.1 h
  set N : Mat k n ℝ := fun b j => wsLin V (weights U) (wsPos W) b j + wsQuad (weights U) (wsNeg W) H b j with hN
  set D : Mat k n ℝ := fun b j => wsLin V (weights U) (wsNeg W) b j + wsQuad (weights U) (wsPos W) H b j with hD
  have hN0 : ∀ b j, 0 ≤ N b j := fun b j => add_nonneg (wsLin_nonneg hV he (wsPos_nonneg W) b j) (wsQuad_nonneg he (wsNeg_nonneg W) (fun a j => (hH a j).le) b j)
  have hD0 : ∀ b j, 0 ≤ D b j := fun b j => add_nonneg (wsLin_nonneg hV he (wsNeg_nonneg W) b j) (wsQuad_nonneg he (wsPos_nonneg W) (fun a j => (hH a j).le) b j)
  have hquad : ∀ (A : Mat m k ℝ) b j, wsQuad (weights U) A H b j = ∑ i, A i b * (weights U i j * ∑ a, A i a * H a j) := fun A b j => by
    simp only [wsQuad, Finset.mul_sum]
    rw [Finset.sum_comm]
    exact Finset.sum_congr rfl fun i _ => Finset.sum_congr rfl fun a _ => by ring
  set r : Mat k n ℝ := fun b j => Real.sqrt ((N b j + wsEps) / (D b j + wsEps)) with hr
  have hH' : ∀ b j, H' b j = H b j * r b j := fun b j => h2 b j
  have hent := fun b j => entry_falls (N b j) (D b j) wsEps wsEps_pos (hN0 b j) (hD0 b j)
  have main : partsLoss V U W H' ≤ partsLoss V U W H + ∑ j, ∑ a, H a j * (D a j * (r a j ^ 2 - 1) - 2 * N a j * Real.log (r a j)) := by
    rw [partsLoss_eq, partsLoss_eq, ← Finset.sum_add_distrib]
    refine Finset.sum_le_sum fun j _ => ?_
    exact column_parts (fun i a => wsPos W i a) (fun i a => wsNeg W i a) (fun i => weights U i j) (fun i => V i j) (fun a => H a j) (fun a => H' a j) (fun a => r a j) (fun a => D a j) (fun a => N a j)
      (fun i => he i j) (fun i => hV i j) (wsPos_nonneg W) (wsNeg_nonneg W) (fun a => (hH a j).le) (fun a => (hent a j).1) (fun a => hH' a j)
      (fun a => by simp only [hD, wsLin, hquad]) (fun a => by simp only [hN, wsLin, hquad])
  have hterm : ∀ j a, H a j * (D a j * (r a j ^ 2 - 1) - 2 * N a j * Real.log (r a j)) ≤ 0 := fun j a => mul_nonpos_of_nonneg_of_nonpos (hH a j).le (hent a j).2.1
  have hsum : ∑ j, ∑ a, H a j * (D a j * (r a j ^ 2 - 1) - 2 * N a j * Real.log (r a j)) ≤ 0 := Finset.sum_nonpos fun j _ => Finset.sum_nonpos fun a _ => hterm j a
  refine ⟨by linarith, fun hne => ?_⟩
  by_contra hc
  have hz : ∑ j, ∑ a, H a j * (D a j * (r a j ^ 2 - 1) - 2 * N a j * Real.log (r a j)) = 0 := le_antisymm hsum (by linarith [not_lt.1 hc])
  refine hne (funext fun a => funext fun j => ?_)
  have h3 := (Finset.sum_eq_zero_iff_of_nonpos fun j _ => Finset.sum_nonpos fun a _ => hterm j a).1 hz j (Finset.mem_univ j)
  have h4 := (Finset.sum_eq_zero_iff_of_nonpos fun a _ => hterm j a).1 h3 a (Finset.mem_univ a)
  have h5 := (hent a j).2.2 ((mul_eq_zero.1 h4).resolve_left (hH a j).ne')
  rw [hH', show r a j = 1 from h5, mul_one]

/-- **C253 (relation to the loss).** The difference of the two losses is the loss, less a constant, plus twice the product of the model of the negative parts with the whole model. -/
theorem C253_identity (V U : Mat m n ℝ) (W : Mat m k ℝ) (H : Mat k n ℝ) :
    partsLoss V U W H = (∑ i, ∑ j, ((V i j - ∑ a, W i a * H a j) / U i j) ^ 2) - (∑ i, ∑ j, (V i j / U i j) ^ 2) + 2 * negProduct U W H := by
  unfold partsLoss negProduct
  simp only [Finset.mul_sum (Finset.univ : Finset (Fin m)), Finset.mul_sum (Finset.univ : Finset (Fin n)), ← Finset.sum_sub_distrib, ← Finset.sum_add_distrib]
  refine Finset.sum_congr rfl fun i _ => Finset.sum_congr rfl fun j _ => ?_
  have e : ∑ a, W i a * H a j = (∑ a, max (W i a) 0 * H a j) - ∑ a, max (-W i a) 0 * H a j := by
    rw [← Finset.sum_sub_distrib]
    refine Finset.sum_congr rfl fun a _ => ?_
    have := pos_sub_neg (W i a)
    unfold posPart' negPart' at this
    rw [← sub_mul, this]
  rw [e]
  simp only [div_pow]
  ring

/-- **C253 (bound on the rise).** The loss itself rises in an update of the profiles by at most twice the fall of that product; in particular it does not rise if no contribution is negative. -/
theorem C253_rise (V U : Mat m n ℝ) (W : Mat m k ℝ) (H H' : Mat k n ℝ) (hV : ∀ i j, 0 ≤ V i j) (hH : ∀ a j, 0 < H a j) (h : wsStepH V (weights U) W H = some H') :
    (∑ i, ∑ j, ((V i j - ∑ a, W i a * H' a j) / U i j) ^ 2) + 2 * negProduct U W H' ≤ (∑ i, ∑ j, ((V i j - ∑ a, W i a * H a j) / U i j) ^ 2) + 2 * negProduct U W H := by
  have := (C253_step V U W H H' hV hH h).1
  rw [C253_identity, C253_identity] at this
  linarith

/-- **C253 (whole run).** In every iteration of a compiled ws-nmf run on non-negative data from positive profiles, whatever the inverse routine returns: after the new contributions are set, the profiles lower the difference of the two
losses, or stay as they are. -/
theorem C253_run (inv : Mat k k ℝ → Mat k k ℝ) (V U : Mat m n ℝ) (W : Mat m k ℝ) (H : Mat k n ℝ) (cfg : LoopCfg ℝ) (hV : ∀ i j, 0 ≤ V i j) (hH : ∀ a j, 0 < H a j) :
    ∃ (Ws : ℕ → Mat m k ℝ) (Hs : ℕ → Mat k n ℝ), Ws 0 = W ∧ Hs 0 = H ∧ (∀ s, traj (wsLoopStep inv V (weights U)) (rustUpdatesH cfg) (some W, some H) s = (some (Ws s), some (Hs s))) ∧
      ∀ s, Hs (s + 1) = Hs s ∨ partsLoss V U (Ws (s + 1)) (Hs (s + 1)) < partsLoss V U (Ws (s + 1)) (Hs s) := by
  obtain ⟨Ws, Hs, h0, h1, ht, hp, hu⟩ := ws_traj inv V U (rustUpdatesH cfg) W H hV hH
  refine ⟨Ws, Hs, h0, h1, ht, fun s => ?_⟩
  by_cases he : Hs (s + 1) = Hs s
  · exact .inl he
  · right
    have h2 : wsStepW inv V (weights U) (Hs s) = Ws (s + 1) := congrArg Prod.fst (hu s)
    have h3 : (if (!rustUpdatesH cfg s) then some (Hs s) else wsStepH V (weights U) (wsStepW inv V (weights U) (Hs s)) (Hs s)) = some (Hs (s + 1)) := congrArg Prod.snd (hu s)
    rw [h2] at h3
    split at h3
    · exact absurd (Option.some.inj h3).symm he
    · exact (C253_step V U _ _ _ hV (hp s) h3).2 he

/-- **C253, C77.** Non-negative data alone do not keep the loss from rising: the update leaves an exact factorisation with a negative contribution and raises the loss from zero. -/
theorem C253_rises : ∃ (V U : Mat 1 2 ℝ) (W : Mat 1 2 ℝ) (H H' : Mat 2 2 ℝ) (inv : Mat 2 2 ℝ → Mat 2 2 ℝ), (∀ i j, 0 < V i j) ∧ (∀ i j, U i j = 1) ∧ (∀ a j, 0 < H a j) ∧
    (∀ i, IsLeftInverse (inv (fun a b => ∑ j, H a j * (weights U i j * H b j))) (fun a b => ∑ j, H a j * (weights U i j * H b j))) ∧
    wsUpdate inv V (weights U) false W H = (W, some H') ∧ (∑ i, ∑ j, ((V i j - ∑ a, W i a * H a j) / U i j) ^ 2) = 0 ∧ 0 < ∑ i, ∑ j, ((V i j - ∑ a, W i a * H' a j) / U i j) ^ 2 := by
  have hV : ∀ i j, 0 < (![![7 / 4, 1 / 2]] : Mat 1 2 ℝ) i j := by intro i j; fin_cases i; fin_cases j <;> norm_num
  have hH : ∀ a j, 0 < (![![2, 1], ![1, 2]] : Mat 2 2 ℝ) a j := by intro a j; fin_cases a <;> fin_cases j <;> norm_num
  set V : Mat 1 2 ℝ := ![![7 / 4, 1 / 2]] with hVd
  set H : Mat 2 2 ℝ := ![![2, 1], ![1, 2]] with hHd
  let W : Mat 1 2 ℝ := ![![1, -1 / 4]]
  let U : Mat 1 2 ℝ := fun _ _ => 1
  let inv : Mat 2 2 ℝ → Mat 2 2 ℝ := fun _ => ![![5 / 9, -4 / 9], ![-4 / 9, 5 / 9]]
  have hwe : weights U = fun _ _ => 1 := by funext i j; simp [weights, U]
  have hW : wsStepW inv V (weights U) H = W := by
    funext i a
    fin_cases i; fin_cases a <;> simp [wsStepW, wsRhs, hwe, inv, V, H, W, Fin.sum_univ_two] <;> norm_num
  obtain ⟨H', h1, -⟩ := C08_nonneg_data_partial inv V (weights U) W H (fun i j => (hV i j).le) (weights_nonneg' U) hH
  have h2 : wsStepH V (weights U) W H = some H' := by rw [← hW]; exact h1
  refine ⟨V, U, W, H, H', inv, hV, fun _ _ => rfl, hH, fun i a b => ?_, Prod.ext hW h1, ?_, ?_⟩
  · rw [hwe]
    fin_cases a <;> fin_cases b <;> simp [inv, H, Fin.sum_univ_two] <;> norm_num
  · simp [V, W, H, U, Fin.sum_univ_two]
    norm_num
  · obtain ⟨-, h3⟩ := wsStepH_eq_some.1 h2
    have e0 := h3 0 0
    have e1 := h3 1 0
    have n0 : wsNum V (weights U) W H 0 0 = 7 / 4 + wsEps := by
      simp [wsNum, wsLin, wsQuad, wsPos, wsNeg, hwe, V, W, H, Fin.sum_univ_two]
    have d0 : wsDen V (weights U) W H 0 0 = 2 + wsEps := by
      simp [wsDen, wsLin, wsQuad, wsPos, wsNeg, hwe, V, W, H, Fin.sum_univ_two]
      norm_num
    have n1 : wsNum V (weights U) W H 1 0 = 1 / 16 + wsEps := by
      simp [wsNum, wsLin, wsQuad, wsPos, wsNeg, hwe, V, W, H, Fin.sum_univ_two]
      norm_num [abs_of_neg]
    have d1 : wsDen V (weights U) W H 1 0 = 7 / 16 + wsEps := by
      simp [wsDen, wsLin, wsQuad, wsPos, wsNeg, hwe, V, W, H, Fin.sum_univ_two]
      norm_num [abs_of_neg]
    rw [n0, d0] at e0
    rw [n1, d1] at e1
    have r0 : 93 / 100 ≤ Real.sqrt ((7 / 4 + wsEps) / (2 + wsEps)) := by
      refine Real.le_sqrt_of_sq_le ?_
      unfold wsEps; norm_num
    have r1 : Real.sqrt ((1 / 16 + wsEps) / (7 / 16 + wsEps)) ≤ 4 / 10 := by
      refine Real.sqrt_le_iff.2 ⟨by norm_num, ?_⟩
      unfold wsEps; norm_num
    have hne : V 0 0 - ∑ a, W 0 a * H' a 0 ≠ 0 := by
      rw [Fin.sum_univ_two, e0, e1]
      simp [V, W, H]
      intro hz
      nlinarith
    refine Finset.sum_pos' (fun i _ => Finset.sum_nonneg fun j _ => sq_nonneg _) ⟨0, Finset.mem_univ _, ?_⟩
    refine Finset.sum_pos' (fun j _ => sq_nonneg _) ⟨0, Finset.mem_univ _, ?_⟩
    have : (V 0 0 - ∑ a, W 0 a * H' a 0) / U 0 0 ≠ 0 := by simpa [U] using hne
    positivity

/-- In that case the difference of the two losses falls while the loss rises. -/
example : ∃ (V U : Mat 1 2 ℝ) (W : Mat 1 2 ℝ) (H H' : Mat 2 2 ℝ), wsStepH V (weights U) W H = some H' ∧ partsLoss V U W H' < partsLoss V U W H ∧
    (∑ i, ∑ j, ((V i j - ∑ a, W i a * H a j) / U i j) ^ 2) < ∑ i, ∑ j, ((V i j - ∑ a, W i a * H' a j) / U i j) ^ 2 := by
  obtain ⟨V, U, W, H, H', inv, hV, hU, hH, hinv, hu, h0, h1⟩ := C253_rises
  have h2 : wsStepW inv V (weights U) H = W := congrArg Prod.fst hu
  have h3 : wsStepH V (weights U) (wsStepW inv V (weights U) H) H = some H' := congrArg Prod.snd hu
  rw [h2] at h3
  refine ⟨V, U, W, H, H', h3, (C253_step V U W H H' (fun i j => (hV i j).le) hH h3).2 fun e => ?_, by rw [h0]; exact h1⟩
  rw [e, h0] at h1
  exact lt_irrefl _ h1

end Esat
