import Verif.Props.HoldOptimal
import Verif.Props.Rescaling
import Verif.Props.WsNmf

/-!
# C252: the course of a ws-nmf run

The contributions are recomputed by least squares, so they never fit worse than the old ones or than nothing at all. The profile step keeps this as long as the recomputed contributions are non-negative (C77). Then the losses of a whole
run never increase, lie below the loss of the empty model from the first iteration on, and the run converges. With one factor and non-negative data this is always so.
-/

namespace Esat
variable {m n k : ℕ}

/-! ## Specification -/

/-- How far one ws-nmf iteration moved from `(W, H)` to `(W', H')`: the change of the model by the new contributions, then the change of the amount every factor explains by the new profiles, in units of the uncertainties, squared and summed. -/
def wsAmountMoved {K : Type*} [Field K] (U : Mat m n K) (W W' : Mat m k K) (H H' : Mat k n K) : K :=
  ∑ i, ∑ j, ((((∑ a, W' i a * H a j) - ∑ a, W i a * H a j) / U i j) ^ 2 + ∑ a, ((W' i a * H' a j - W' i a * H a j) / U i j) ^ 2)

/-! ## One update -/

section
variable {K : Type*} [Field K] [LinearOrder K] [IsStrictOrderedRing K]

theorem sum_square_drop (w : Fin m → Fin k → K) (e v : Fin m → K) (h h' N D r s : Fin k → K) (he : ∀ i, 0 ≤ e i) (hwh : ∀ i a, 0 ≤ w i a * h a)
    (hN : ∀ a, N a = ∑ i, w i a * (e i * v i)) (hD : ∀ a, D a = ∑ i, w i a * (e i * ∑ b, w i b * h b)) (hh : ∀ a, h' a = h a * r a)
    (hr : ∀ a, h a * (D a * r a ^ 2 - 2 * N a * r a) + s a ≤ h a * (D a - 2 * N a)) :
    (∑ i, e i * (v i - ∑ a, w i a * h' a) ^ 2) + ∑ a, s a ≤ ∑ i, e i * (v i - ∑ a, w i a * h a) ^ 2 := by
  have hs : ∀ i, ∑ a, w i a * h' a = ∑ a, (w i a * h a) * r a := fun i => Finset.sum_congr rfl fun a _ => by rw [hh]; ring
  have cauchy : ∀ i, (∑ a, (w i a * h a) * r a) ^ 2 ≤ (∑ a, w i a * h a) * ∑ a, (w i a * h a) * r a ^ 2 := fun i =>
    Finset.sum_sq_le_sum_mul_sum_of_sq_le_mul _ (fun a _ => hwh i a) (fun a _ => mul_nonneg (hwh i a) (sq_nonneg _)) (fun a _ => le_of_eq (by ring))
  have e1 : ∑ i, e i * v i * ∑ a, (w i a * h a) * r a = ∑ a, h a * r a * N a := by
    simp only [Finset.mul_sum, hN]
    rw [Finset.sum_comm]
    exact Finset.sum_congr rfl fun a _ => Finset.sum_congr rfl fun i _ => by ring
  have e2 : ∑ i, e i * ((∑ a, w i a * h a) * ∑ a, (w i a * h a) * r a ^ 2) = ∑ a, h a * r a ^ 2 * D a := by
    have : ∀ i, e i * ((∑ a, w i a * h a) * ∑ a, (w i a * h a) * r a ^ 2) = ∑ a, h a * r a ^ 2 * (w i a * (e i * ∑ b, w i b * h b)) := fun i => by
      rw [Finset.mul_sum, Finset.mul_sum]
      exact Finset.sum_congr rfl fun a _ => by ring
    simp only [this]
    rw [Finset.sum_comm]
    refine Finset.sum_congr rfl fun a _ => ?_
    rw [hD, Finset.mul_sum]
  have e3 : ∑ i, e i * v i * ∑ a, w i a * h a = ∑ a, h a * N a := by
    simp only [Finset.mul_sum, hN]
    rw [Finset.sum_comm]
    exact Finset.sum_congr rfl fun a _ => Finset.sum_congr rfl fun i _ => by ring
  have e4 : ∑ i, e i * (∑ a, w i a * h a) ^ 2 = ∑ a, h a * D a := by
    have : ∀ i, e i * (∑ a, w i a * h a) ^ 2 = ∑ a, h a * (w i a * (e i * ∑ b, w i b * h b)) := fun i => by
      rw [pow_two, ← mul_assoc, mul_comm, Finset.sum_mul]
      exact Finset.sum_congr rfl fun a _ => by ring
    simp only [this]
    rw [Finset.sum_comm]
    refine Finset.sum_congr rfl fun a _ => ?_
    rw [hD, Finset.mul_sum]
  have l1 : ∑ i, e i * (v i - ∑ a, w i a * h' a) ^ 2 ≤ ∑ i, e i * v i ^ 2 - 2 * (∑ a, h a * r a * N a) + ∑ a, h a * r a ^ 2 * D a := by
    rw [← e1, ← e2, Finset.mul_sum, ← Finset.sum_sub_distrib, ← Finset.sum_add_distrib]
    refine Finset.sum_le_sum fun i _ => ?_
    rw [hs]
    have := mul_le_mul_of_nonneg_left (cauchy i) (he i)
    nlinarith
  have l2 : ∑ i, e i * (v i - ∑ a, w i a * h a) ^ 2 = ∑ i, e i * v i ^ 2 - 2 * (∑ a, h a * N a) + ∑ a, h a * D a := by
    rw [← e3, ← e4, Finset.mul_sum, ← Finset.sum_sub_distrib, ← Finset.sum_add_distrib]
    exact Finset.sum_congr rfl fun i _ => by ring
  have l3 : ∑ a, (h a * (D a * r a ^ 2 - 2 * N a * r a) + s a) ≤ ∑ a, h a * (D a - 2 * N a) := Finset.sum_le_sum fun a _ => hr a
  have l4 : ∑ a, (h a * (D a * r a ^ 2 - 2 * N a * r a) + s a) = ∑ a, h a * r a ^ 2 * D a - 2 * (∑ a, h a * r a * N a) + ∑ a, s a := by
    rw [Finset.mul_sum, ← Finset.sum_sub_distrib, ← Finset.sum_add_distrib]; exact Finset.sum_congr rfl fun a _ => by ring
  have l5 : ∑ a, h a * (D a - 2 * N a) = ∑ a, h a * D a - 2 * ∑ a, h a * N a := by
    rw [Finset.mul_sum, ← Finset.sum_sub_distrib]; exact Finset.sum_congr rfl fun a _ => by ring
  rw [l4, l5] at l3
  rw [l2]; linarith

/-- The part of the diagonal in `h · A h`. -/
theorem diagonal_le (w : Fin m → Fin k → K) (e : Fin m → K) (h : Fin k → K) (he : ∀ i, 0 ≤ e i) (hw : ∀ i a, 0 ≤ w i a) (hh : ∀ a, 0 ≤ h a) (a : Fin k) :
    ∑ i, e i * (w i a * h a) ^ 2 ≤ h a * ∑ i, w i a * (e i * ∑ b, w i b * h b) := by
  rw [Finset.mul_sum]
  refine Finset.sum_le_sum fun i _ => ?_
  have h1 : w i a * h a ≤ ∑ b, w i b * h b := Finset.single_le_sum (f := fun b => w i b * h b) (fun b _ => mul_nonneg (hw i b) (hh b)) (Finset.mem_univ a)
  have h2 : 0 ≤ e i * (w i a * h a) := mul_nonneg (he i) (mul_nonneg (hw i a) (hh a))
  nlinarith [mul_le_mul_of_nonneg_left h1 h2]

end

theorem sqrt_drop (N D ε : ℝ) (hε : 0 < ε) (hD : 0 ≤ D) (h0 : 0 ≤ (N + ε) / (D + ε)) :
    D * Real.sqrt ((N + ε) / (D + ε)) ^ 2 - 2 * N * Real.sqrt ((N + ε) / (D + ε)) + D * (Real.sqrt ((N + ε) / (D + ε)) - 1) ^ 2 ≤ D - 2 * N := by
  set r := Real.sqrt ((N + ε) / (D + ε)) with hr
  have hDε : 0 < D + ε := by linarith
  have hr0 : 0 ≤ r := Real.sqrt_nonneg _
  have hr2 : r ^ 2 * (D + ε) = N + ε := by rw [hr, Real.sq_sqrt h0, div_mul_cancel₀ _ hDε.ne']
  have hN : N = r ^ 2 * D + ε * (r ^ 2 - 1) := by linarith
  have key : D - 2 * N - (D * r ^ 2 - 2 * N * r + D * (r - 1) ^ 2) = (r - 1) ^ 2 * (2 * r * D + 2 * ε * (1 + r)) := by rw [hN]; ring
  have : 0 ≤ (r - 1) ^ 2 * (2 * r * D + 2 * ε * (1 + r)) := by positivity
  linarith

theorem totalLoss_eq (V U : Mat m n ℝ) (W : Mat m k ℝ) (H : Mat k n ℝ) : TotalLoss V (weights U) W H = qLoss V U W H := by
  rw [qLoss_eq_WLoss]
  unfold TotalLoss RowLoss WLoss mmul
  rfl

theorem ws_cell (u x : ℝ) : 1 / u ^ 2 * x ^ 2 = (x / u) ^ 2 := by rw [div_pow]; ring

/-- **C252 (one update).** An update whose recomputed contributions are non-negative lowers the loss by at least the amount it moved. The loss of the result is at most that of any contributions with the old profiles, so at most that of the empty model. -/
theorem C252_update (inv : Mat k k ℝ → Mat k k ℝ) (V U : Mat m n ℝ) (hold : Bool) (W W' : Mat m k ℝ) (H H' : Mat k n ℝ) (hH : ∀ a j, 0 ≤ H a j)
    (hinv : ∀ i, IsLeftInverse (inv (fun a b => ∑ j, H a j * (weights U i j * H b j))) (fun a b => ∑ j, H a j * (weights U i j * H b j)))
    (h : wsUpdate inv V (weights U) hold W H = (W', some H')) (hW : ∀ i a, 0 ≤ W' i a) :
    qLoss V U W' H' + wsAmountMoved U W W' H H' ≤ qLoss V U W H ∧ (∀ X : Mat m k ℝ, qLoss V U W' H' ≤ qLoss V U X H) ∧ qLoss V U W' H' ≤ ∑ i, ∑ j, (V i j / U i j) ^ 2 := by
  have he : ∀ i j, 0 ≤ weights U i j := weights_nonneg' U
  have h1 : wsStepW inv V (weights U) H = W' := congrArg Prod.fst h
  have h2 : (if hold then some H else wsStepH V (weights U) (wsStepW inv V (weights U) H) H) = some H' := congrArg Prod.snd h
  rw [h1] at h2
  have stepW : ∀ X : Mat m k ℝ, qLoss V U W' H + ∑ i, ∑ j, weights U i j * (∑ a, (X i a - W' i a) * H a j) ^ 2 = qLoss V U X H := fun X => by
    rw [← totalLoss_eq, ← totalLoss_eq, TotalLoss, TotalLoss, ← Finset.sum_add_distrib]
    refine Finset.sum_congr rfl fun i _ => ?_
    have hz := wsStepW_normal inv V (weights U) H i (hinv i)
    rw [h1] at hz
    unfold RowLoss
    rw [row_expand (weights U i) (V i) H (W' i) (X i)]
    have : ∑ b, (X i b - W' i b) * ((∑ j, H b j * (weights U i j * V i j)) - ∑ a, W' i a * ∑ j, H a j * (weights U i j * H b j)) = 0 :=
      Finset.sum_eq_zero fun b _ => by rw [hz b]; ring
    rw [this, mul_zero, sub_zero]
  have stepH : qLoss V U W' H' + ∑ j, ∑ a, ∑ i, weights U i j * (W' i a * H' a j - W' i a * H a j) ^ 2 ≤ qLoss V U W' H := by
    cases hold with
    | true =>
      obtain rfl : H = H' := Option.some.inj h2
      simp
    | false =>
      obtain ⟨h3, h4⟩ := wsStepH_eq_some.1 (show wsStepH V (weights U) W' H = some H' from h2)
      have hneg : wsNeg W' = fun _ _ => 0 := by
        funext i a; simp only [wsNeg, abs_of_nonneg (hW i a), sub_self, zero_div]
      have hpos : wsPos W' = W' := by
        funext i a; simp only [wsPos, abs_of_nonneg (hW i a)]; ring
      have hc : ∀ X : Mat k n ℝ, qLoss V U W' X = ∑ j, ∑ i, weights U i j * (V i j - ∑ a, W' i a * X a j) ^ 2 := fun X => by
        rw [← totalLoss_eq]; exact Finset.sum_comm
      rw [hc, hc, ← Finset.sum_add_distrib]
      refine Finset.sum_le_sum fun j _ => ?_
      have hD : ∀ a, wsQuad (weights U) W' H a j = ∑ i, W' i a * (weights U i j * ∑ b, W' i b * H b j) := fun a => by
        simp only [wsQuad, Finset.mul_sum]
        rw [Finset.sum_comm]
        exact Finset.sum_congr rfl fun i _ => Finset.sum_congr rfl fun b _ => by ring
      have hn : ∀ a, wsNum V (weights U) W' H a j = wsLin V (weights U) W' a j + wsEps := fun a => by simp [wsNum, hneg, hpos, wsQuad]
      have hd : ∀ a, wsDen V (weights U) W' H a j = wsQuad (weights U) W' H a j + wsEps := fun a => by simp [wsDen, hneg, hpos, wsLin]
      refine sum_square_drop (fun i a => W' i a) (fun i => weights U i j) (fun i => V i j) (fun a => H a j) (fun a => H' a j) (fun a => wsLin V (weights U) W' a j) (fun a => wsQuad (weights U) W' H a j)
        (fun a => Real.sqrt (wsNum V (weights U) W' H a j / wsDen V (weights U) W' H a j)) (fun a => ∑ i, weights U i j * (W' i a * H' a j - W' i a * H a j) ^ 2) (fun i => he i j)
        (fun i a => mul_nonneg (hW i a) (hH a j)) (fun a => ?_) hD (fun a => h4 a j) (fun a => ?_)
      · exact Finset.sum_congr rfl fun i _ => mul_comm _ _
      · have h5 := (h3 a j).2
        have e5 := h4 a j
        rw [hn, hd] at h5 e5 ⊢
        set r := Real.sqrt ((wsLin V (weights U) W' a j + wsEps) / (wsQuad (weights U) W' H a j + wsEps))
        have l := mul_le_mul_of_nonneg_left (sqrt_drop _ _ _ wsEps_pos (wsQuad_nonneg he hW hH a j) h5) (hH a j)
        have d := diagonal_le (fun i a => W' i a) (fun i => weights U i j) (fun a => H a j) (fun i => he i j) hW (fun a => hH a j) a
        rw [← hD] at d
        have d' := mul_le_mul_of_nonneg_right d (sq_nonneg (r - 1))
        have e6 : ∑ i, weights U i j * (W' i a * H' a j - W' i a * H a j) ^ 2 = (∑ i, weights U i j * (W' i a * H a j) ^ 2) * (r - 1) ^ 2 := by
          rw [Finset.sum_mul]
          exact Finset.sum_congr rfl fun i _ => by rw [e5]; ring
        rw [e6]
        nlinarith
  have hX : ∀ X : Mat m k ℝ, qLoss V U W' H' ≤ qLoss V U X H := fun X => by
    have a1 := stepW X
    have a2 : 0 ≤ ∑ i, ∑ j, weights U i j * (∑ a, (X i a - W' i a) * H a j) ^ 2 :=
      Finset.sum_nonneg fun i _ => Finset.sum_nonneg fun j _ => mul_nonneg (he i j) (sq_nonneg _)
    have a3 : 0 ≤ ∑ j, ∑ a, ∑ i, weights U i j * (W' i a * H' a j - W' i a * H a j) ^ 2 :=
      Finset.sum_nonneg fun j _ => Finset.sum_nonneg fun a _ => Finset.sum_nonneg fun i _ => mul_nonneg (he i j) (sq_nonneg _)
    linarith
  refine ⟨?_, hX, ?_⟩
  · have e : wsAmountMoved U W W' H H' = (∑ i, ∑ j, weights U i j * (∑ a, (W i a - W' i a) * H a j) ^ 2) + ∑ j, ∑ a, ∑ i, weights U i j * (W' i a * H' a j - W' i a * H a j) ^ 2 := by
      have e1 : (∑ j, ∑ a, ∑ i, weights U i j * (W' i a * H' a j - W' i a * H a j) ^ 2) = ∑ i, ∑ j, ∑ a, weights U i j * (W' i a * H' a j - W' i a * H a j) ^ 2 := by
        rw [Finset.sum_comm (s := (Finset.univ : Finset (Fin m)))]
        exact Finset.sum_congr rfl fun j _ => Finset.sum_comm
      rw [e1, wsAmountMoved]
      simp only [← Finset.sum_add_distrib]
      refine Finset.sum_congr rfl fun i _ => Finset.sum_congr rfl fun j _ => ?_
      have e2 : ∑ a, (W i a - W' i a) * H a j = (∑ a, W i a * H a j) - ∑ a, W' i a * H a j := by
        rw [← Finset.sum_sub_distrib]; exact Finset.sum_congr rfl fun a _ => by ring
      rw [e2]
      simp only [weights, ws_cell]
      congr 1
      rw [div_pow, div_pow]; ring
    rw [e, ← stepW W]
    linarith
  · have := hX fun _ _ => 0
    have e : qLoss V U (fun _ _ => 0 : Mat m k ℝ) H = ∑ i, ∑ j, (V i j / U i j) ^ 2 := by
      simp [qLoss, mmul, ← pow_two]
    rwa [e] at this

/-! ## Whole runs -/

/-- Along the run from `(W, H)` the inverses are right and the recomputed contributions are not negative. -/
structure WsProper (inv : Mat k k ℝ → Mat k k ℝ) (V U : Mat m n ℝ) (flags : ℕ → Bool) (W : Mat m k ℝ) (H : Mat k n ℝ) : Prop where
  data : ∀ i j, 0 ≤ V i j
  profiles : ∀ a j, 0 < H a j
  inverse : ∀ s X, (traj (wsLoopStep inv V (weights U)) flags (some W, some H) s).2 = some X →
    ∀ i, IsLeftInverse (inv (fun a b => ∑ j, X a j * (weights U i j * X b j))) (fun a b => ∑ j, X a j * (weights U i j * X b j))
  contributions : ∀ s Y, (traj (wsLoopStep inv V (weights U)) flags (some W, some H) (s + 1)).1 = some Y → ∀ i a, 0 ≤ Y i a

/-- With non-negative data every profile of the run exists and is positive, whatever the inverse routine does. -/
theorem ws_traj (inv : Mat k k ℝ → Mat k k ℝ) (V U : Mat m n ℝ) (flags : ℕ → Bool) (W : Mat m k ℝ) (H : Mat k n ℝ) (hV : ∀ i j, 0 ≤ V i j) (hH : ∀ a j, 0 < H a j) :
    ∃ (Ws : ℕ → Mat m k ℝ) (Hs : ℕ → Mat k n ℝ), Ws 0 = W ∧ Hs 0 = H ∧ (∀ s, traj (wsLoopStep inv V (weights U)) flags (some W, some H) s = (some (Ws s), some (Hs s))) ∧ (∀ s a j, 0 < Hs s a j) ∧
      ∀ s, wsUpdate inv V (weights U) (!flags s) (Ws s) (Hs s) = (Ws (s + 1), some (Hs (s + 1))) := by
  have hex : ∀ s, ∃ (Y : Mat m k ℝ) (X : Mat k n ℝ), traj (wsLoopStep inv V (weights U)) flags (some W, some H) s = (some Y, some X) ∧ ∀ a j, 0 < X a j := by
    intro s
    induction s with
    | zero => exact ⟨W, H, rfl, hH⟩
    | succ s ih =>
      obtain ⟨Y, X, e, hX⟩ := ih
      rw [traj, e]
      cases hf : flags s with
      | false => exact ⟨_, X, rfl, hX⟩
      | true =>
        obtain ⟨X', h1, h2⟩ := C08_nonneg_data_partial inv V (weights U) Y X hV (weights_nonneg' U) hX
        refine ⟨wsStepW inv V (weights U) X, X', ?_, h2⟩
        have h3 : wsStepH V (weights U) (wsStepW inv V (weights U) X) X = some X' := h1
        simp only [wsLoopStep, if_true, h3]
  choose Ws Hs hs hp using hex
  have h0 := hs 0
  simp only [traj, Prod.mk.injEq, Option.some.injEq] at h0
  refine ⟨Ws, Hs, h0.1.symm, h0.2.symm, hs, hp, fun s => ?_⟩
  have h1 := hs (s + 1)
  rw [traj, hs s] at h1
  simp only [wsLoopStep, Prod.mk.injEq, Option.some.injEq] at h1
  unfold wsUpdate
  refine Prod.ext h1.1 ?_
  dsimp only
  cases hf : flags s <;> simp only [hf, Bool.not_true, Bool.not_false, if_true, Bool.false_eq_true, if_false] at h1 ⊢ <;> first | exact h1.2 | rw [h1.2]

theorem ws_losses {inv : Mat k k ℝ → Mat k k ℝ} {V U : Mat m n ℝ} {flags : ℕ → Bool} {W : Mat m k ℝ} {H : Mat k n ℝ} (g : WsProper inv V U flags W H) :
    ∃ (Ws : ℕ → Mat m k ℝ) (Hs : ℕ → Mat k n ℝ), Ws 0 = W ∧ Hs 0 = H ∧ (∀ s, traj (wsLoopStep inv V (weights U)) flags (some W, some H) s = (some (Ws s), some (Hs s))) ∧
      (∀ s, lossAt (wsLoopStep inv V (weights U)) (lsQ V U) flags (some W, some H) s = some (qLoss V U (Ws (s + 1)) (Hs (s + 1)))) ∧
      (∀ s, qLoss V U (Ws (s + 1)) (Hs (s + 1)) + wsAmountMoved U (Ws s) (Ws (s + 1)) (Hs s) (Hs (s + 1)) ≤ qLoss V U (Ws s) (Hs s)) ∧
      (Antitone fun s => qLoss V U (Ws s) (Hs s)) ∧ (∀ s, 0 ≤ qLoss V U (Ws s) (Hs s)) ∧ ∀ s, qLoss V U (Ws (s + 1)) (Hs (s + 1)) ≤ ∑ i, ∑ j, (V i j / U i j) ^ 2 := by
  obtain ⟨Ws, Hs, h0, h1, ht, hp, hu⟩ := ws_traj inv V U flags W H g.data g.profiles
  have key := fun s => C252_update inv V U _ _ _ _ _ (fun a j => (hp s a j).le) (g.inverse s (Hs s) (by rw [ht])) (hu s) (g.contributions s _ (by rw [ht]))
  refine ⟨Ws, Hs, h0, h1, ht, fun s => by rw [lossAt, ht]; rfl, fun s => (key s).1, antitone_nat_of_succ_le fun s => (key s).2.1 (Ws s), fun s => ?_, fun s => (key s).2.2⟩
  rw [qLoss_eq_WLoss]
  exact Finset.sum_nonneg fun i _ => Finset.sum_nonneg fun j _ => mul_nonneg (weights_nonneg' U i j) (sq_nonneg _)

/-- **C252 (loss history).** A compiled ws-nmf run along which the contributions stay non-negative: no recorded loss is above its predecessor, none is above the loss of the empty model, and with a tolerance that is not positive the run is not
reported as converged. -/
theorem C252_losses {inv : Mat k k ℝ → Mat k k ℝ} {V U : Mat m n ℝ} {W : Mat m k ℝ} {H : Mat k n ℝ} (cfg : LoopCfg ℝ) (clock : ℕ → Bool) (g : WsProper inv V U (rustUpdatesH cfg) W H) :
    let r := rustLoop (wsLoopStep inv V (weights U)) (lsQ V U) cfg clock (some W, some H)
    ∃ qs : List ℝ, r.losses = qs.map some ∧ qs.Pairwise (fun q q' => q' ≤ q) ∧ (∀ q ∈ qs, 0 ≤ q ∧ q ≤ ∑ i, ∑ j, (V i j / U i j) ^ 2) ∧
      (cfg.delta ≤ 0 → r.converged = false ∧ (qs.length : ℤ) = max cfg.maxIter 0) := by
  intro r
  by_cases hm : 0 < cfg.maxIter
  · obtain ⟨Ws, Hs, -, -, -, hl, -, hanti, hnn, hle⟩ := ws_losses g
    obtain ⟨t, t1, t2, t3, t4, -, -, t7, t8, t9, -⟩ := rustLoop_spec (wsLoopStep inv V (weights U)) (lsQ V U) cfg clock (some W, some H) hm
    refine ⟨(List.range t).map fun s => qLoss V U (Ws (s + 1)) (Hs (s + 1)), ?_, ?_, fun q hq => ?_, fun hδ => ?_⟩
    · rw [show r.losses = _ from t4, List.map_map]
      exact List.map_congr_left fun s _ => hl s
    · rw [List.pairwise_map]
      exact List.pairwise_lt_range.imp fun h => hanti (by omega)
    · obtain ⟨s, -, rfl⟩ := List.mem_map.1 hq
      exact ⟨hnn _, hle s⟩
    · have hc : r.converged = false := by
        by_contra h
        obtain ⟨c1, a, b, c2, c3, c4⟩ := t7.1 (by simpa using h)
        rw [hl] at c2 c3
        obtain rfl := Option.some.inj c2
        obtain rfl := Option.some.inj c3
        have h1 := effN_pos cfg.convergeN
        have := hanti (show t - 1 + 1 - effN cfg.convergeN + 1 ≤ t - 1 + 1 by omega)
        dsimp only at this
        linarith
      refine ⟨hc, ?_⟩
      rw [List.length_map, List.length_range, t9 hc]
      omega
  · refine ⟨[], ?_, List.Pairwise.nil, by simp, fun _ => ?_⟩
    · simp [r, rustLoop_zero _ _ _ _ _ (not_lt.1 hm), rustInit]
    · refine ⟨by simp [r, rustLoop_zero _ _ _ _ _ (not_lt.1 hm), rustInit], ?_⟩
      simp only [List.length_nil]
      omega

/-- A run whose losses fall and start below `p · converge_delta` converges in time. -/
theorem loop_in_time {σ K : Type*} [Field K] [LinearOrder K] [IsStrictOrderedRing K] (step : Bool → σ → σ) (loss : σ → Option K) (cfg : LoopCfg K) (clock : ℕ → Bool) (s : σ) (q : ℕ → K)
    (hq : ∀ i, lossAt step loss (rustUpdatesH cfg) s i = some (q i)) (hanti : Antitone q) (h0 : ∀ i, 0 ≤ q i) (hδ : 0 < cfg.delta) (hn : 1 ≤ cfg.convergeN) (p : ℕ) (hp : q 0 < p * cfg.delta)
    (hmax : (cfg.convergeN - 1) * p + 1 ≤ cfg.maxIter) :
    (rustLoop step loss cfg clock s).converged = true ∧ ((rustLoop step loss cfg clock s).losses.length : ℤ) ≤ (cfg.convergeN - 1) * p + 1 := by
  have hnn : (0 : ℤ) ≤ (cfg.convergeN - 1) * p := mul_nonneg (by omega) (by omega)
  obtain ⟨i, -, hi1, hi2, hi3⟩ := crit_in_time q hanti h0 (effN cfg.convergeN) (effN_pos _) cfg.delta hδ p 0 hp
  have hcrit : Crit (lossAt step loss (rustUpdatesH cfg) s) (effN cfg.convergeN) cfg.delta i := ⟨hi1, _, _, hq _, hq _, hi3⟩
  have hN : ((effN cfg.convergeN - 1 : ℕ) : ℤ) = cfg.convergeN - 1 := by unfold effN; omega
  have hi4 : (i : ℤ) ≤ (cfg.convergeN - 1) * p := by
    rw [← hN]
    rw [Nat.zero_add] at hi2
    exact_mod_cast hi2
  obtain ⟨t, t1, t2, t3, t4, -, -, t7, t8, t9, -⟩ := rustLoop_spec step loss cfg clock s (by omega)
  have hlen : (rustLoop step loss cfg clock s).losses.length = t := by rw [t4]; simp
  have hti : t ≤ i + 1 := by
    by_contra h
    exact t8 i (by omega) hcrit
  refine ⟨?_, by rw [hlen]; omega⟩
  by_contra hc
  have ht := t9 (by simpa using hc)
  have : t - 1 = i := by omega
  rw [← this] at hcrit
  exact hc (t7.2 hcrit)

/-- **C252 (convergence).** With a positive `converge_delta` such a run converges: if `p · converge_delta` exceeds the loss of the empty model, it does so within `(converge_n - 1) · p + 1` iterations, however bad the starting profiles. -/
theorem C252_converges {inv : Mat k k ℝ → Mat k k ℝ} {V U : Mat m n ℝ} {W : Mat m k ℝ} {H : Mat k n ℝ} (cfg : LoopCfg ℝ) (clock : ℕ → Bool) (g : WsProper inv V U (rustUpdatesH cfg) W H)
    (hδ : 0 < cfg.delta) (hn : 1 ≤ cfg.convergeN) (p : ℕ) (hp : (∑ i, ∑ j, (V i j / U i j) ^ 2) < p * cfg.delta) (hmax : (cfg.convergeN - 1) * p + 1 ≤ cfg.maxIter) :
    let r := rustLoop (wsLoopStep inv V (weights U)) (lsQ V U) cfg clock (some W, some H)
    r.converged = true ∧ (r.losses.length : ℤ) ≤ (cfg.convergeN - 1) * p + 1 := by
  obtain ⟨Ws, Hs, -, -, -, hl, -, hanti, hnn, hle⟩ := ws_losses g
  exact loop_in_time _ _ cfg clock _ _ hl (fun a b h => hanti (by omega)) (fun i => hnn _) hδ hn p (lt_of_le_of_lt (hle 0) hp) hmax

/-- **C252 (ls-nmf).** The same bound, free of the start, holds for ls-nmf. -/
theorem C252_ls {K : Type*} [Field K] [LinearOrder K] [IsStrictOrderedRing K] {V U : Mat m n K} {W : Mat m k K} {H : Mat k n K} (g : GoodStart V U W H) (cfg : LoopCfg K) (clock : ℕ → Bool) (rm : Bool) (rn : ℤ)
    (hδ : 0 < cfg.delta) (hn : 1 ≤ cfg.convergeN) (p : ℕ) (hp : (∑ i, ∑ j, (V i j / U i j) ^ 2) < p * cfg.delta) (hmax : (cfg.convergeN - 1) * p + 1 ≤ cfg.maxIter) :
    let r := lsTrain V U cfg clock rm rn W H
    r.converged = true ∧ (r.losses.length : ℤ) ≤ (cfg.convergeN - 1) * p + 1 := by
  obtain ⟨q, hq, hanti, h0, -⟩ := lossAt_good g (rustUpdatesH cfg)
  obtain ⟨Ws, Hs, -, -, ht, hpos, hu⟩ := traj_updates g (rustUpdatesH cfg)
  have e := hq 0
  rw [lossAt, ht] at e
  have e' : qLoss V U (Ws 1) (Hs 1) = q 0 := Option.some.inj e
  exact loop_in_time _ _ cfg clock _ q hq hanti h0 hδ hn p
    (lt_of_le_of_lt (e' ▸ (C246_empty_model V U _ _ _ _ _ g.data (fun i a => ((hpos 0).1 i a).le) (fun a j => ((hpos 0).2 a j).le) (hu 0)).2) hp) hmax

/-- **C252 (movement).** Over the first `T` iterations the factors move in total by at most the starting loss, and after the first iteration by at most the loss of the empty model: some iteration among them moves by at most the `T`-th part. A converged run
moved by less than the tolerance in its last `converge_n - 1` iterations. -/
theorem C252_moved {inv : Mat k k ℝ → Mat k k ℝ} {V U : Mat m n ℝ} {W : Mat m k ℝ} {H : Mat k n ℝ} (cfg : LoopCfg ℝ) (clock : ℕ → Bool) (g : WsProper inv V U (rustUpdatesH cfg) W H) :
    let r := rustLoop (wsLoopStep inv V (weights U)) (lsQ V U) cfg clock (some W, some H)
    ∃ (Ws : ℕ → Mat m k ℝ) (Hs : ℕ → Mat k n ℝ), Ws 0 = W ∧ Hs 0 = H ∧ (∀ s, traj (wsLoopStep inv V (weights U)) (rustUpdatesH cfg) (some W, some H) s = (some (Ws s), some (Hs s))) ∧
      (∀ T, (∑ s ∈ Finset.range T, wsAmountMoved U (Ws s) (Ws (s + 1)) (Hs s) (Hs (s + 1))) ≤ ∑ i, ∑ j, ((V i j - ∑ a, W i a * H a j) / U i j) ^ 2) ∧
      (∀ T, (∑ s ∈ Finset.range T, wsAmountMoved U (Ws (1 + s)) (Ws (1 + s + 1)) (Hs (1 + s)) (Hs (1 + s + 1))) ≤ ∑ i, ∑ j, (V i j / U i j) ^ 2) ∧
      (∀ T, 0 < T → ∃ s < T, wsAmountMoved U (Ws (1 + s)) (Ws (1 + s + 1)) (Hs (1 + s)) (Hs (1 + s + 1)) ≤ (∑ i, ∑ j, (V i j / U i j) ^ 2) / T) ∧
      (r.converged = true → (∑ s ∈ Finset.range ((max cfg.convergeN 1).toNat - 1), wsAmountMoved U (Ws (r.losses.length - (max cfg.convergeN 1).toNat + 1 + s)) (Ws (r.losses.length - (max cfg.convergeN 1).toNat + 1 + s + 1))
        (Hs (r.losses.length - (max cfg.convergeN 1).toNat + 1 + s)) (Hs (r.losses.length - (max cfg.convergeN 1).toNat + 1 + s + 1))) < cfg.delta) := by
  intro r
  obtain ⟨Ws, Hs, h0, h1, ht, hl, hd, hanti, hnn, hle⟩ := ws_losses g
  have sums := fun lo T => sum_drops (fun s => qLoss V U (Ws s) (Hs s)) (fun s => wsAmountMoved U (Ws s) (Ws (s + 1)) (Hs s) (Hs (s + 1))) hd lo T
  have hQ : qLoss V U W H = ∑ i, ∑ j, ((V i j - ∑ a, W i a * H a j) / U i j) ^ 2 := by
    simp only [qLoss, if_true, ← pow_two]; rfl
  have tail : ∀ T, (∑ s ∈ Finset.range T, wsAmountMoved U (Ws (1 + s)) (Ws (1 + s + 1)) (Hs (1 + s)) (Hs (1 + s + 1))) ≤ ∑ i, ∑ j, (V i j / U i j) ^ 2 := fun T => by
    have a1 := sums 1 T
    have a2 := hnn (1 + T)
    have a3 := hle 0
    rw [Nat.zero_add] at a3
    linarith
  refine ⟨Ws, Hs, h0, h1, ht, fun T => ?_, tail, fun T hT => ?_, fun hc => ?_⟩
  · have a1 := sums 0 T
    have a2 := hnn (0 + T)
    simp only [Nat.zero_add, h0, h1] at a1 a2
    rw [← hQ]
    linarith
  · by_contra hc
    push Not at hc
    have hT' : (0 : ℝ) < T := by exact_mod_cast hT
    have : ∑ s ∈ Finset.range T, (∑ i, ∑ j, (V i j / U i j) ^ 2) / T < ∑ s ∈ Finset.range T, wsAmountMoved U (Ws (1 + s)) (Ws (1 + s + 1)) (Hs (1 + s)) (Hs (1 + s + 1)) :=
      Finset.sum_lt_sum_of_nonempty ⟨0, Finset.mem_range.2 hT⟩ fun s hs => hc s (Finset.mem_range.1 hs)
    rw [Finset.sum_const, Finset.card_range, nsmul_eq_mul, mul_div_cancel₀ _ hT'.ne'] at this
    exact absurd (tail T) (not_le.2 this)
  · by_cases hm : 0 < cfg.maxIter
    · obtain ⟨t, t1, t2, t3, t4, -, -, t7, -⟩ := rustLoop_spec (wsLoopStep inv V (weights U)) (lsQ V U) cfg clock (some W, some H) hm
      have hlen : r.losses.length = t := by rw [show r.losses = _ from t4]; simp
      obtain ⟨c1, a, b, c2, c3, c4⟩ := t7.1 hc
      rw [hl] at c2 c3
      obtain rfl := Option.some.inj c2
      obtain rfl := Option.some.inj c3
      have hN : effN cfg.convergeN = (max cfg.convergeN 1).toNat := by unfold effN; omega
      rw [hN] at c1 c4
      rw [hlen]
      have h1 : 1 ≤ (max cfg.convergeN 1).toNat := by omega
      have a1 := sums (t - (max cfg.convergeN 1).toNat + 1) ((max cfg.convergeN 1).toNat - 1)
      rw [show t - (max cfg.convergeN 1).toNat + 1 + ((max cfg.convergeN 1).toNat - 1) = t by omega] at a1
      rw [show t - 1 + 1 - (max cfg.convergeN 1).toNat = t - (max cfg.convergeN 1).toNat by omega, show t - 1 + 1 = t by omega] at c4
      linarith
    · rw [show r = _ from rustLoop_zero _ _ _ _ _ (not_lt.1 hm)] at hc
      exact absurd hc (by simp [rustInit])

/-! ## One factor -/

/-- **C252 (one factor).** With one factor, non-negative data and positive starting profile the contributions are never negative: every run is of this kind, whatever the settings and the starting contributions. -/
theorem C252_one_factor (inv : Mat 1 1 ℝ → Mat 1 1 ℝ) (hinv : ∀ A : Mat 1 1 ℝ, A 0 0 ≠ 0 → inv A 0 0 = 1 / A 0 0) (V U : Mat m n ℝ) (W : Mat m 1 ℝ) (H : Mat 1 n ℝ) (flags : ℕ → Bool) (hn : 0 < n)
    (hV : ∀ i j, 0 ≤ V i j) (hU : ∀ i j, U i j ≠ 0) (hH : ∀ a j, 0 < H a j) : WsProper inv V U flags W H := by
  obtain ⟨Ws, Hs, h0, h1, ht, hp, hu⟩ := ws_traj inv V U flags W H hV hH
  have hwe : ∀ i j, 0 < weights U i j := fun i j => by
    have := hU i j
    unfold weights
    positivity
  have hpos : ∀ s i, 0 < ∑ j, Hs s 0 j * (weights U i j * Hs s 0 j) := fun s i =>
    Finset.sum_pos (fun j _ => mul_pos (hp s 0 j) (mul_pos (hwe i j) (hp s 0 j))) ⟨⟨0, hn⟩, Finset.mem_univ _⟩
  refine ⟨hV, hH, fun s X hX i a b => ?_, fun s Y hY i a => ?_⟩
  · rw [ht] at hX
    obtain rfl := Option.some.inj hX
    rw [Subsingleton.elim a 0, Subsingleton.elim b 0, Fin.sum_univ_one, hinv _ (hpos s i).ne', one_div, inv_mul_cancel₀ (hpos s i).ne', if_pos rfl]
  · rw [ht] at hY
    obtain rfl := Option.some.inj hY
    have h2 : wsStepW inv V (weights U) (Hs s) = Ws (s + 1) := congrArg Prod.fst (hu s)
    rw [← h2, Subsingleton.elim a 0, wsStepW, Fin.sum_univ_one]
    have h3 := hinv (wsNormal (weights U) (Hs s) i) (hpos s i).ne'
    rw [h3]
    exact mul_nonneg (Finset.sum_nonneg fun j _ => mul_nonneg (hp s 0 j).le (mul_nonneg (hwe i j).le (hV i j))) (one_div_nonneg.2 (hpos s i).le)

/-! ## Concrete cases -/

/-- Data, settings and inverse of the cases. -/
def wsRunV : Mat 2 2 ℝ := ![![1, 2], ![0, 4]]
def wsRunCfg : LoopCfg ℝ := ⟨100, 1, 5, false, 0⟩
noncomputable def wsRunInv : Mat 1 1 ℝ → Mat 1 1 ℝ := fun A => fun a b => 1 / A a b

theorem wsRun_proper (W : Mat 2 1 ℝ) (H : Mat 1 2 ℝ) (hH : ∀ a j, 0 < H a j) : WsProper wsRunInv wsRunV (fun _ _ => 1) (rustUpdatesH wsRunCfg) W H :=
  C252_one_factor wsRunInv (fun A _ => rfl) wsRunV (fun _ _ => 1) W H _ (by norm_num)
    (by intro i j; fin_cases i <;> fin_cases j <;> simp [wsRunV]) (by intro i j; norm_num) hH

theorem wsRun_empty : (∑ i, ∑ j, (wsRunV i j / (1 : ℝ)) ^ 2) = 21 := by
  rw [Fin.sum_univ_two, Fin.sum_univ_two, Fin.sum_univ_two]
  simp only [wsRunV, Matrix.cons_val_zero, Matrix.cons_val_one]
  norm_num

/-- Two samples, two features, one factor, a tolerance of 1: the run converges within 89 iterations whatever the starting profile. -/
example (W : Mat 2 1 ℝ) (H : Mat 1 2 ℝ) (hH : ∀ a j, 0 < H a j) (clock : ℕ → Bool) :
    let r := rustLoop (wsLoopStep wsRunInv wsRunV (weights fun _ _ => 1)) (lsQ wsRunV fun _ _ => 1) wsRunCfg clock (some W, some H)
    r.converged = true ∧ (r.losses.length : ℤ) ≤ 89 ∧ ∃ qs : List ℝ, r.losses = qs.map some ∧ qs.Pairwise (fun q q' => q' ≤ q) ∧ ∀ q ∈ qs, q ≤ 21 := by
  intro r
  obtain ⟨a, b⟩ := C252_converges wsRunCfg clock (wsRun_proper W H hH) (by norm_num [wsRunCfg]) (by norm_num [wsRunCfg]) 22 (by rw [wsRun_empty]; norm_num [wsRunCfg]) (by norm_num [wsRunCfg])
  obtain ⟨qs, c, d, e, -⟩ := C252_losses wsRunCfg clock (wsRun_proper W H hH)
  exact ⟨a, b.trans (by norm_num [wsRunCfg]), qs, c, d, fun q hq => wsRun_empty ▸ (e q hq).2⟩

/-- After the first iteration the factors of this run move by 21 in total, so some of the iterations 2 to 101 moves by at most 0.21. -/
example (W : Mat 2 1 ℝ) (H : Mat 1 2 ℝ) (hH : ∀ a j, 0 < H a j) :
    ∃ (Ws : ℕ → Mat 2 1 ℝ) (Hs : ℕ → Mat 1 2 ℝ), Ws 0 = W ∧ Hs 0 = H ∧
      ∃ s < 100, wsAmountMoved (fun _ _ => (1 : ℝ)) (Ws (1 + s)) (Ws (1 + s + 1)) (Hs (1 + s)) (Hs (1 + s + 1)) ≤ 21 / 100 := by
  obtain ⟨Ws, Hs, h0, h1, -, -, -, h2, -⟩ := C252_moved wsRunCfg (fun _ => false) (wsRun_proper W H hH)
  refine ⟨Ws, Hs, h0, h1, ?_⟩
  obtain ⟨s, hs, h3⟩ := h2 100 (by norm_num)
  rw [wsRun_empty] at h3
  exact ⟨s, hs, by exact_mod_cast h3⟩

end Esat
