import Verif.Props.DownWeight
import Verif.Props.WsRuns
import Mathlib.Topology.Instances.Matrix
import Mathlib.LinearAlgebra.Matrix.NonsingularInverse
import Mathlib.LinearAlgebra.Matrix.ToLinearEquiv

/-!
# C264: small changes of the data under ws-nmf

What a small change of the data, the uncertainties or the starting profiles does to the result of a ws-nmf training.
-/

namespace Esat

open Filter Topology

variable {m n k : ℕ} {ι : Type*} {l : Filter ι}

/-- The profiles are linearly independent: no factor's profile is a combination of the others. -/
def Independent (X : Mat k n ℝ) : Prop := ∀ c : Fin k → ℝ, (∀ j, ∑ a, c a * X a j = 0) → ∀ a, c a = 0

/-! ## The contributions -/

theorem normal_inverse (We : Mat m n ℝ) (hWe : ∀ i j, 0 < We i j) (X : Mat k n ℝ) (hX : Independent X) (i : Fin m) : ∃ B, IsLeftInverse B (wsNormal We X i) := by
  let N : Matrix (Fin k) (Fin k) ℝ := wsNormal We X i
  have hdet : N.det ≠ 0 := by
    intro h0
    obtain ⟨v, hv, hN⟩ := Matrix.exists_mulVec_eq_zero_iff.2 h0
    refine hv (funext fun a => hX v (fun j => ?_) a)
    have hq : ∑ j, We i j * (∑ a, v a * X a j) ^ 2 = 0 := by
      have e : ∑ j, We i j * (∑ a, v a * X a j) ^ 2 = ∑ a, v a * (N.mulVec v) a := by
        simp only [Matrix.mulVec, dotProduct, N, wsNormal, Finset.mul_sum, Finset.sum_mul, pow_two]
        rw [Finset.sum_comm]
        refine Finset.sum_congr rfl fun a _ => ?_
        rw [Finset.sum_comm]
        refine Finset.sum_congr rfl fun b _ => Finset.sum_congr rfl fun j _ => ?_
        ring
      rw [e, hN]
      simp
    have := (Finset.sum_eq_zero_iff_of_nonneg fun j _ => mul_nonneg (hWe i j).le (sq_nonneg _)).1 hq j (Finset.mem_univ _)
    rcases mul_eq_zero.1 this with h | h
    · exact absurd h (hWe i j).ne'
    · exact pow_eq_zero_iff (two_ne_zero) |>.1 h
  refine ⟨(N⁻¹ : Matrix (Fin k) (Fin k) ℝ), fun a b => ?_⟩
  have := congrFun (congrFun (Matrix.nonsing_inv_mul N (isUnit_iff_ne_zero.2 hdet)) a) b
  rw [Matrix.mul_apply, Matrix.one_apply] at this
  exact this

theorem tendsto_inverse (inv : Mat k k ℝ → Mat k k ℝ) (hinv : ∀ A B, IsLeftInverse B A → inv A = B) {A : ι → Mat k k ℝ} {A0 : Mat k k ℝ} (hA : Tendsto A l (𝓝 A0)) (B : Mat k k ℝ) (hB : IsLeftInverse B A0) :
    Tendsto (fun x => inv (A x)) l (𝓝 (inv A0)) := by
  let A' : ι → Matrix (Fin k) (Fin k) ℝ := A
  let N : Matrix (Fin k) (Fin k) ℝ := A0
  have hA' : Tendsto A' l (𝓝 N) := hA
  let B' : Matrix (Fin k) (Fin k) ℝ := B
  have hBN : B' * N = 1 := by
    ext a b
    rw [Matrix.mul_apply, Matrix.one_apply]
    exact hB a b
  have hdet : N.det ≠ 0 := (Matrix.isUnit_det_of_left_inverse hBN).ne_zero
  have hd : Tendsto (fun x => (A' x).det) l (𝓝 N.det) := ((continuous_id.matrix_det).tendsto N).comp hA'
  have hadj : Tendsto (fun x => (A' x).adjugate) l (𝓝 N.adjugate) := ((continuous_id.matrix_adjugate).tendsto N).comp hA'
  have hlim : Tendsto (fun x => (A' x)⁻¹) l (𝓝 N⁻¹) := by
    simp only [Matrix.inv_def, Ring.inverse_eq_inv']
    exact (hd.inv₀ hdet).smul hadj
  have left : ∀ M : Matrix (Fin k) (Fin k) ℝ, M.det ≠ 0 → inv M = M⁻¹ := fun M hM => hinv M (Inv.inv (α := Matrix (Fin k) (Fin k) ℝ) M) fun a b => by
    have := congrFun (congrFun (Matrix.nonsing_inv_mul M (isUnit_iff_ne_zero.2 hM)) a) b
    rw [Matrix.mul_apply, Matrix.one_apply] at this
    exact this
  rw [show inv A0 = N⁻¹ from left N hdet]
  refine Tendsto.congr' ?_ hlim
  filter_upwards [hd.eventually_ne hdet] with x hx
  exact (left (A' x) hx).symm

theorem tendsto_wsStepW (inv : Mat k k ℝ → Mat k k ℝ) (hinv : ∀ A B, IsLeftInverse B A → inv A = B) {V We : ι → Mat m n ℝ} {H : ι → Mat k n ℝ} {V0 We0 : Mat m n ℝ} {H0 : Mat k n ℝ}
    (hV : Tendsto V l (𝓝 V0)) (hE : Tendsto We l (𝓝 We0)) (hH : Tendsto H l (𝓝 H0)) (hpos : ∀ i j, 0 < We0 i j) (hX : Independent H0) :
    Tendsto (fun x => wsStepW inv (V x) (We x) (H x)) l (𝓝 (wsStepW inv V0 We0 H0)) := by
  refine tendsto_pi_nhds.2 fun i => tendsto_pi_nhds.2 fun b => ?_
  have hHe : ∀ a j, Tendsto (fun x => H x a j) l (𝓝 (H0 a j)) := fun a j => tendsto_pi_nhds.1 (tendsto_pi_nhds.1 hH a) j
  have hEe : ∀ j, Tendsto (fun x => We x i j) l (𝓝 (We0 i j)) := fun j => tendsto_pi_nhds.1 (tendsto_pi_nhds.1 hE i) j
  have hVe : ∀ j, Tendsto (fun x => V x i j) l (𝓝 (V0 i j)) := fun j => tendsto_pi_nhds.1 (tendsto_pi_nhds.1 hV i) j
  have hN : Tendsto (fun x => wsNormal (We x) (H x) i) l (𝓝 (wsNormal We0 H0 i)) :=
    tendsto_pi_nhds.2 fun a => tendsto_pi_nhds.2 fun b => tendsto_finsetSum _ fun j _ => (hHe a j).mul ((hEe j).mul (hHe b j))
  obtain ⟨B, hB⟩ := normal_inverse We0 hpos H0 hX i
  have hI := tendsto_inverse inv hinv hN B hB
  unfold wsStepW
  refine tendsto_finsetSum _ fun a _ => Tendsto.mul ?_ (tendsto_pi_nhds.1 (tendsto_pi_nhds.1 hI a) b)
  exact tendsto_finsetSum _ fun j _ => (hHe a j).mul ((hEe j).mul (hVe j))

/-! ## The profiles -/

theorem tendsto_wsStepH {V We : ι → Mat m n ℝ} {W : ι → Mat m k ℝ} {H : ι → Mat k n ℝ} {V0 We0 : Mat m n ℝ} {W0 : Mat m k ℝ} {H0 H1 : Mat k n ℝ}
    (hV : Tendsto V l (𝓝 V0)) (hE : Tendsto We l (𝓝 We0)) (hW : Tendsto W l (𝓝 W0)) (hH : Tendsto H l (𝓝 H0))
    (pV : ∀ i j, 0 ≤ V0 i j) (pE : ∀ i j, 0 ≤ We0 i j) (pH : ∀ a j, 0 ≤ H0 a j) (h : wsStepH V0 We0 W0 H0 = some H1) :
    ∃ H' : ι → Mat k n ℝ, (∀ᶠ x in l, wsStepH (V x) (We x) (W x) (H x) = some (H' x)) ∧ Tendsto H' l (𝓝 H1) := by
  have hHe : ∀ a j, Tendsto (fun x => H x a j) l (𝓝 (H0 a j)) := fun a j => tendsto_pi_nhds.1 (tendsto_pi_nhds.1 hH a) j
  have hEe : ∀ i j, Tendsto (fun x => We x i j) l (𝓝 (We0 i j)) := fun i j => tendsto_pi_nhds.1 (tendsto_pi_nhds.1 hE i) j
  have hVe : ∀ i j, Tendsto (fun x => V x i j) l (𝓝 (V0 i j)) := fun i j => tendsto_pi_nhds.1 (tendsto_pi_nhds.1 hV i) j
  have hWe : ∀ i a, Tendsto (fun x => W x i a) l (𝓝 (W0 i a)) := fun i a => tendsto_pi_nhds.1 (tendsto_pi_nhds.1 hW i) a
  have hp : ∀ i a, Tendsto (fun x => wsPos (W x) i a) l (𝓝 (wsPos W0 i a)) := fun i a => ((hWe i a).abs.add (hWe i a)).div_const 2
  have hn : ∀ i a, Tendsto (fun x => wsNeg (W x) i a) l (𝓝 (wsNeg W0 i a)) := fun i a => ((hWe i a).abs.sub (hWe i a)).div_const 2
  have lin : ∀ {A : ι → Mat m k ℝ} {A0 : Mat m k ℝ}, (∀ i a, Tendsto (fun x => A x i a) l (𝓝 (A0 i a))) → ∀ b j, Tendsto (fun x => wsLin (V x) (We x) (A x) b j) l (𝓝 (wsLin V0 We0 A0 b j)) :=
    fun hA b j => tendsto_finsetSum _ fun i _ => ((hEe i j).mul (hVe i j)).mul (hA i b)
  have quad : ∀ {A : ι → Mat m k ℝ} {A0 : Mat m k ℝ}, (∀ i a, Tendsto (fun x => A x i a) l (𝓝 (A0 i a))) → ∀ b j, Tendsto (fun x => wsQuad (We x) (A x) (H x) b j) l (𝓝 (wsQuad We0 A0 H0 b j)) :=
    fun hA b j => tendsto_finsetSum _ fun a _ => (hHe a j).mul (tendsto_finsetSum _ fun i _ => ((hA i a).mul (hEe i j)).mul (hA i b))
  have hnum : ∀ b j, Tendsto (fun x => wsNum (V x) (We x) (W x) (H x) b j) l (𝓝 (wsNum V0 We0 W0 H0 b j)) := fun b j => ((lin hp b j).add (quad hn b j)).add_const _
  have hden : ∀ b j, Tendsto (fun x => wsDen (V x) (We x) (W x) (H x) b j) l (𝓝 (wsDen V0 We0 W0 H0 b j)) := fun b j => ((lin hn b j).add (quad hp b j)).add_const _
  have eps : 0 < wsEps := by norm_num [wsEps]
  have p1 : ∀ i a, 0 ≤ wsPos W0 i a := fun i a => by unfold wsPos; linarith [neg_abs_le (W0 i a)]
  have p2 : ∀ i a, 0 ≤ wsNeg W0 i a := fun i a => by unfold wsNeg; linarith [le_abs_self (W0 i a)]
  have plin : ∀ {A0 : Mat m k ℝ}, (∀ i a, 0 ≤ A0 i a) → ∀ b j, 0 ≤ wsLin V0 We0 A0 b j := fun hA b j => Finset.sum_nonneg fun i _ => mul_nonneg (mul_nonneg (pE i j) (pV i j)) (hA i b)
  have pquad : ∀ {A0 : Mat m k ℝ}, (∀ i a, 0 ≤ A0 i a) → ∀ b j, 0 ≤ wsQuad We0 A0 H0 b j := fun hA b j =>
    Finset.sum_nonneg fun a _ => mul_nonneg (pH a j) (Finset.sum_nonneg fun i _ => mul_nonneg (mul_nonneg (hA i a) (pE i j)) (hA i b))
  have pnum : ∀ b j, 0 < wsNum V0 We0 W0 H0 b j := fun b j => add_pos_of_nonneg_of_pos (add_nonneg (plin p1 b j) (pquad p2 b j)) eps
  have pden : ∀ b j, 0 < wsDen V0 We0 W0 H0 b j := fun b j => add_pos_of_nonneg_of_pos (add_nonneg (plin p2 b j) (pquad p1 b j)) eps
  refine ⟨fun x b j => H x b j * Real.sqrt (wsNum (V x) (We x) (W x) (H x) b j / wsDen (V x) (We x) (W x) (H x) b j), ?_, ?_⟩
  · have ev : ∀ᶠ x in l, ∀ b j, 0 < wsNum (V x) (We x) (W x) (H x) b j ∧ 0 < wsDen (V x) (We x) (W x) (H x) b j := by
      rw [eventually_all]
      intro b
      rw [eventually_all]
      intro j
      exact ((hnum b j).eventually_const_lt (pnum b j)).and ((hden b j).eventually_const_lt (pden b j))
    filter_upwards [ev] with x hx
    exact if_pos fun b j => ⟨(hx b j).2.ne', (div_pos (hx b j).1 (hx b j).2).le⟩
  · have e : H1 = fun b j => H0 b j * Real.sqrt (wsNum V0 We0 W0 H0 b j / wsDen V0 We0 W0 H0 b j) := by
      have e1 : wsStepH V0 We0 W0 H0 = some fun b j => H0 b j * Real.sqrt (wsNum V0 We0 W0 H0 b j / wsDen V0 We0 W0 H0 b j) := if_pos fun b j => ⟨(pden b j).ne', (div_pos (pnum b j) (pden b j)).le⟩
      rw [e1] at h
      exact (Option.some.inj h).symm
    rw [e]
    exact tendsto_pi_nhds.2 fun b => tendsto_pi_nhds.2 fun j => (hHe b j).mul (((hnum b j).div (hden b j) (pden b j).ne').sqrt)

/-! ## Runs -/

/-- **C264, updates.** Let data, uncertainties and starting profiles approach non-negative data, non-zero uncertainties and positive profiles. As long as the profiles of the limit are linearly independent before every update, the factors after
every fixed number of ws-nmf updates exist from some point on and approach those of the limit. -/
theorem C264_updates (inv : Mat k k ℝ → Mat k k ℝ) (hinv : ∀ A B, IsLeftInverse B A → inv A = B) {V U : ι → Mat m n ℝ} {W : ι → Mat m k ℝ} {H : ι → Mat k n ℝ} {V0 U0 : Mat m n ℝ} {W0 : Mat m k ℝ} {H0 : Mat k n ℝ}
    (hV : Tendsto V l (𝓝 V0)) (hU : Tendsto U l (𝓝 U0)) (hW : Tendsto W l (𝓝 W0)) (hH : Tendsto H l (𝓝 H0)) (pV : ∀ i j, 0 ≤ V0 i j) (nU : ∀ i j, U0 i j ≠ 0) (pH : ∀ a j, 0 < H0 a j) (flags : ℕ → Bool) (t : ℕ)
    (hreg : ∀ s X, s < t → (traj (wsLoopStep inv V0 (weights U0)) flags (some W0, some H0) s).2 = some X → Independent X) :
    ∃ (Wt : ι → Mat m k ℝ) (Ht : ι → Mat k n ℝ) (Wl : Mat m k ℝ) (Hl : Mat k n ℝ),
      (∀ᶠ x in l, traj (wsLoopStep inv (V x) (weights (U x))) flags (some (W x), some (H x)) t = (some (Wt x), some (Ht x))) ∧
      traj (wsLoopStep inv V0 (weights U0)) flags (some W0, some H0) t = (some Wl, some Hl) ∧ Tendsto Wt l (𝓝 Wl) ∧ Tendsto Ht l (𝓝 Hl) := by
  obtain ⟨Ws, Hs, h0, h1, ht, hp, hu⟩ := ws_traj inv V0 U0 flags W0 H0 pV pH
  have hE := tendsto_weights hU nU
  have pE : ∀ i j, 0 < weights U0 i j := fun i j => by have := nU i j; unfold weights; positivity
  induction t with
  | zero => exact ⟨W, H, W0, H0, Eventually.of_forall fun x => rfl, rfl, hW, hH⟩
  | succ t ih =>
    obtain ⟨Wt, Ht, Wl, Hl, e1, e2, e3, e4⟩ := ih fun s X hs => hreg s X (by omega)
    have hi := hreg t Hl (by omega) (by rw [e2])
    rw [ht t] at e2
    obtain rfl : Ws t = Wl := Option.some.inj (congrArg Prod.fst e2)
    obtain rfl : Hs t = Hl := Option.some.inj (congrArg Prod.snd e2)
    have hw := tendsto_wsStepW inv hinv hV hE e4 pE hi
    have hu' := hu t
    simp only [wsUpdate, Prod.mk.injEq] at hu'
    obtain ⟨u1, u2⟩ := hu'
    rw [u1] at hw u2
    cases hf : flags t with
    | true =>
      have u3 : wsStepH V0 (weights U0) (Ws (t + 1)) (Hs t) = some (Hs (t + 1)) := by simpa [hf] using u2
      obtain ⟨H', a1, a2⟩ := tendsto_wsStepH hV hE hw e4 pV (fun i j => (pE i j).le) (fun a j => (hp t a j).le) u3
      refine ⟨_, H', _, _, ?_, ht (t + 1), hw, a2⟩
      filter_upwards [e1, a1] with x x1 x2
      rw [traj, x1, hf]
      simp [wsLoopStep, x2]
    | false =>
      have u3 : Hs (t + 1) = Hs t := by simpa [hf, eq_comm] using u2
      refine ⟨_, Ht, _, _, ?_, ht (t + 1), hw, by rw [u3]; exact e4⟩
      filter_upwards [e1] with x x1
      rw [traj, x1, hf]
      simp [wsLoopStep]

/-- **C264, runs.** If moreover no compared difference of losses of the limit equals `converge_delta`, then from some point on every compiled ws-nmf run has the number of iterations and the outcome of the limit, and its factors and losses approach those of the limit. -/
theorem C264_run (inv : Mat k k ℝ → Mat k k ℝ) (hinv : ∀ A B, IsLeftInverse B A → inv A = B) {V U : ι → Mat m n ℝ} {W : ι → Mat m k ℝ} {H : ι → Mat k n ℝ} {V0 U0 : Mat m n ℝ} {W0 : Mat m k ℝ} {H0 : Mat k n ℝ}
    (hV : Tendsto V l (𝓝 V0)) (hU : Tendsto U l (𝓝 U0)) (hW : Tendsto W l (𝓝 W0)) (hH : Tendsto H l (𝓝 H0)) (pV : ∀ i j, 0 ≤ V0 i j) (nU : ∀ i j, U0 i j ≠ 0) (pH : ∀ a j, 0 < H0 a j) (cfg : LoopCfg ℝ) (h : 0 < cfg.maxIter) (clock0 : ℕ → Bool)
    (hreg : ∀ s X, (traj (wsLoopStep inv V0 (weights U0)) (rustUpdatesH cfg) (some W0, some H0) s).2 = some X → Independent X)
    (T : RustState (Option (Mat m k ℝ) × Option (Mat k n ℝ)) ℝ) (hT : T = rustLoop (wsLoopStep inv V0 (weights U0)) (lsQ V0 U0) cfg clock0 (some W0, some H0))
    (hne : ∀ i a b, (max cfg.convergeN 1).toNat ≤ i + 1 → T.losses[i + 1 - (max cfg.convergeN 1).toNat]? = some (some a) → T.losses[i]? = some (some b) → a - b ≠ cfg.delta) :
    ∃ (W' : ι → Mat m k ℝ) (H' : ι → Mat k n ℝ) (Wl : Mat m k ℝ) (Hl : Mat k n ℝ) (q : ι → ℕ → ℝ) (ql : ℕ → ℝ),
      T.factors = (some Wl, some Hl) ∧ Tendsto W' l (𝓝 Wl) ∧ Tendsto H' l (𝓝 Hl) ∧ (∀ i, Tendsto (fun x => q x i) l (𝓝 (ql i))) ∧ (∀ i, i < T.losses.length → T.losses[i]? = some (some (ql i))) ∧
      ∀ᶠ x in l, ∀ clock : ℕ → Bool,
        (rustLoop (wsLoopStep inv (V x) (weights (U x))) (lsQ (V x) (U x)) cfg clock (some (W x), some (H x))).factors = (some (W' x), some (H' x)) ∧
        (rustLoop (wsLoopStep inv (V x) (weights (U x))) (lsQ (V x) (U x)) cfg clock (some (W x), some (H x))).converged = T.converged ∧
        (rustLoop (wsLoopStep inv (V x) (weights (U x))) (lsQ (V x) (U x)) cfg clock (some (W x), some (H x))).convergeI = T.convergeI ∧
        (rustLoop (wsLoopStep inv (V x) (weights (U x))) (lsQ (V x) (U x)) cfg clock (some (W x), some (H x))).losses = (List.range T.losses.length).map fun i => some (q x i) := by
  choose Wt Ht Wl Hl e1 e2 e3 e4 using fun t => C264_updates inv hinv hV hU hW hH pV nU pH (rustUpdatesH cfg) t fun s X _ => hreg s X
  obtain ⟨t, t1, t2, t3, t4, -⟩ := rustLoop_spec (wsLoopStep inv V0 (weights U0)) (lsQ V0 U0) cfg clock0 (some W0, some H0) h
  rw [← hT] at t3 t4
  have hlen : T.losses.length = t := by rw [t4]; simp
  have hl0 : ∀ i, lossAt (wsLoopStep inv V0 (weights U0)) (lsQ V0 U0) (rustUpdatesH cfg) (some W0, some H0) i = some (qLoss V0 U0 (Wl (i + 1)) (Hl (i + 1))) := fun i => by rw [lossAt, e2]; rfl
  have hloss : ∀ i, i < t → T.losses[i]? = some (some (qLoss V0 U0 (Wl (i + 1)) (Hl (i + 1)))) := fun i hi => by
    rw [t4, List.getElem?_map, List.getElem?_range hi, ← hl0 i]; rfl
  have hq : ∀ i, Tendsto (fun x => qLoss (V x) (U x) (Wt (i + 1) x) (Ht (i + 1) x)) l (𝓝 (qLoss V0 U0 (Wl (i + 1)) (Hl (i + 1)))) := fun i => tendsto_qLoss hV hU nU (e3 (i + 1)) (e4 (i + 1))
  have hx : ∀ i, ∀ᶠ x in l, lossAt (wsLoopStep inv (V x) (weights (U x))) (lsQ (V x) (U x)) (rustUpdatesH cfg) (some (W x), some (H x)) i = some (qLoss (V x) (U x) (Wt (i + 1) x) (Ht (i + 1) x)) := fun i => by
    filter_upwards [e1 (i + 1)] with x x1
    rw [lossAt, x1]; rfl
  have key := rustLoop_limit (fun x => wsLoopStep inv (V x) (weights (U x))) (fun x => lsQ (V x) (U x)) (fun x => (some (W x), some (H x))) _ _ _ cfg h _ _ hl0 hx hq clock0 (fun i hi hlt => by
    rw [← hT, hlen] at hlt
    exact hne i _ _ hi (hloss _ (by omega)) (hloss i hlt))
  refine ⟨Wt t, Ht t, Wl t, Hl t, fun x i => qLoss (V x) (U x) (Wt (i + 1) x) (Ht (i + 1) x), fun i => qLoss V0 U0 (Wl (i + 1)) (Hl (i + 1)), by rw [t3, e2], e3 t, e4 t, hq, fun i hi => hloss i (hlen ▸ hi), ?_⟩
  filter_upwards [key, e1 t] with x x1 x2 clock
  obtain ⟨k1, k2, k3, k4⟩ := x1 clock
  rw [← hT] at k1 k2 k3 k4
  rw [hlen] at k4
  exact ⟨by rw [k4, x2], k1, k2, k3⟩

/-- With one factor the profiles of the limit are always independent. -/
theorem C264_one_factor (inv : Mat 1 1 ℝ → Mat 1 1 ℝ) (hn : 0 < n) {V0 U0 : Mat m n ℝ} {W0 : Mat m 1 ℝ} {H0 : Mat 1 n ℝ} (pV : ∀ i j, 0 ≤ V0 i j) (pH : ∀ a j, 0 < H0 a j) (flags : ℕ → Bool) (s : ℕ) (X : Mat 1 n ℝ)
    (hs : (traj (wsLoopStep inv V0 (weights U0)) flags (some W0, some H0) s).2 = some X) : Independent X := by
  obtain ⟨Ws, Hs, -, -, ht, hp, -⟩ := ws_traj inv V0 U0 flags W0 H0 pV pH
  rw [ht] at hs
  obtain rfl := Option.some.inj hs
  intro c hc a
  have := hc ⟨0, hn⟩
  rw [Fin.sum_univ_one] at this
  rcases mul_eq_zero.1 this with h | h
  · rw [Subsingleton.elim a 0, h]
  · exact absurd h (hp s 0 _).ne'

/-- With the profiles held it is enough that the starting profiles are independent. -/
theorem C264_held (inv : Mat k k ℝ → Mat k k ℝ) {V0 U0 : Mat m n ℝ} {W0 : Mat m k ℝ} {H0 : Mat k n ℝ} (h0 : Independent H0) (s : ℕ) (X : Mat k n ℝ)
    (hs : (traj (wsLoopStep inv V0 (weights U0)) (fun _ => false) (some W0, some H0) s).2 = some X) : Independent X := by
  have : ∀ s, (traj (wsLoopStep inv V0 (weights U0)) (fun _ => false) (some W0, some H0) s).2 = some H0 := by
    intro s
    induction s with
    | zero => rfl
    | succ s ih =>
      rw [traj, wsLoopStep, ih]
      simp
  rw [this] at hs
  rwa [← Option.some.inj hs]

/-- **C264, condition needed.** One sample, two features, two factors: the starting profiles `(1, 1)`, `(1, 1 + x)` approach positive profiles that are not independent, and the contributions after one update grow beyond all bounds. -/
theorem C264_needed (inv : Mat 2 2 ℝ → Mat 2 2 ℝ) (hinv : ∀ A B, IsLeftInverse B A → inv A = B) :
    (∀ x : ℝ, x ≠ 0 → wsStepW inv (![![1, 2]] : Mat 1 2 ℝ) (weights fun _ _ => 1) ![![1, 1], ![1, 1 + x]] 0 1 = 1 / x) ∧
      Tendsto (fun x : ℝ => |wsStepW inv (![![1, 2]] : Mat 1 2 ℝ) (weights fun _ _ => 1) ![![1, 1], ![1, 1 + x]] 0 1|) (𝓝[≠] 0) atTop := by
  have key : ∀ x : ℝ, x ≠ 0 → wsStepW inv (![![1, 2]] : Mat 1 2 ℝ) (weights fun _ _ => 1) ![![1, 1], ![1, 1 + x]] 0 1 = 1 / x := by
    intro x hx
    have hI : Independent (![![1, 1], ![1, 1 + x]] : Mat 2 2 ℝ) := by
      intro c hc
      have h0 := hc 0
      have h1 := hc 1
      simp only [Fin.sum_univ_two, Matrix.cons_val_zero, Matrix.cons_val_one, mul_one] at h0 h1
      have h2 : c 1 * x = 0 := by linarith
      have h3 : c 1 = 0 := (mul_eq_zero.1 h2).resolve_right hx
      have h4 : c 0 = 0 := by linarith
      intro a
      fin_cases a
      · exact h4
      · exact h3
    obtain ⟨B, hB⟩ := normal_inverse (weights fun _ _ => 1 : Mat 1 2 ℝ) (fun i j => by simp [weights]) _ hI 0
    have hB' : IsLeftInverse (inv (wsNormal (weights fun _ _ => 1 : Mat 1 2 ℝ) ![![1, 1], ![1, 1 + x]] 0)) (wsNormal (weights fun _ _ => 1 : Mat 1 2 ℝ) ![![1, 1], ![1, 1 + x]] 0) := by
      rw [hinv _ B hB]
      exact hB
    have e0 := wsStepW_normal inv (![![1, 2]] : Mat 1 2 ℝ) (weights fun _ _ => 1) ![![1, 1], ![1, 1 + x]] 0 hB' 0
    have e1 := wsStepW_normal inv (![![1, 2]] : Mat 1 2 ℝ) (weights fun _ _ => 1) ![![1, 1], ![1, 1 + x]] 0 hB' 1
    generalize wsStepW inv (![![1, 2]] : Mat 1 2 ℝ) (weights fun _ _ => 1) ![![1, 1], ![1, 1 + x]] 0 = w at e0 e1 ⊢
    simp only [weights, Fin.sum_univ_two, Matrix.cons_val_zero, Matrix.cons_val_one, one_pow, div_one, one_mul, mul_one] at e0 e1
    rw [eq_div_iff hx]
    have : x * (w 1 * x - 1) = 0 := by linear_combination 2 * e1 - (2 + x) * e0
    have := (mul_eq_zero.1 this).resolve_left hx
    linarith
  refine ⟨key, ?_⟩
  have h1 : Tendsto (fun x : ℝ => |1 / x|) (𝓝[≠] 0) atTop := by
    simp only [one_div, abs_inv]
    exact tendsto_inv_nhdsGT_zero.comp tendsto_abs_nhdsNE_zero
  refine Tendsto.congr' ?_ h1
  filter_upwards [self_mem_nhdsWithin] with x hx
  rw [key x hx]

/-- Case for `C264_run`: one factor, two features, five iterations. -/
example (V : ℕ → Mat 1 2 ℝ) (hV : Tendsto V atTop (𝓝 ![![3, 1]])) : ∃ (H' : ℕ → Mat 1 2 ℝ) (Hl : Mat 1 2 ℝ), Tendsto H' atTop (𝓝 Hl) ∧
    (rustLoop (wsLoopStep (fun A _ _ => (A 0 0)⁻¹) (![![3, 1]] : Mat 1 2 ℝ) (weights fun _ _ => 1)) (lsQ ![![3, 1]] fun _ _ => 1) ⟨5, 1 / 10, 25, false, -1⟩ (fun _ => false) ((some fun _ _ => 1 : Option (Mat 1 1 ℝ)), some fun _ _ => 1)).factors.2 = some Hl ∧
    ∀ᶠ x in atTop, (rustLoop (wsLoopStep (fun A _ _ => (A 0 0)⁻¹) (V x) (weights fun _ _ => 1)) (lsQ (V x) fun _ _ => 1) ⟨5, 1 / 10, 25, false, -1⟩ (fun _ => false) ((some fun _ _ => 1 : Option (Mat 1 1 ℝ)), some fun _ _ => 1)).factors.2 = some (H' x) := by
  have pV : ∀ i j, 0 ≤ (![![3, 1]] : Mat 1 2 ℝ) i j := fun i j => by fin_cases i; fin_cases j <;> simp
  obtain ⟨W', H', Wl, Hl, q, ql, h1, -, h2, -, -, h3⟩ := C264_run (fun A _ _ => (A 0 0)⁻¹ : Mat 1 1 ℝ → Mat 1 1 ℝ)
    (fun A B hB => by
      have := hB 0 0
      rw [Fin.sum_univ_one] at this
      funext a b
      rw [Subsingleton.elim a 0, Subsingleton.elim b 0]
      simpa using (eq_inv_of_mul_eq_one_left (by simpa using this)).symm)
    (U := fun _ _ _ => 1) (W := fun _ _ _ => 1) (H := fun _ _ _ => 1) hV tendsto_const_nhds tendsto_const_nhds tendsto_const_nhds pV (fun _ _ => one_ne_zero) (fun _ _ => one_pos) ⟨5, 1 / 10, 25, false, -1⟩ (by norm_num) (fun _ => false)
    (fun s X hs => C264_one_factor _ (by norm_num) pV (fun _ _ => one_pos) _ s X hs) _ rfl
    (fun i a b hi _ hb => by
      exfalso
      have hlt := (List.getElem?_eq_some_iff.1 hb).1
      have hlen := hlt.trans_le (rustLoop_factors _ _ _ _ _).2
      have h5 : (5 : ℤ).toNat = 5 := rfl
      have h25 : (max (25 : ℤ) 1).toNat = 25 := rfl
      simp only [h25] at hi
      simp only [h5] at hlen
      omega)
  exact ⟨H', Hl, h2, by rw [h1], h3.mono fun x hx => by rw [(hx (fun _ => false)).1]⟩

end Esat
