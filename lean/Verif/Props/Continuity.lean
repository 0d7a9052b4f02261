import Verif.Props.LongRun
import Verif.Props.Units

/-!
# C257: small changes of the data

What a small change of the data, the uncertainties or the starting factors does to the result of a training.
-/

namespace Esat

open Filter Topology

variable {m n k : ℕ} {ι : Type*} {l : Filter ι}

/-! ## One update -/

theorem tendsto_mat_mul {p : ℕ} {A : ι → Mat m p ℝ} {B : ι → Mat p n ℝ} {A0 : Mat m p ℝ} {B0 : Mat p n ℝ} (hA : Tendsto A l (𝓝 A0)) (hB : Tendsto B l (𝓝 B0)) :
    Tendsto (fun x => A x ⬝ B x) l (𝓝 (A0 ⬝ B0)) := by
  refine tendsto_pi_nhds.2 fun i => tendsto_pi_nhds.2 fun j => ?_
  unfold mmul
  exact tendsto_finset_sum _ fun a _ => (tendsto_pi_nhds.1 (tendsto_pi_nhds.1 hA i) a).mul (tendsto_pi_nhds.1 (tendsto_pi_nhds.1 hB a) j)

theorem tendsto_emul {A B : ι → Mat m n ℝ} {A0 B0 : Mat m n ℝ} (hA : Tendsto A l (𝓝 A0)) (hB : Tendsto B l (𝓝 B0)) :
    Tendsto (fun x => emul (A x) (B x)) l (𝓝 (emul A0 B0)) := by
  refine tendsto_pi_nhds.2 fun i => tendsto_pi_nhds.2 fun j => ?_
  exact (tendsto_pi_nhds.1 (tendsto_pi_nhds.1 hA i) j).mul (tendsto_pi_nhds.1 (tendsto_pi_nhds.1 hB i) j)

theorem tendsto_tr {A : ι → Mat m n ℝ} {A0 : Mat m n ℝ} (hA : Tendsto A l (𝓝 A0)) : Tendsto (fun x => tr (A x)) l (𝓝 (tr A0)) := by
  refine tendsto_pi_nhds.2 fun i => tendsto_pi_nhds.2 fun j => ?_
  exact tendsto_pi_nhds.1 (tendsto_pi_nhds.1 hA j) i

theorem tendsto_stepH {V We : ι → Mat m n ℝ} {W : ι → Mat m k ℝ} {H : ι → Mat k n ℝ} {V0 We0 : Mat m n ℝ} {W0 : Mat m k ℝ} {H0 H1 : Mat k n ℝ}
    (hV : Tendsto V l (𝓝 V0)) (hE : Tendsto We l (𝓝 We0)) (hW : Tendsto W l (𝓝 W0)) (hH : Tendsto H l (𝓝 H0)) (h : lsStepH V0 We0 W0 H0 = some H1) :
    ∃ H' : ι → Mat k n ℝ, (∀ᶠ x in l, lsStepH (V x) (We x) (W x) (H x) = some (H' x)) ∧ Tendsto H' l (𝓝 H1) := by
  obtain ⟨h1, h2⟩ := lsStepH_eq_some.1 h
  have hn : Tendsto (fun x => lsHNum (V x) (We x) (W x)) l (𝓝 (lsHNum V0 We0 W0)) := tendsto_mat_mul (tendsto_tr hW) (tendsto_emul hE hV)
  have hd : Tendsto (fun x => lsHDen (We x) (W x) (H x)) l (𝓝 (lsHDen We0 W0 H0)) := tendsto_mat_mul (tendsto_tr hW) (tendsto_emul hE (tendsto_mat_mul hW hH))
  refine ⟨fun x a j => H x a j * (lsHNum (V x) (We x) (W x) a j / lsHDen (We x) (W x) (H x) a j), ?_, ?_⟩
  · have : ∀ᶠ x in l, ∀ a j, lsHDen (We x) (W x) (H x) a j ≠ 0 := by
      rw [eventually_all]
      intro a
      rw [eventually_all]
      intro j
      exact (tendsto_pi_nhds.1 (tendsto_pi_nhds.1 hd a) j).eventually_ne (h1 a j)
    filter_upwards [this] with x hx
    exact lsStepH_eq_some.2 ⟨hx, fun a j => rfl⟩
  · refine tendsto_pi_nhds.2 fun a => tendsto_pi_nhds.2 fun j => ?_
    rw [h2 a j]
    exact (tendsto_pi_nhds.1 (tendsto_pi_nhds.1 hH a) j).mul ((tendsto_pi_nhds.1 (tendsto_pi_nhds.1 hn a) j).div (tendsto_pi_nhds.1 (tendsto_pi_nhds.1 hd a) j) (h1 a j))

theorem tendsto_stepW {V We : ι → Mat m n ℝ} {W : ι → Mat m k ℝ} {H : ι → Mat k n ℝ} {V0 We0 : Mat m n ℝ} {W0 W1 : Mat m k ℝ} {H0 : Mat k n ℝ}
    (hV : Tendsto V l (𝓝 V0)) (hE : Tendsto We l (𝓝 We0)) (hW : Tendsto W l (𝓝 W0)) (hH : Tendsto H l (𝓝 H0)) (h : lsStepW V0 We0 W0 H0 = some W1) :
    ∃ W' : ι → Mat m k ℝ, (∀ᶠ x in l, lsStepW (V x) (We x) (W x) (H x) = some (W' x)) ∧ Tendsto W' l (𝓝 W1) := by
  obtain ⟨h1, h2⟩ := lsStepW_eq_some.1 h
  have hn : Tendsto (fun x => lsWNum (V x) (We x) (H x)) l (𝓝 (lsWNum V0 We0 H0)) := tendsto_mat_mul (tendsto_emul hE hV) (tendsto_tr hH)
  have hd : Tendsto (fun x => lsWDen (We x) (W x) (H x)) l (𝓝 (lsWDen We0 W0 H0)) := tendsto_mat_mul (tendsto_emul hE (tendsto_mat_mul hW hH)) (tendsto_tr hH)
  refine ⟨fun x i a => W x i a * (lsWNum (V x) (We x) (H x) i a / lsWDen (We x) (W x) (H x) i a), ?_, ?_⟩
  · have : ∀ᶠ x in l, ∀ i a, lsWDen (We x) (W x) (H x) i a ≠ 0 := by
      rw [eventually_all]
      intro i
      rw [eventually_all]
      intro a
      exact (tendsto_pi_nhds.1 (tendsto_pi_nhds.1 hd i) a).eventually_ne (h1 i a)
    filter_upwards [this] with x hx
    exact lsStepW_eq_some.2 ⟨hx, fun i a => rfl⟩
  · refine tendsto_pi_nhds.2 fun i => tendsto_pi_nhds.2 fun a => ?_
    rw [h2 i a]
    exact (tendsto_pi_nhds.1 (tendsto_pi_nhds.1 hW i) a).mul ((tendsto_pi_nhds.1 (tendsto_pi_nhds.1 hn i) a).div (tendsto_pi_nhds.1 (tendsto_pi_nhds.1 hd i) a) (h1 i a))

theorem tendsto_weights {U : ι → Mat m n ℝ} {U0 : Mat m n ℝ} (hU : Tendsto U l (𝓝 U0)) (h0 : ∀ i j, U0 i j ≠ 0) : Tendsto (fun x => weights (U x)) l (𝓝 (weights U0)) := by
  refine tendsto_pi_nhds.2 fun i => tendsto_pi_nhds.2 fun j => ?_
  unfold weights
  exact tendsto_const_nhds.div ((tendsto_pi_nhds.1 (tendsto_pi_nhds.1 hU i) j).pow 2) (pow_ne_zero 2 (h0 i j))

theorem tendsto_qLoss {V U : ι → Mat m n ℝ} {W : ι → Mat m k ℝ} {H : ι → Mat k n ℝ} {V0 U0 : Mat m n ℝ} {W0 : Mat m k ℝ} {H0 : Mat k n ℝ}
    (hV : Tendsto V l (𝓝 V0)) (hU : Tendsto U l (𝓝 U0)) (h0 : ∀ i j, U0 i j ≠ 0) (hW : Tendsto W l (𝓝 W0)) (hH : Tendsto H l (𝓝 H0)) :
    Tendsto (fun x => qLoss (V x) (U x) (W x) (H x)) l (𝓝 (qLoss V0 U0 W0 H0)) := by
  simp only [qLoss_amounts]
  unfold amountsLoss amounts
  refine tendsto_finset_sum _ fun i _ => tendsto_finset_sum _ fun j _ => Tendsto.pow (Tendsto.div (Tendsto.sub (tendsto_pi_nhds.1 (tendsto_pi_nhds.1 hV i) j) ?_)
    (tendsto_pi_nhds.1 (tendsto_pi_nhds.1 hU i) j) (h0 i j)) 2
  exact tendsto_finset_sum _ fun a _ => (tendsto_pi_nhds.1 (tendsto_pi_nhds.1 hW i) a).mul (tendsto_pi_nhds.1 (tendsto_pi_nhds.1 hH a) j)

/-- **C257, updates.** If data, uncertainties and starting factors approach a proper start, then the factors after every fixed number of updates exist from some point on and approach those of the limit. -/
theorem C257_updates {V U : ι → Mat m n ℝ} {W : ι → Mat m k ℝ} {H : ι → Mat k n ℝ} {V0 U0 : Mat m n ℝ} {W0 : Mat m k ℝ} {H0 : Mat k n ℝ}
    (hV : Tendsto V l (𝓝 V0)) (hU : Tendsto U l (𝓝 U0)) (hW : Tendsto W l (𝓝 W0)) (hH : Tendsto H l (𝓝 H0)) (g : GoodStart V0 U0 W0 H0) (flags : ℕ → Bool) (t : ℕ) :
    ∃ (Wt : ι → Mat m k ℝ) (Ht : ι → Mat k n ℝ) (Wl : Mat m k ℝ) (Hl : Mat k n ℝ),
      (∀ᶠ x in l, traj (lsLoopStep (V x) (weights (U x))) flags (some (W x), some (H x)) t = (some (Wt x), some (Ht x))) ∧
      traj (lsLoopStep V0 (weights U0)) flags (some W0, some H0) t = (some Wl, some Hl) ∧ Tendsto Wt l (𝓝 Wl) ∧ Tendsto Ht l (𝓝 Hl) := by
  obtain ⟨Ws, Hs, h0, h1, ht, -, hu⟩ := traj_updates g flags
  have hE := tendsto_weights hU g.unc
  induction t with
  | zero => exact ⟨W, H, W0, H0, Eventually.of_forall fun x => rfl, rfl, hW, hH⟩
  | succ t ih =>
    obtain ⟨Wt, Ht, Wl, Hl, e1, e2, e3, e4⟩ := ih
    rw [ht t] at e2
    obtain rfl : Ws t = Wl := Option.some.inj (congrArg Prod.fst e2)
    obtain rfl : Hs t = Hl := Option.some.inj (congrArg Prod.snd e2)
    obtain ⟨u1, u2⟩ := lsUpdate_eq_some.1 (hu t)
    cases hf : flags t with
    | true =>
      have u3 : lsStepH V0 (weights U0) (Ws t) (Hs t) = some (Hs (t + 1)) := by simpa [hf] using u1
      obtain ⟨H', a1, a2⟩ := tendsto_stepH hV hE e3 e4 u3
      obtain ⟨W', b1, b2⟩ := tendsto_stepW hV hE e3 a2 u2
      refine ⟨W', H', _, _, ?_, ht (t + 1), b2, a2⟩
      filter_upwards [e1, a1, b1] with x x1 x2 x3
      rw [traj, x1, hf]
      simp [lsLoopStep, x2, x3]
    | false =>
      have u3 : Hs (t + 1) = Hs t := by simpa [hf] using u1
      rw [u3] at u2
      obtain ⟨W', b1, b2⟩ := tendsto_stepW hV hE e3 e4 u2
      refine ⟨W', Ht, _, _, ?_, ht (t + 1), b2, by rw [u3]; exact e4⟩
      filter_upwards [e1, b1] with x x1 x3
      rw [traj, x1, hf]
      simp [lsLoopStep, x3]

/-- Two runs with the same criteria up to the end of the first have the same length. -/
theorem rustLoop_length {σ σ' : Type*} (step : Bool → σ → σ) (loss : σ → Option ℝ) (step' : Bool → σ' → σ') (loss' : σ' → Option ℝ) (cfg : LoopCfg ℝ) (clock clock' : ℕ → Bool) (s : σ) (s' : σ') (h : 0 < cfg.maxIter)
    (hc : ∀ i, i < (rustLoop step loss cfg clock s).losses.length →
      (Crit (lossAt step' loss' (rustUpdatesH cfg) s') (effN cfg.convergeN) cfg.delta i ↔ Crit (lossAt step loss (rustUpdatesH cfg) s) (effN cfg.convergeN) cfg.delta i)) :
    (rustLoop step' loss' cfg clock' s').losses.length = (rustLoop step loss cfg clock s).losses.length ∧ (rustLoop step' loss' cfg clock' s').converged = (rustLoop step loss cfg clock s).converged ∧
      (rustLoop step' loss' cfg clock' s').convergeI = (rustLoop step loss cfg clock s).convergeI := by
  obtain ⟨t, t1, t2, t3, t4, t5, t6, t7, t8, t9, -⟩ := rustLoop_spec step loss cfg clock s h
  obtain ⟨t', u1, u2, u3, u4, u5, u6, u7, u8, u9, -⟩ := rustLoop_spec step' loss' cfg clock' s' h
  have l : (rustLoop step loss cfg clock s).losses.length = t := by rw [t4]; simp
  have l' : (rustLoop step' loss' cfg clock' s').losses.length = t' := by rw [u4]; simp
  rw [l] at hc
  have e : t' = t := by
    rcases lt_trichotomy t' t with hlt | heq | hgt
    · exfalso
      have hconv : (rustLoop step' loss' cfg clock' s').converged = true := by
        by_contra hno
        have := u9 (by simpa using hno)
        omega
      exact t8 (t' - 1) (by omega) ((hc (t' - 1) (by omega)).1 (u7.1 hconv))
    · exact heq
    · exfalso
      have hno : ¬ Crit (lossAt step loss (rustUpdatesH cfg) s) (effN cfg.convergeN) cfg.delta (t - 1) := fun hcr => u8 (t - 1) (by omega) ((hc (t - 1) (by omega)).2 hcr)
      have hconv : (rustLoop step loss cfg clock s).converged = false := by
        by_contra hcon
        exact hno (t7.1 (by simpa using hcon))
      have := t9 hconv
      omega
  subst e
  refine ⟨by rw [l, l'], ?_, by rw [t6, u6]⟩
  have := hc (t' - 1) (by omega)
  rw [Bool.eq_iff_iff, t7, u7, this]

/-- **C257, runs.** Let data, uncertainties and starting factors approach a proper start, and suppose that in the run of the limit no difference of losses that is compared with `converge_delta` equals it. Then from some point on every
run makes as many iterations, stops for the same reason, and its factors and losses approach those of the limit. -/
theorem C257_run {V U : ι → Mat m n ℝ} {W : ι → Mat m k ℝ} {H : ι → Mat k n ℝ} {V0 U0 : Mat m n ℝ} {W0 : Mat m k ℝ} {H0 : Mat k n ℝ}
    (hV : Tendsto V l (𝓝 V0)) (hU : Tendsto U l (𝓝 U0)) (hW : Tendsto W l (𝓝 W0)) (hH : Tendsto H l (𝓝 H0)) (g : GoodStart V0 U0 W0 H0) (cfg : LoopCfg ℝ) (clock0 : ℕ → Bool) (rm0 : Bool) (rn0 : ℤ) (h : 0 < cfg.maxIter)
    (hne : ∀ i a b, (max cfg.convergeN 1).toNat ≤ i + 1 → (lsTrain V0 U0 cfg clock0 rm0 rn0 W0 H0).losses[i + 1 - (max cfg.convergeN 1).toNat]? = some (some a) →
      (lsTrain V0 U0 cfg clock0 rm0 rn0 W0 H0).losses[i]? = some (some b) → a - b ≠ cfg.delta) :
    ∃ (W' : ι → Mat m k ℝ) (H' : ι → Mat k n ℝ) (Wl : Mat m k ℝ) (Hl : Mat k n ℝ) (q : ι → ℕ → ℝ) (ql : ℕ → ℝ),
      (lsTrain V0 U0 cfg clock0 rm0 rn0 W0 H0).factors = (some Wl, some Hl) ∧ Tendsto W' l (𝓝 Wl) ∧ Tendsto H' l (𝓝 Hl) ∧ (∀ i, Tendsto (fun x => q x i) l (𝓝 (ql i))) ∧
      (∀ i, i < (lsTrain V0 U0 cfg clock0 rm0 rn0 W0 H0).losses.length → (lsTrain V0 U0 cfg clock0 rm0 rn0 W0 H0).losses[i]? = some (some (ql i))) ∧
      ∀ᶠ x in l, ∀ (clock : ℕ → Bool) (rm : Bool) (rn : ℤ),
        (lsTrain (V x) (U x) cfg clock rm rn (W x) (H x)).factors = (some (W' x), some (H' x)) ∧
        (lsTrain (V x) (U x) cfg clock rm rn (W x) (H x)).converged = (lsTrain V0 U0 cfg clock0 rm0 rn0 W0 H0).converged ∧
        (lsTrain (V x) (U x) cfg clock rm rn (W x) (H x)).convergeI = (lsTrain V0 U0 cfg clock0 rm0 rn0 W0 H0).convergeI ∧
        (lsTrain (V x) (U x) cfg clock rm rn (W x) (H x)).losses = (List.range (lsTrain V0 U0 cfg clock0 rm0 rn0 W0 H0).losses.length).map fun i => some (q x i) := by
  choose Wt Ht Wl Hl e1 e2 e3 e4 using C257_updates hV hU hW hH g (rustUpdatesH cfg)
  obtain ⟨t, t1, t2, t3, t4, -⟩ := rustLoop_spec (lsLoopStep V0 (weights U0)) (lsQ V0 U0) cfg clock0 (some W0, some H0) h
  have hlen : (lsTrain V0 U0 cfg clock0 rm0 rn0 W0 H0).losses.length = t := by rw [lsTrain, t4]; simp
  have hl0 : ∀ i, lossAt (lsLoopStep V0 (weights U0)) (lsQ V0 U0) (rustUpdatesH cfg) (some W0, some H0) i = some (qLoss V0 U0 (Wl (i + 1)) (Hl (i + 1))) := fun i => by rw [lossAt, e2]; rfl
  have hloss : ∀ i, i < t → (lsTrain V0 U0 cfg clock0 rm0 rn0 W0 H0).losses[i]? = some (some (qLoss V0 U0 (Wl (i + 1)) (Hl (i + 1)))) := fun i hi => by
    rw [lsTrain, t4, List.getElem?_map, List.getElem?_range hi, ← hl0 i]; rfl
  have hq : ∀ i, Tendsto (fun x => qLoss (V x) (U x) (Wt (i + 1) x) (Ht (i + 1) x)) l (𝓝 (qLoss V0 U0 (Wl (i + 1)) (Hl (i + 1)))) := fun i => tendsto_qLoss hV hU g.unc (e3 (i + 1)) (e4 (i + 1))
  refine ⟨Wt t, Ht t, Wl t, Hl t, fun x i => qLoss (V x) (U x) (Wt (i + 1) x) (Ht (i + 1) x), fun i => qLoss V0 U0 (Wl (i + 1)) (Hl (i + 1)), ?_, e3 t, e4 t, hq, fun i hi => hloss i (hlen ▸ hi), ?_⟩
  · rw [lsTrain, t3, e2]
  have ev1 : ∀ᶠ x in l, ∀ s ∈ Finset.range (t + 1), traj (lsLoopStep (V x) (weights (U x))) (rustUpdatesH cfg) (some (W x), some (H x)) s = (some (Wt s x), some (Ht s x)) :=
    (Finset.eventually_all _).2 fun s _ => e1 s
  set N := (max cfg.convergeN 1).toNat with hN
  have hN1 : 1 ≤ N := by omega
  have ev2 : ∀ᶠ x in l, ∀ i ∈ Finset.range t, N ≤ i + 1 →
      (qLoss (V x) (U x) (Wt (i + 1 - N + 1) x) (Ht (i + 1 - N + 1) x) - qLoss (V x) (U x) (Wt (i + 1) x) (Ht (i + 1) x) < cfg.delta ↔
        qLoss V0 U0 (Wl (i + 1 - N + 1)) (Hl (i + 1 - N + 1)) - qLoss V0 U0 (Wl (i + 1)) (Hl (i + 1)) < cfg.delta) := by
    refine (Finset.eventually_all _).2 fun i hi => ?_
    rw [Finset.mem_range] at hi
    by_cases hNi : N ≤ i + 1
    · have hd := (hq (i + 1 - N)).sub (hq i)
      have hne' := hne i _ _ hNi (hloss (i + 1 - N) (by omega)) (hloss i hi)
      rcases lt_or_gt_of_ne hne' with hlt | hgt
      · filter_upwards [hd.eventually_lt_const hlt] with x hx _
        exact ⟨fun _ => hlt, fun _ => hx⟩
      · filter_upwards [hd.eventually_const_lt hgt] with x hx _
        exact ⟨fun h => absurd (h.trans hx) (lt_irrefl _), fun h => absurd (h.trans hgt) (lt_irrefl _)⟩
    · exact Eventually.of_forall fun x hx => absurd hx hNi
  filter_upwards [ev1, ev2] with x x1 x2 clock rm rn
  have hlx : ∀ i, i < t → lossAt (lsLoopStep (V x) (weights (U x))) (lsQ (V x) (U x)) (rustUpdatesH cfg) (some (W x), some (H x)) i = some (qLoss (V x) (U x) (Wt (i + 1) x) (Ht (i + 1) x)) := fun i hi => by
    rw [lossAt, x1 (i + 1) (Finset.mem_range.2 (by omega))]; rfl
  obtain ⟨r1, r2, r3⟩ := rustLoop_length (lsLoopStep V0 (weights U0)) (lsQ V0 U0) (lsLoopStep (V x) (weights (U x))) (lsQ (V x) (U x)) cfg clock0 clock (some W0, some H0) (some (W x), some (H x)) h (fun i hi => by
    have hi : i < t := by rw [← hlen]; exact hi
    have hE : effN cfg.convergeN = N := rfl
    unfold Crit
    rw [hE]
    constructor
    · rintro ⟨c1, a, b, c2, c3, c4⟩
      rw [hlx _ (by omega)] at c2 c3
      obtain rfl := Option.some.inj c2
      obtain rfl := Option.some.inj c3
      exact ⟨c1, _, _, hl0 _, hl0 _, (x2 i (Finset.mem_range.2 hi) c1).1 c4⟩
    · rintro ⟨c1, a, b, c2, c3, c4⟩
      rw [hl0] at c2 c3
      obtain rfl := Option.some.inj c2
      obtain rfl := Option.some.inj c3
      exact ⟨c1, _, _, hlx _ (by omega), hlx _ hi, (x2 i (Finset.mem_range.2 hi) c1).2 c4⟩)
  obtain ⟨s, s1, s2, s3, s4, -⟩ := rustLoop_spec (lsLoopStep (V x) (weights (U x))) (lsQ (V x) (U x)) cfg clock (some (W x), some (H x)) h
  have hs : s = t := by
    have a1 : (rustLoop (lsLoopStep (V x) (weights (U x))) (lsQ (V x) (U x)) cfg clock (some (W x), some (H x))).losses.length = s := by rw [s4]; simp
    rw [← a1, r1]
    exact hlen
  subst hs
  refine ⟨?_, r2, r3, ?_⟩
  · rw [lsTrain, s3, x1 s (Finset.mem_range.2 (by omega))]
  · rw [hlen, lsTrain, s4]
    exact List.map_congr_left fun i hi => hlx i (List.mem_range.1 hi)

/-- With a negative `converge_delta` (a fixed number of iterations) the condition of `C257_run` always holds. -/
theorem C257_fixed_number {V0 U0 : Mat m n ℝ} {W0 : Mat m k ℝ} {H0 : Mat k n ℝ} (g : GoodStart V0 U0 W0 H0) (cfg : LoopCfg ℝ) (clock0 : ℕ → Bool) (rm0 : Bool) (rn0 : ℤ) (h : 0 < cfg.maxIter) (hδ : cfg.delta < 0) (i : ℕ) (a b : ℝ)
    (hi : (max cfg.convergeN 1).toNat ≤ i + 1) (ha : (lsTrain V0 U0 cfg clock0 rm0 rn0 W0 H0).losses[i + 1 - (max cfg.convergeN 1).toNat]? = some (some a))
    (hb : (lsTrain V0 U0 cfg clock0 rm0 rn0 W0 H0).losses[i]? = some (some b)) : a - b ≠ cfg.delta := by
  obtain ⟨q, hq, hanti, -⟩ := lossAt_good g (rustUpdatesH cfg)
  obtain ⟨t, t1, t2, t3, t4, -⟩ := rustLoop_spec (lsLoopStep V0 (weights U0)) (lsQ V0 U0) cfg clock0 (some W0, some H0) h
  have key : ∀ i x, (lsTrain V0 U0 cfg clock0 rm0 rn0 W0 H0).losses[i]? = some (some x) → x = q i := fun i x hx => by
    rw [lsTrain, t4, List.getElem?_map] at hx
    cases hr : (List.range t)[i]? with
    | none => rw [hr] at hx; simp at hx
    | some y =>
      have : y = i := by
        have := List.getElem?_eq_some_iff.1 hr
        obtain ⟨h1, h2⟩ := this
        simpa using h2.symm
      subst this
      rw [hr] at hx
      simp only [Option.map_some, hq, Option.some.injEq] at hx
      exact hx.symm
  have e1 := key _ _ ha
  have e2 := key _ _ hb
  have := hanti (show i + 1 - (max cfg.convergeN 1).toNat ≤ i by omega)
  intro he
  linarith

/-- A fixed number of iterations on the example of C238: the result depends continuously on the data. -/
example (cfg : LoopCfg ℝ) (h : 0 < cfg.maxIter) (hδ : cfg.delta < 0) (V : ℕ → Mat 1 2 ℝ) (hV : Tendsto V atTop (𝓝 ![![3, 1]])) : ∃ (W' : ℕ → Mat 1 2 ℝ) (Wl : Mat 1 2 ℝ),
    (lsTrain (![![3, 1]] : Mat 1 2 ℝ) (fun _ _ => 1) cfg (fun _ => false) false 0 (fun _ _ => 1 : Mat 1 2 ℝ) ![![1, 2], ![2, 1]]).factors.1 = some Wl ∧ Tendsto W' atTop (𝓝 Wl) ∧
    ∀ᶠ x in atTop, (lsTrain (V x) (fun _ _ => 1) cfg (fun _ => false) false 0 (fun _ _ => 1 : Mat 1 2 ℝ) ![![1, 2], ![2, 1]]).factors.1 = some (W' x) := by
  obtain ⟨W', H', Wl, Hl, q, ql, h1, h2, -, -, -, h3⟩ := C257_run (U := fun _ _ _ => 1) (W := fun _ _ _ => 1) (H := fun _ => ![![1, 2], ![2, 1]]) hV tendsto_const_nhds tendsto_const_nhds tendsto_const_nhds caseHold cfg (fun _ => false) false 0 h
    (C257_fixed_number caseHold cfg _ _ _ h hδ)
  refine ⟨W', Wl, by rw [h1], h2, ?_⟩
  filter_upwards [h3] with x hx
  rw [(hx (fun _ => false) false 0).1]

/-- **C257, jump.** Without the condition on the differences the result jumps: there are a proper start and settings such that the run makes three iterations and returns contributions `W3`, while it converges after two and returns
a multiple of other contributions `W2` if data and contributions are made smaller by a factor below one, however close to one. -/
theorem C257_jump : ∃ (V U : Mat 3 2 ℚ) (W W2 W3 : Mat 3 2 ℚ) (H : Mat 2 2 ℚ) (cfg : LoopCfg ℚ), GoodStart V U W H ∧ W2 ≠ W3 ∧
    (∀ (clock : ℕ → Bool) (rm : Bool) (rn : ℤ), (lsTrain V U cfg clock rm rn W H).losses.length = 3 ∧ (lsTrain V U cfg clock rm rn W H).factors.1 = some W3) ∧
    ∀ c : ℚ, 0 < c → c < 1 → ∀ (clock : ℕ → Bool) (rm : Bool) (rn : ℤ),
      (lsTrain (fun i j => c * V i j) U cfg clock rm rn (fun i a => c * W i a) H).converged = true ∧ (lsTrain (fun i j => c * V i j) U cfg clock rm rn (fun i a => c * W i a) H).losses.length = 2 ∧
      (lsTrain (fun i j => c * V i j) U cfg clock rm rn (fun i a => c * W i a) H).factors.1 = some fun i a => c * W2 i a := by
  obtain ⟨q, hq, hanti, -⟩ := lossAt_good exGood (fun _ => true)
  obtain ⟨Ws, Hs, -, -, ht, -⟩ := traj_updates exGood fun _ => true
  have hdrop : 0 < q 0 - q 1 := by
    have e0 := hq 0
    have e1 := hq 1
    have : ∃ a b, lossAt (lsLoopStep exV (weights exU)) (lsQ exV exU) (fun _ => true) (some exW, some exH) 0 = some a ∧
        lossAt (lsLoopStep exV (weights exU)) (lsQ exV exU) (fun _ => true) (some exW, some exH) 1 = some b ∧ 0 < a - b :=
      ⟨_, _, (Option.some_get (by decide +kernel)).symm, (Option.some_get (by decide +kernel)).symm, by decide +kernel⟩
    obtain ⟨a, b, h1, h2, h3⟩ := this
    rw [e0] at h1
    rw [e1] at h2
    rw [Option.some.inj h1, Option.some.inj h2]
    exact h3
  have hfl : ∀ δ : ℚ, rustUpdatesH ⟨3, δ, 2, false, -1⟩ = fun _ => true := fun δ => by funext i; simp [rustUpdatesH]
  have hE : effN 2 = 2 := rfl
  have c0 : ∀ δ : ℚ, ¬ Crit (lossAt (lsLoopStep exV (weights exU)) (lsQ exV exU) (fun _ => true) (some exW, some exH)) 2 δ 0 := by
    rintro δ ⟨h1, -⟩
    omega
  have c1 : ∀ δ : ℚ, Crit (lossAt (lsLoopStep exV (weights exU)) (lsQ exV exU) (fun _ => true) (some exW, some exH)) 2 δ 1 ↔ q 0 - q 1 < δ := by
    intro δ
    constructor
    · rintro ⟨-, a, b, h2, h3, h4⟩
      rw [hq] at h2 h3
      rw [Option.some.inj h2, Option.some.inj h3]
      exact h4
    · intro h
      exact ⟨by omega, _, _, hq 0, hq 1, h⟩
  refine ⟨exV, exU, exW, Ws 2, Ws 3, exH, ⟨3, q 0 - q 1, 2, false, -1⟩, exGood, ?_, fun clock rm rn => ?_, fun c hc hc1 clock rm rn => ?_⟩
  · have : (traj (lsLoopStep exV (weights exU)) (fun _ => true) (some exW, some exH) 2).1 ≠ (traj (lsLoopStep exV (weights exU)) (fun _ => true) (some exW, some exH) 3).1 := by decide +kernel
    rw [ht, ht] at this
    exact fun h => this (by rw [h])
  · obtain ⟨t, t1, t2, t3, t4, -, -, t7, t8, t9, -⟩ := rustLoop_spec (lsLoopStep exV (weights exU)) (lsQ exV exU) ⟨3, q 0 - q 1, 2, false, -1⟩ clock (some exW, some exH) (by norm_num)
    rw [hfl] at t3 t4 t7 t8
    have e : t = 3 := by
      have t2' : t ≤ 3 := t2
      by_contra hne
      have hconv : (rustLoop (lsLoopStep exV (weights exU)) (lsQ exV exU) ⟨3, q 0 - q 1, 2, false, -1⟩ clock (some exW, some exH)).converged = true := by
        by_contra hno
        exact hne (t9 (by simpa using hno))
      have hcr := t7.1 hconv
      simp only [hE] at hcr
      have : t = 1 ∨ t = 2 := by omega
      rcases this with rfl | rfl
      · exact c0 _ hcr
      · exact absurd ((c1 _).1 hcr) (lt_irrefl _)
    subst e
    refine ⟨by rw [lsTrain, t4]; simp, by rw [lsTrain, t3, ht]⟩
  · have hs := C167_training (fun _ : Fin 3 => c) (fun _ : Fin 2 => (1 : ℚ)) (fun _ : Fin 2 => (1 : ℚ)) (1 / c) (fun _ => hc.ne') (fun _ => one_ne_zero) (fun _ => one_ne_zero) (by positivity) exV exU
      ⟨3, (q 0 - q 1) / c ^ 2, 2, false, -1⟩ clock rm rn exW exH
    have hδ : (q 0 - q 1) / c ^ 2 / (1 / c) ^ 2 = q 0 - q 1 := by field_simp
    have hU : (fun i j => 1 / c * (c * exU i j)) = exU := by funext i j; field_simp
    simp only [hδ, mul_one, div_one] at hs
    rw [hU] at hs
    have hlt : q 0 - q 1 < (q 0 - q 1) / c ^ 2 := by
      rw [lt_div_iff₀ (by positivity)]
      have : c ^ 2 < 1 := by nlinarith
      nlinarith
    obtain ⟨t, t1, t2, t3, t4, -, -, t7, t8, t9, -⟩ := rustLoop_spec (lsLoopStep exV (weights exU)) (lsQ exV exU) ⟨3, (q 0 - q 1) / c ^ 2, 2, false, -1⟩ clock (some exW, some exH) (by norm_num)
    rw [hfl] at t3 t4 t7 t8
    simp only [hE] at t7 t8
    have e : t = 2 := by
      have t2' : t ≤ 3 := t2
      have : ¬ 2 < t := fun h => t8 1 h ((c1 _).2 hlt)
      by_contra hne
      have ht1 : t = 1 := by omega
      subst ht1
      have hconv : (rustLoop (lsLoopStep exV (weights exU)) (lsQ exV exU) ⟨3, (q 0 - q 1) / c ^ 2, 2, false, -1⟩ clock (some exW, some exH)).converged = true := by
        by_contra hno
        have h3 : (1 : ℕ) = 3 := t9 (by simpa using hno)
        omega
      exact c0 _ (t7.1 hconv)
    subst e
    obtain ⟨s1, -, -, -, s5, s6, -⟩ := hs
    refine ⟨?_, ?_, ?_⟩
    · rw [s1, lsTrain]
      exact t7.2 ((c1 _).2 hlt)
    · rw [s5, lsTrain, t4]; simp
    · rw [s6, lsTrain, t3, ht]; rfl

end Esat
