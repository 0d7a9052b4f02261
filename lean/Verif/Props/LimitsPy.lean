import Verif.Props.DownWeightWs
import Verif.Props.PythonRuns

/-!
# C263, C264 and C265 for the Python loop

The limits of `Props/DownWeight`, `Props/ContinuityWs` and `Props/DownWeightWs` for runs of the Python loop (`sa.py:430-464`, `optimized=False`).
-/

namespace Esat
open Filter Topology

section
variable {ι : Type*} {l : Filter ι} {m n k m' n' : ℕ}

/-- Python runs whose losses approach those of a run, none of whose compared differences equals `converge_delta`, complete from some point on with its number of iterations and its outcome. -/
theorem pyLoop_limit {A σ σ' : Type*} (step : ι → Bool → σ → σ) (loss : ι → A → σ → Option ℝ × Option ℝ) (s : ι → σ) (step0 : Bool → σ' → σ') (loss0 : σ' → Option ℝ × Option ℝ) (s0 : σ') (cfg : LoopCfg ℝ) (hn : 1 ≤ cfg.convergeN)
    (q : ι → ℕ → ℝ) (q0 : ℕ → ℝ) (h0 : ∀ i, (lossAt step0 loss0 (rustUpdatesH cfg) s0 i).1 = some (q0 i) ∧ (lossAt step0 loss0 (rustUpdatesH cfg) s0 i).2 ≠ none)
    (hx : ∀ i, ∀ᶠ x in l, ∀ a, (lossAt (step x) (loss x a) (rustUpdatesH cfg) (s x) i).1 = some (q x i) ∧ (lossAt (step x) (loss x a) (rustUpdatesH cfg) (s x) i).2 ≠ none) (hq : ∀ i, Tendsto (fun x => q x i) l (𝓝 (q0 i))) :
    ∃ r0, pyLoop step0 loss0 cfg true false 0 s0 = .ok r0 ∧ r0.factors = traj step0 (rustUpdatesH cfg) s0 r0.losses.length ∧ (∀ i, i < r0.losses.length → r0.losses[i]? = some (some (q0 i))) ∧
      ((∀ i a b, cfg.convergeN.toNat ≤ i → r0.losses[i + 1 - cfg.convergeN.toNat]? = some (some a) → r0.losses[i]? = some (some b) → a - b ≠ cfg.delta) →
        ∀ᶠ x in l, ∀ a, ∃ r, pyLoop (step x) (loss x a) cfg true false 0 (s x) = .ok r ∧ r.factors = traj (step x) (rustUpdatesH cfg) (s x) r0.losses.length ∧ r.converged = r0.converged ∧ r.convergeSteps = r0.convergeSteps ∧
          r.losses = (List.range r0.losses.length).map fun i => some (q x i)) := by
  obtain ⟨r0, t, e, t1, t2, t3, t4, t5⟩ := pyLoop_spec step0 loss0 cfg false 0 s0 hn
  have hlen : r0.losses.length = t := by rw [t3]; simp
  have hloss : ∀ i, i < t → r0.losses[i]? = some (some (q0 i)) := fun i hi => by
    rw [t3, List.getElem?_map, List.getElem?_range hi, Option.map_some, (h0 i).1]
  refine ⟨r0, e, by rw [hlen]; exact t2, fun i hi => hloss i (hlen ▸ hi), fun hne => ?_⟩
  rw [hlen]
  set N := cfg.convergeN.toNat with hN
  have hN1 : 1 ≤ N := by omega
  have ev1 : ∀ᶠ x in l, ∀ i ∈ Finset.range t, ∀ a, (lossAt (step x) (loss x a) (rustUpdatesH cfg) (s x) i).1 = some (q x i) ∧ (lossAt (step x) (loss x a) (rustUpdatesH cfg) (s x) i).2 ≠ none :=
    (Finset.eventually_all _).2 fun i _ => hx i
  have ev2 : ∀ᶠ x in l, ∀ i ∈ Finset.range t, N ≤ i → (q x (i + 1 - N) - q x i < cfg.delta ↔ q0 (i + 1 - N) - q0 i < cfg.delta) := by
    refine (Finset.eventually_all _).2 fun i hi => ?_
    rw [Finset.mem_range] at hi
    by_cases hNi : N ≤ i
    · have hd := (hq (i + 1 - N)).sub (hq i)
      have hne' := hne i _ _ hNi (hloss (i + 1 - N) (by omega)) (hloss i hi)
      rcases lt_or_gt_of_ne hne' with hlt | hgt
      · filter_upwards [hd.eventually_lt_const hlt] with x hx _
        exact ⟨fun _ => hlt, fun _ => hx⟩
      · filter_upwards [hd.eventually_const_lt hgt] with x hx _
        exact ⟨fun h => absurd (h.trans hx) (lt_irrefl _), fun h => absurd (h.trans hgt) (lt_irrefl _)⟩
    · exact Eventually.of_forall fun x hx => absurd hx hNi
  filter_upwards [ev1, ev2] with x x1 x2 alpha
  obtain ⟨r, u, s0', s1, s2, s3, s4, s5⟩ := pyLoop_spec (step x) (loss x alpha) cfg false 0 (s x) hn
  have hlx : ∀ i, i < t → (lossAt (step x) (loss x alpha) (rustUpdatesH cfg) (s x) i).1 = some (q x i) := fun i hi => (x1 i (Finset.mem_range.2 hi) alpha).1
  have hnan0 : ∀ i, ¬ PyNan (lossAt step0 loss0 (rustUpdatesH cfg) s0) i := fun i => by
    rintro (h | h)
    · rw [(h0 i).1] at h; exact absurd h (by simp)
    · exact (h0 i).2 h
  have hnan : ∀ i, i < t → ¬ PyNan (lossAt (step x) (loss x alpha) (rustUpdatesH cfg) (s x)) i := fun i hi => by
    rintro (h | h)
    · rw [hlx i hi] at h; exact absurd h (by simp)
    · exact (x1 i (Finset.mem_range.2 hi) alpha).2 h
  have hcrit : ∀ i, i < t → (PyCrit (lossAt step0 loss0 (rustUpdatesH cfg) s0) N cfg.delta i ↔ PyCrit (lossAt (step x) (loss x alpha) (rustUpdatesH cfg) (s x)) N cfg.delta i) := fun i hi => by
    unfold PyCrit Crit
    constructor
    · rintro ⟨c0, c1, a, b, c2, c3, c4⟩
      simp only [(h0 _).1] at c2 c3
      obtain rfl := Option.some.inj c2
      obtain rfl := Option.some.inj c3
      exact ⟨c0, c1, _, _, hlx _ (by omega), hlx _ hi, (x2 i (Finset.mem_range.2 hi) c0).2 c4⟩
    · rintro ⟨c0, c1, a, b, c2, c3, c4⟩
      beta_reduce at c2 c3
      rw [hlx _ (by omega)] at c2
      rw [hlx _ hi] at c3
      obtain rfl := Option.some.inj c2
      obtain rfl := Option.some.inj c3
      exact ⟨c0, c1, _, _, (h0 _).1, (h0 _).1, (x2 i (Finset.mem_range.2 hi) c0).1 c4⟩
  have hst : u = t := by
    rcases lt_trichotomy u t with hlt | heq | hgt
    · exfalso
      rcases s5 with ⟨-, h1, -⟩ | ⟨h0, h1, -⟩
      · omega
      · have hlt' : u - 1 < t := by omega
        refine t4 (u - 1) (by omega) (.inr ?_)
        rcases h1 with h1 | h1
        · exact absurd h1 (hnan _ hlt')
        · exact (hcrit _ hlt').2 h1
    · exact heq
    · exfalso
      rcases t5 with ⟨-, h1, -⟩ | ⟨h0, h1, -⟩
      · omega
      · refine s4 (t - 1) (by omega) (.inr ?_)
        rcases h1 with h1 | h1
        · exact absurd h1 (hnan0 _)
        · exact (hcrit _ (by omega)).1 h1
  subst hst
  refine ⟨r, s0', s2, ?_, ?_, ?_⟩
  · rcases t5 with ⟨a1, a2, a3, -⟩ | ⟨a0, a1, -, a3⟩
    · rcases s5 with ⟨-, -, b3, -⟩ | ⟨b0, b1, -, -⟩
      · rw [a3, b3]
      · exfalso
        rcases b1 with h | h
        · exact hnan (u - 1) (by omega) h
        · exact a1 (u - 1) (by omega) (.inr ((hcrit _ (by omega)).2 h))
    · rcases s5 with ⟨b1, -⟩ | ⟨b0, b1, -, b3⟩
      · exfalso
        rcases a1 with h | h
        · exact hnan0 (u - 1) h
        · exact b1 (u - 1) (by omega) (.inr ((hcrit _ (by omega)).1 h))
      · rw [a3.2 (.inr (hnan0 _)), b3.2 (.inr (hnan _ (by omega)))]
  · rcases t5 with ⟨a1, a2, -, a4⟩ | ⟨a0, a1, a4, -⟩
    · rcases s5 with ⟨-, -, -, b4⟩ | ⟨b0, b1, -, -⟩
      · rw [a4, b4]
      · exfalso
        rcases b1 with h | h
        · exact hnan (u - 1) (by omega) h
        · exact a1 (u - 1) (by omega) (.inr ((hcrit _ (by omega)).2 h))
    · rcases s5 with ⟨b1, -⟩ | ⟨b0, b1, b4, -⟩
      · exfalso
        rcases a1 with h | h
        · exact hnan0 (u - 1) h
        · exact b1 (u - 1) (by omega) (.inr ((hcrit _ (by omega)).1 h))
      · rw [a4, b4]
  · rw [s3]
    exact List.map_congr_left fun i hi => hlx i (List.mem_range.1 hi)

/-! ## Specification -/

/-- The losses of the kept cells, in the form the Python loop takes them: the second one is only tested for NaN. -/
noncomputable def keptQPy (keep : Fin m → Fin n → Bool) (V U : Mat m n ℝ) (p : Option (Mat m k ℝ) × Option (Mat k n ℝ)) : Option ℝ × Option ℝ := (keptQ keep V U p, keptQ keep V U p)

/-! ## ls-nmf -/

/-- **C263, the Python loop.** The same as `C263_run` for Python runs, whatever `robust_alpha`. -/
theorem C263_python {V U : ι → Mat m n ℝ} {s : ι → Fin m → ℝ} {r : ι → Fin n → ℝ} {keep : Fin m → Fin n → Bool} {R : Fin m → Bool} {C : Fin n → Bool} {V0 U0 : Mat m n ℝ} (d : Weakened l V U s r keep R C V0 U0)
    (σ : Fin m' → Fin m) (τ : Fin n' → Fin n) (hσ : Function.Injective σ) (hτ : Function.Injective τ) (hR : ∀ i, R i = true ↔ ∃ i', σ i' = i) (hC : ∀ j, C j = true ↔ ∃ j', τ j' = j)
    {W : ι → Mat m k ℝ} {H : ι → Mat k n ℝ} {W0 : Mat m k ℝ} {H0 : Mat k n ℝ} (hW : Tendsto W l (𝓝 W0)) (hH : Tendsto H l (𝓝 H0)) (pW : ∀ i a, 0 < W0 i a) (pH : ∀ a j, 0 < H0 a j) (cfg : LoopCfg ℝ) (hn : 1 ≤ cfg.convergeN) :
    ∃ T, pyLoop (lsLoopStep (fun i j => V0 (σ i) (τ j)) (keptWeights (fun i j => keep (σ i) (τ j)) fun i j => U0 (σ i) (τ j))) (keptQPy (fun i j => keep (σ i) (τ j)) (fun i j => V0 (σ i) (τ j)) (fun i j => U0 (σ i) (τ j))) cfg true false 0
        (some fun i => W0 (σ i), some fun a j => H0 a (τ j)) = .ok T ∧
      ((∀ i a b, cfg.convergeN.toNat ≤ i → T.losses[i + 1 - cfg.convergeN.toNat]? = some (some a) → T.losses[i]? = some (some b) → a - b ≠ cfg.delta) →
        ∃ (W' : ι → Mat m k ℝ) (H' : ι → Mat k n ℝ) (Wl : Mat m k ℝ) (Hl : Mat k n ℝ) (q : ι → ℕ → ℝ) (ql : ℕ → ℝ),
          T.factors = (some fun i => Wl (σ i), some fun a j => Hl a (τ j)) ∧ Tendsto W' l (𝓝 Wl) ∧ Tendsto H' l (𝓝 Hl) ∧ (∀ i, Tendsto (fun x => q x i) l (𝓝 (ql i))) ∧ (∀ i, i < T.losses.length → T.losses[i]? = some (some (ql i))) ∧
          (∀ i a, 0 < Wl i a) ∧ (∀ a j, 0 < Hl a j) ∧
          ∀ᶠ x in l, ∀ alpha : ℝ, ∃ res, lsTrainPy (V x) (fun i j => s x i * r x j * U x i j) alpha cfg (W x) (H x) = .ok res ∧ res.factors = (some (W' x), some (H' x)) ∧ res.converged = T.converged ∧ res.convergeSteps = T.convergeSteps ∧
            res.losses = (List.range T.losses.length).map fun i => some (q x i)) := by
  choose Wt Ht Wl Hl e1 e2 e3 e4 e5 e6 using d.updates hW hH pW pH (rustUpdatesH cfg)
  have hs := fun t => exTraj_sub (keep := keep) (R := R) (C := C) (V0 := V0) (U0 := U0) σ τ hσ hτ hR hC W0 H0 (rustUpdatesH cfg) t Wl Hl e2
  have hq := fun i => d.loss σ τ hσ hτ hR hC (e3 (i + 1)) (e4 (i + 1))
  obtain ⟨T, t0, t1, t2, t3⟩ := pyLoop_limit (l := l) (fun x => lsLoopStep (V x) (weights fun i j => s x i * r x j * U x i j)) (fun x alpha => lsQPy (V x) (fun i j => s x i * r x j * U x i j) alpha) (fun x => (some (W x), some (H x)))
    (lsLoopStep (fun i j => V0 (σ i) (τ j)) (keptWeights (fun i j => keep (σ i) (τ j)) fun i j => U0 (σ i) (τ j))) (keptQPy (fun i j => keep (σ i) (τ j)) (fun i j => V0 (σ i) (τ j)) (fun i j => U0 (σ i) (τ j)))
    (some fun i => W0 (σ i), some fun a j => H0 a (τ j)) cfg hn _ _
    (fun i => by
      rw [lossAt, hs]
      exact ⟨rfl, by simp [keptQPy, keptQ]⟩)
    (fun i => by
      filter_upwards [e1 (i + 1)] with x x1 alpha
      rw [lossAt, x1]
      exact ⟨rfl, by simp [lsQPy]⟩) hq
  refine ⟨T, t0, fun hne => ⟨Wt _, Ht _, Wl _, Hl _, _, _, by rw [t1, hs], e3 T.losses.length, e4 T.losses.length, hq, t2, e5 _, e6 _, ?_⟩⟩
  filter_upwards [t3 hne, e1 T.losses.length] with x x1 x2 alpha
  obtain ⟨res, k1, k2, k3, k4, k5⟩ := x1 alpha
  exact ⟨res, k1, by rw [k2, x2], k3, k4, k5⟩

/-! ## ws-nmf -/

/-- **C264, the Python loop.** The same as `C264_run` for Python runs, whatever `robust_alpha`. -/
theorem C264_python (inv : Mat k k ℝ → Mat k k ℝ) (hinv : ∀ A B, IsLeftInverse B A → inv A = B) {V U : ι → Mat m n ℝ} {W : ι → Mat m k ℝ} {H : ι → Mat k n ℝ} {V0 U0 : Mat m n ℝ} {W0 : Mat m k ℝ} {H0 : Mat k n ℝ}
    (hV : Tendsto V l (𝓝 V0)) (hU : Tendsto U l (𝓝 U0)) (hW : Tendsto W l (𝓝 W0)) (hH : Tendsto H l (𝓝 H0)) (pV : ∀ i j, 0 ≤ V0 i j) (nU : ∀ i j, U0 i j ≠ 0) (pH : ∀ a j, 0 < H0 a j) (cfg : LoopCfg ℝ) (hn : 1 ≤ cfg.convergeN) (alpha0 : ℝ)
    (hreg : ∀ s X, (traj (wsLoopStep inv V0 (weights U0)) (rustUpdatesH cfg) (some W0, some H0) s).2 = some X → Independent X) :
    ∃ T, pyLoop (wsLoopStep inv V0 (weights U0)) (lsQPy V0 U0 alpha0) cfg true false 0 (some W0, some H0) = .ok T ∧
      ((∀ i a b, cfg.convergeN.toNat ≤ i → T.losses[i + 1 - cfg.convergeN.toNat]? = some (some a) → T.losses[i]? = some (some b) → a - b ≠ cfg.delta) →
        ∃ (W' : ι → Mat m k ℝ) (H' : ι → Mat k n ℝ) (Wl : Mat m k ℝ) (Hl : Mat k n ℝ) (q : ι → ℕ → ℝ) (ql : ℕ → ℝ),
          T.factors = (some Wl, some Hl) ∧ Tendsto W' l (𝓝 Wl) ∧ Tendsto H' l (𝓝 Hl) ∧ (∀ i, Tendsto (fun x => q x i) l (𝓝 (ql i))) ∧ (∀ i, i < T.losses.length → T.losses[i]? = some (some (ql i))) ∧
          ∀ᶠ x in l, ∀ alpha : ℝ, ∃ res, pyLoop (wsLoopStep inv (V x) (weights (U x))) (lsQPy (V x) (U x) alpha) cfg true false 0 (some (W x), some (H x)) = .ok res ∧ res.factors = (some (W' x), some (H' x)) ∧
            res.converged = T.converged ∧ res.convergeSteps = T.convergeSteps ∧ res.losses = (List.range T.losses.length).map fun i => some (q x i)) := by
  choose Wt Ht Wl Hl e1 e2 e3 e4 using fun t => C264_updates inv hinv hV hU hW hH pV nU pH (rustUpdatesH cfg) t fun s X _ => hreg s X
  have hq := fun i => tendsto_qLoss hV hU nU (e3 (i + 1)) (e4 (i + 1))
  obtain ⟨T, t0, t1, t2, t3⟩ := pyLoop_limit (l := l) (fun x => wsLoopStep inv (V x) (weights (U x))) (fun x alpha => lsQPy (V x) (U x) alpha) (fun x => (some (W x), some (H x)))
    (wsLoopStep inv V0 (weights U0)) (lsQPy V0 U0 alpha0) (some W0, some H0) cfg hn _ _
    (fun i => by
      rw [lossAt, e2]
      exact ⟨rfl, by simp [lsQPy]⟩)
    (fun i => by
      filter_upwards [e1 (i + 1)] with x x1 alpha
      rw [lossAt, x1]
      exact ⟨rfl, by simp [lsQPy]⟩) hq
  refine ⟨T, t0, fun hne => ⟨Wt _, Ht _, Wl _, Hl _, _, _, by rw [t1, e2], e3 T.losses.length, e4 T.losses.length, hq, t2, ?_⟩⟩
  filter_upwards [t3 hne, e1 T.losses.length] with x x1 x2 alpha
  obtain ⟨res, k1, k2, k3, k4, k5⟩ := x1 alpha
  exact ⟨res, k1, by rw [k2, x2], k3, k4, k5⟩

/-- **C265, the Python loop.** The same as `C265_run` for Python runs, whatever `robust_alpha`. -/
theorem C265_python (inv : Mat k k ℝ → Mat k k ℝ) (hinv : ∀ A B, IsLeftInverse B A → inv A = B) {V U : ι → Mat m n ℝ} {s : ι → Fin m → ℝ} {keep : Fin m → Fin n → Bool} {R : Fin m → Bool} {V0 U0 : Mat m n ℝ} (d : WeakRows l V U s keep R V0 U0)
    (σ : Fin m' → Fin m) (τ : Fin n' → Fin n) (hσ : Function.Injective σ) (hτ : Function.Injective τ) (hR : ∀ i, R i = true ↔ ∃ i', σ i' = i) (hC : ∀ i j, keep i j = true → ∃ j', τ j' = j)
    {W : ι → Mat m k ℝ} {H : ι → Mat k n ℝ} {W0 : Mat m k ℝ} {H0 : Mat k n ℝ} (hW : Tendsto W l (𝓝 W0)) (hH : Tendsto H l (𝓝 H0)) (pH : ∀ a j, 0 < H0 a j) (cfg : LoopCfg ℝ) (hn : 1 ≤ cfg.convergeN)
    (hreg : ∀ t X, (traj (wsLoopStep inv (fun i j => V0 (σ i) (τ j)) (keptWeights (fun i j => keep (σ i) (τ j)) fun i j => U0 (σ i) (τ j))) (rustUpdatesH cfg) (some fun i => W0 (σ i), some fun a j => H0 a (τ j)) t).2 = some X →
      ∀ i, IndependentOn (fun j => keep i (τ j)) X) :
    ∃ T, pyLoop (wsLoopStep inv (fun i j => V0 (σ i) (τ j)) (keptWeights (fun i j => keep (σ i) (τ j)) fun i j => U0 (σ i) (τ j))) (keptQPy (fun i j => keep (σ i) (τ j)) (fun i j => V0 (σ i) (τ j)) (fun i j => U0 (σ i) (τ j))) cfg true false 0
        (some fun i => W0 (σ i), some fun a j => H0 a (τ j)) = .ok T ∧
      ((∀ i a b, cfg.convergeN.toNat ≤ i → T.losses[i + 1 - cfg.convergeN.toNat]? = some (some a) → T.losses[i]? = some (some b) → a - b ≠ cfg.delta) →
        ∃ (W' : ι → Mat m k ℝ) (H' : ι → Mat k n ℝ) (Wl : Mat m k ℝ) (Hl : Mat k n ℝ) (q : ι → ℕ → ℝ) (ql : ℕ → ℝ),
          T.factors = (some fun i => Wl (σ i), some fun a j => Hl a (τ j)) ∧ Tendsto W' l (𝓝 Wl) ∧ Tendsto H' l (𝓝 Hl) ∧ (∀ i, Tendsto (fun x => q x i) l (𝓝 (ql i))) ∧ (∀ i, i < T.losses.length → T.losses[i]? = some (some (ql i))) ∧
          (∀ j, (∀ j', τ j' ≠ j) → ∀ a, Hl a j = H0 a j) ∧
          ∀ᶠ x in l, ∀ alpha : ℝ, ∃ res, pyLoop (wsLoopStep inv (V x) (weights fun i j => s x i * U x i j)) (lsQPy (V x) (fun i j => s x i * U x i j) alpha) cfg true false 0 (some (W x), some (H x)) = .ok res ∧
            res.factors = (some (W' x), some (H' x)) ∧ res.converged = T.converged ∧ res.convergeSteps = T.convergeSteps ∧ res.losses = (List.range T.losses.length).map fun i => some (q x i)) := by
  have hs := fun t => splitWs_sub (keep := keep) (R := R) (V0 := V0) (U0 := U0) inv σ τ hσ hτ hR hC d.nonneg W0 H0 pH (rustUpdatesH cfg) t
  set P : ℕ → Mat m k ℝ × Mat k n ℝ := fun t => traj (splitWs inv V0 (keptWeights (fun i j => R i && keep i j) U0) (keptWeights keep U0)) (rustUpdatesH cfg) (W0, H0) t with hP
  have hreg' : ∀ t i, IndependentOn (keep i) (P t).2 := fun t i c hc => hreg t _ (by rw [hs]) i c fun j' hj' => hc (τ j') hj'
  choose Wt Ht e1 e3 e4 using d.updates inv hinv hW hH pH (rustUpdatesH cfg) hreg'
  have hq := fun i => d.loss σ τ hσ hτ hR hC (e3 (i + 1)) (e4 (i + 1))
  obtain ⟨T, t0, t1, t2, t3⟩ := pyLoop_limit (l := l) (fun x => wsLoopStep inv (V x) (weights fun i j => s x i * U x i j)) (fun x alpha => lsQPy (V x) (fun i j => s x i * U x i j) alpha) (fun x => (some (W x), some (H x)))
    (wsLoopStep inv (fun i j => V0 (σ i) (τ j)) (keptWeights (fun i j => keep (σ i) (τ j)) fun i j => U0 (σ i) (τ j))) (keptQPy (fun i j => keep (σ i) (τ j)) (fun i j => V0 (σ i) (τ j)) (fun i j => U0 (σ i) (τ j)))
    (some fun i => W0 (σ i), some fun a j => H0 a (τ j)) cfg hn _ _
    (fun i => by
      rw [lossAt, hs]
      exact ⟨rfl, by simp [keptQPy, keptQ]⟩)
    (fun i => by
      filter_upwards [e1 (i + 1)] with x x1 alpha
      rw [lossAt, x1]
      exact ⟨rfl, by simp [lsQPy]⟩) hq
  refine ⟨T, t0, fun hne => ⟨Wt _, Ht _, (P T.losses.length).1, (P T.losses.length).2, _, _, by rw [t1, hs], e3 T.losses.length, e4 T.losses.length, hq, t2, fun j hj a => ?_, ?_⟩⟩
  · refine splitWs_frozen inv _ W0 H0 _ j (fun i => ?_) _ a
    have : keep i j = false := by
      by_contra hc
      obtain ⟨j', hj'⟩ := hC i j (by simpa using hc)
      exact hj j' hj'
    simp [this]
  filter_upwards [t3 hne, e1 T.losses.length] with x x1 x2 alpha
  obtain ⟨res, k1, k2, k3, k4, k5⟩ := x1 alpha
  exact ⟨res, k1, by rw [k2, x2], k3, k4, k5⟩

/-- A case of `C264_python`: one sample, two features, one factor, five iterations without a test. -/
example (V : ℕ → Mat 1 2 ℝ) (hV : Tendsto V atTop (𝓝 ![![3, 1]])) : ∃ (H' : ℕ → Mat 1 2 ℝ) (Hl : Mat 1 2 ℝ), Tendsto H' atTop (𝓝 Hl) ∧
    ∀ᶠ x in atTop, ∃ res, pyLoop (wsLoopStep (fun A _ _ => (A 0 0)⁻¹) (V x) (weights fun _ _ => 1)) (lsQPy (V x) (fun _ _ => 1) 4) ⟨5, 1 / 10, 25, false, -1⟩ true false 0 ((some fun _ _ => 1 : Option (Mat 1 1 ℝ)), some fun _ _ => 1) = .ok res ∧
      res.factors.2 = some (H' x) := by
  have pV : ∀ i j, 0 ≤ (![![3, 1]] : Mat 1 2 ℝ) i j := fun i j => by fin_cases i; fin_cases j <;> simp
  obtain ⟨T, h0, h1⟩ := C264_python (fun A _ _ => (A 0 0)⁻¹ : Mat 1 1 ℝ → Mat 1 1 ℝ)
    (fun A B hB => by
      have := hB 0 0
      rw [Fin.sum_univ_one] at this
      funext a b
      rw [Subsingleton.elim a 0, Subsingleton.elim b 0]
      simpa using (eq_inv_of_mul_eq_one_left (by simpa using this)).symm)
    (U := fun _ _ _ => 1) (W := fun _ _ _ => 1) (H := fun _ _ _ => 1) hV tendsto_const_nhds tendsto_const_nhds tendsto_const_nhds pV (fun _ _ => one_ne_zero) (fun _ _ => one_pos) ⟨5, 1 / 10, 25, false, -1⟩ (by norm_num) 4
    (fun s X hs => C264_one_factor _ (by norm_num) pV (fun _ _ => one_pos) _ s X hs)
  obtain ⟨W', H', Wl, Hl, q, ql, -, -, h2, -, -, h3⟩ := h1 (fun i a b hi _ hb => by
    exfalso
    have hlt := (List.getElem?_eq_some_iff.1 hb).1
    obtain ⟨r, t, e, t1, -, t3, -⟩ := pyLoop_spec (wsLoopStep (fun A _ _ => (A 0 0)⁻¹ : Mat 1 1 ℝ → Mat 1 1 ℝ) (![![3, 1]] : Mat 1 2 ℝ) (weights fun _ _ => 1)) (lsQPy ![![3, 1]] (fun _ _ => 1) 4) ⟨5, 1 / 10, 25, false, -1⟩ false 0
      (some fun _ _ => 1, some fun _ _ => 1) (by norm_num)
    obtain rfl : r = T := by rw [h0] at e; cases e; rfl
    rw [t3, List.length_map, List.length_range] at hlt
    have h5 : (5 : ℤ).toNat = 5 := rfl
    have h25 : (25 : ℤ).toNat = 25 := rfl
    simp only [h5] at t1
    simp only [h25] at hi
    omega)
  refine ⟨H', Hl, h2, h3.mono fun x hx => ?_⟩
  obtain ⟨res, k1, k2, -⟩ := hx 4
  exact ⟨res, k1, by rw [k2]⟩

end

end Esat
