import Verif.Props.Continuity
import Verif.Props.PythonRuns

/-!
# C257 for the Python loop
-/

namespace Esat
open Filter Topology

section
variable {ι : Type*} {l : Filter ι} {m n k : ℕ}

/-- **C257, the Python loop.** The same as `C257_run` for a Python run (the test needs one more loss than the compiled one): if no difference of losses that the test compares with `converge_delta` equals it, then from some point on the runs complete
with the same number of iterations and the same outcome, and their factors and losses approach those of the limit, whatever `robust_alpha`. -/
theorem C257_python {V U : ι → Mat m n ℝ} {W : ι → Mat m k ℝ} {H : ι → Mat k n ℝ} {V0 U0 : Mat m n ℝ} {W0 : Mat m k ℝ} {H0 : Mat k n ℝ}
    (hV : Tendsto V l (𝓝 V0)) (hU : Tendsto U l (𝓝 U0)) (hW : Tendsto W l (𝓝 W0)) (hH : Tendsto H l (𝓝 H0)) (g : GoodStart V0 U0 W0 H0) (cfg : LoopCfg ℝ) (hn : 1 ≤ cfg.convergeN) (alpha0 : ℝ) :
    ∃ r0, lsTrainPy V0 U0 alpha0 cfg W0 H0 = .ok r0 ∧
      ((∀ i a b, cfg.convergeN.toNat ≤ i → r0.losses[i + 1 - cfg.convergeN.toNat]? = some (some a) → r0.losses[i]? = some (some b) → a - b ≠ cfg.delta) →
        ∃ (W' : ι → Mat m k ℝ) (H' : ι → Mat k n ℝ) (Wl : Mat m k ℝ) (Hl : Mat k n ℝ) (q : ι → ℕ → ℝ) (ql : ℕ → ℝ),
          r0.factors = (some Wl, some Hl) ∧ Tendsto W' l (𝓝 Wl) ∧ Tendsto H' l (𝓝 Hl) ∧ (∀ i, Tendsto (fun x => q x i) l (𝓝 (ql i))) ∧ (∀ i, i < r0.losses.length → r0.losses[i]? = some (some (ql i))) ∧
          ∀ᶠ x in l, ∀ alpha : ℝ, ∃ r, lsTrainPy (V x) (U x) alpha cfg (W x) (H x) = .ok r ∧ r.factors = (some (W' x), some (H' x)) ∧ r.converged = r0.converged ∧ r.convergeSteps = r0.convergeSteps ∧
            r.losses = (List.range r0.losses.length).map fun i => some (q x i)) := by
  choose Wt Ht Wl Hl e1 e2 e3 e4 using C257_updates hV hU hW hH g (rustUpdatesH cfg)
  obtain ⟨r0, t, e, t1, t2, t3, t4, t5⟩ := pyLoop_spec (lsLoopStep V0 (weights U0)) (lsQPy V0 U0 alpha0) cfg false 0 (some W0, some H0) hn
  refine ⟨r0, e, fun hne => ?_⟩
  set N := cfg.convergeN.toNat with hN
  have hN1 : 1 ≤ N := by omega
  have hlen : r0.losses.length = t := by rw [t3]; simp
  have hl0 : ∀ i, lossAt (lsLoopStep V0 (weights U0)) (lsQPy V0 U0 alpha0) (rustUpdatesH cfg) (some W0, some H0) i = (some (qLoss V0 U0 (Wl (i + 1)) (Hl (i + 1))), some (qrLoss V0 U0 (Wl (i + 1)) (Hl (i + 1)) alpha0).1) := fun i => by
    rw [lossAt, e2]; rfl
  have hloss : ∀ i, i < t → r0.losses[i]? = some (some (qLoss V0 U0 (Wl (i + 1)) (Hl (i + 1)))) := fun i hi => by
    rw [t3, List.getElem?_map, List.getElem?_range hi, Option.map_some, hl0 i]
  have hq : ∀ i, Tendsto (fun x => qLoss (V x) (U x) (Wt (i + 1) x) (Ht (i + 1) x)) l (𝓝 (qLoss V0 U0 (Wl (i + 1)) (Hl (i + 1)))) := fun i => tendsto_qLoss hV hU g.unc (e3 (i + 1)) (e4 (i + 1))
  refine ⟨Wt t, Ht t, Wl t, Hl t, fun x i => qLoss (V x) (U x) (Wt (i + 1) x) (Ht (i + 1) x), fun i => qLoss V0 U0 (Wl (i + 1)) (Hl (i + 1)), ?_, e3 t, e4 t, hq, fun i hi => hloss i (hlen ▸ hi), ?_⟩
  · rw [t2, e2]
  have ev1 : ∀ᶠ x in l, ∀ s ∈ Finset.range (t + 1), traj (lsLoopStep (V x) (weights (U x))) (rustUpdatesH cfg) (some (W x), some (H x)) s = (some (Wt s x), some (Ht s x)) :=
    (Finset.eventually_all _).2 fun s _ => e1 s
  have ev2 : ∀ᶠ x in l, ∀ i ∈ Finset.range t, N ≤ i →
      (qLoss (V x) (U x) (Wt (i + 1 - N + 1) x) (Ht (i + 1 - N + 1) x) - qLoss (V x) (U x) (Wt (i + 1) x) (Ht (i + 1) x) < cfg.delta ↔
        qLoss V0 U0 (Wl (i + 1 - N + 1)) (Hl (i + 1 - N + 1)) - qLoss V0 U0 (Wl (i + 1)) (Hl (i + 1)) < cfg.delta) := by
    refine (Finset.eventually_all _).2 fun i hi => ?_
    rw [Finset.mem_range] at hi
    by_cases hNi : N ≤ i
    · have hd := (hq (i + 1 - N)).sub (hq i)
      have hne' := hne i _ _ hNi (hloss (i + 1 - N) (by omega)) (hloss i hi)
      rcases lt_or_gt_of_ne hne' with hlt | hgt
      · filter_upwards [hd.eventually_lt_const hlt] with x hx _
        exact ⟨fun _ => hlt, fun _ => hx⟩
      · filter_upwards [hd.eventually_const_lt hgt] with x hx _
        exact ⟨fun h => absurd (h.trans hx) (lt_irrefl _), fun h => absurd (h.trans hgt) (lt_irrefl _)⟩
    · exact Eventually.of_forall fun x hx => absurd hx hNi
  filter_upwards [ev1, ev2] with x x1 x2 alpha
  obtain ⟨r, s, s0, s1, s2, s3, s4, s5⟩ := pyLoop_spec (lsLoopStep (V x) (weights (U x))) (lsQPy (V x) (U x) alpha) cfg false 0 (some (W x), some (H x)) hn
  have hlx : ∀ i, i < t → lossAt (lsLoopStep (V x) (weights (U x))) (lsQPy (V x) (U x) alpha) (rustUpdatesH cfg) (some (W x), some (H x)) i =
      (some (qLoss (V x) (U x) (Wt (i + 1) x) (Ht (i + 1) x)), some (qrLoss (V x) (U x) (Wt (i + 1) x) (Ht (i + 1) x) alpha).1) := fun i hi => by
    rw [lossAt, x1 (i + 1) (Finset.mem_range.2 (by omega))]; rfl
  have hnan0 : ∀ i, ¬ PyNan (lossAt (lsLoopStep V0 (weights U0)) (lsQPy V0 U0 alpha0) (rustUpdatesH cfg) (some W0, some H0)) i := fun i => by
    unfold PyNan
    rw [hl0]
    simp
  have hnan : ∀ i, i < t → ¬ PyNan (lossAt (lsLoopStep (V x) (weights (U x))) (lsQPy (V x) (U x) alpha) (rustUpdatesH cfg) (some (W x), some (H x))) i := fun i hi => by
    unfold PyNan
    rw [hlx i hi]
    simp
  -- the same test at every iteration of the limit run
  have hcrit : ∀ i, i < t → (PyCrit (lossAt (lsLoopStep V0 (weights U0)) (lsQPy V0 U0 alpha0) (rustUpdatesH cfg) (some W0, some H0)) N cfg.delta i ↔
      PyCrit (lossAt (lsLoopStep (V x) (weights (U x))) (lsQPy (V x) (U x) alpha) (rustUpdatesH cfg) (some (W x), some (H x))) N cfg.delta i) := fun i hi => by
    unfold PyCrit Crit
    constructor
    · rintro ⟨c0, c1, a, b, c2, c3, c4⟩
      simp only [hl0] at c2 c3
      obtain rfl := Option.some.inj c2
      obtain rfl := Option.some.inj c3
      exact ⟨c0, c1, _, _, by beta_reduce; rw [hlx _ (by omega)], by beta_reduce; rw [hlx _ hi], (x2 i (Finset.mem_range.2 hi) c0).2 c4⟩
    · rintro ⟨c0, c1, a, b, c2, c3, c4⟩
      beta_reduce at c2 c3
      rw [hlx _ (by omega)] at c2
      rw [hlx _ hi] at c3
      obtain rfl := Option.some.inj c2
      obtain rfl := Option.some.inj c3
      exact ⟨c0, c1, _, _, by beta_reduce; rw [hl0], by beta_reduce; rw [hl0], (x2 i (Finset.mem_range.2 hi) c0).1 c4⟩
  have hst : s = t := by
    rcases lt_trichotomy s t with hlt | heq | hgt
    · exfalso
      rcases s5 with ⟨-, h1, -⟩ | ⟨h0, h1, -⟩
      · omega
      · have hlt' : s - 1 < t := by omega
        refine t4 (s - 1) (by omega) (.inr ?_)
        rcases h1 with h1 | h1
        · exact absurd h1 (hnan _ hlt')
        · exact (hcrit _ hlt').2 h1
    · exact heq
    · exfalso
      rcases t5 with ⟨-, h1, -⟩ | ⟨h0, h1, -⟩
      · omega
      · refine s4 (t - 1) (by omega) (.inr ?_)
        rcases h1 with h1 | h1
        · exact absurd h1 (hnan0 _)
        · exact (hcrit _ (by omega)).1 h1
  subst hst
  refine ⟨r, s0, ?_, ?_, ?_, ?_⟩
  · rw [s2, x1 s (Finset.mem_range.2 (by omega))]
  · rcases t5 with ⟨a1, a2, a3, -⟩ | ⟨a0, a1, -, a3⟩
    · rcases s5 with ⟨-, -, b3, -⟩ | ⟨b0, b1, -, -⟩
      · rw [a3, b3]
      · exfalso
        rcases b1 with h | h
        · exact hnan (s - 1) (by omega) h
        · exact a1 (s - 1) (by omega) (.inr ((hcrit _ (by omega)).2 h))
    · rcases s5 with ⟨b1, -⟩ | ⟨b0, b1, -, b3⟩
      · exfalso
        rcases a1 with h | h
        · exact hnan0 (s - 1) h
        · exact b1 (s - 1) (by omega) (.inr ((hcrit _ (by omega)).1 h))
      · rw [a3.2 (.inr (hnan0 _)), b3.2 (.inr (hnan _ (by omega)))]
  · rcases t5 with ⟨a1, a2, -, a4⟩ | ⟨a0, a1, a4, -⟩
    · rcases s5 with ⟨-, -, -, b4⟩ | ⟨b0, b1, -, -⟩
      · rw [a4, b4]
      · exfalso
        rcases b1 with h | h
        · exact hnan (s - 1) (by omega) h
        · exact a1 (s - 1) (by omega) (.inr ((hcrit _ (by omega)).2 h))
    · rcases s5 with ⟨b1, -⟩ | ⟨b0, b1, b4, -⟩
      · exfalso
        rcases a1 with h | h
        · exact hnan0 (s - 1) h
        · exact b1 (s - 1) (by omega) (.inr ((hcrit _ (by omega)).1 h))
      · rw [a4, b4]
  · rw [hlen, s3]
    exact List.map_congr_left fun i hi => by rw [hlx i (List.mem_range.1 hi)]

/-- With a negative `converge_delta` the condition of `C257_python` always holds. -/
theorem C257_python_fixed {V0 U0 : Mat m n ℝ} {W0 : Mat m k ℝ} {H0 : Mat k n ℝ} (g : GoodStart V0 U0 W0 H0) (cfg : LoopCfg ℝ) (hn : 1 ≤ cfg.convergeN) (hδ : cfg.delta < 0) (alpha : ℝ)
    (r0 : PyState (Option (Mat m k ℝ) × Option (Mat k n ℝ)) ℝ) (h0 : lsTrainPy V0 U0 alpha cfg W0 H0 = .ok r0) (i : ℕ) (a b : ℝ)
    (ha : r0.losses[i + 1 - cfg.convergeN.toNat]? = some (some a)) (hb : r0.losses[i]? = some (some b)) : a - b ≠ cfg.delta := by
  obtain ⟨Ws, Hs, t, r, e, -, -, hp, hu, -, hlen, hl, -⟩ := lsTrainPy_course g alpha cfg hn
  obtain rfl : r = r0 := by rw [h0] at e; cases e; rfl
  have hanti : Antitone fun s => qLoss V0 U0 (Ws s) (Hs s) := antitone_nat_of_succ_le fun s => by
    have := C239_moved V0 U0 _ _ _ _ _ g.data (fun i a => ((hp s).1 i a).le) (fun a j => ((hp s).2 a j).le) (hu s)
    have h2 : 0 ≤ amountMoved U0 (Ws s) (Ws (s + 1)) (Hs s) (Hs (s + 1)) := by unfold amountMoved; positivity
    linarith
  have key : ∀ i x, r.losses[i]? = some (some x) → x = qLoss V0 U0 (Ws (i + 1)) (Hs (i + 1)) := fun i x hx => by
    have hi : i < t := by
      rw [← hlen]
      exact (List.getElem?_eq_some_iff.1 hx).1
    rw [hl, List.getElem?_map, List.getElem?_range hi] at hx
    simpa using hx.symm
  have e1 := key _ _ ha
  have e2 := key _ _ hb
  have := hanti (show i + 1 - cfg.convergeN.toNat + 1 ≤ i + 1 by omega)
  simp only at this
  intro he
  linarith

end

/-- A fixed number of Python iterations on the example of C238. -/
example (cfg : LoopCfg ℝ) (hn : 1 ≤ cfg.convergeN) (hδ : cfg.delta < 0) (V : ℕ → Mat 1 2 ℝ) (hV : Tendsto V atTop (𝓝 ![![3, 1]])) : ∃ (W' : ℕ → Mat 1 2 ℝ) (Wl : Mat 1 2 ℝ), Tendsto W' atTop (𝓝 Wl) ∧
    (∃ r0, lsTrainPy (![![3, 1]] : Mat 1 2 ℝ) (fun _ _ => 1) 4 cfg (fun _ _ => 1 : Mat 1 2 ℝ) ![![1, 2], ![2, 1]] = .ok r0 ∧ r0.factors.1 = some Wl) ∧
    ∀ᶠ x in atTop, ∃ r, lsTrainPy (V x) (fun _ _ => 1) 4 cfg (fun _ _ => 1 : Mat 1 2 ℝ) ![![1, 2], ![2, 1]] = .ok r ∧ r.factors.1 = some (W' x) := by
  obtain ⟨r0, e, hr⟩ := C257_python (U := fun _ _ _ => 1) (W := fun _ _ _ => 1) (H := fun _ => ![![1, 2], ![2, 1]]) hV tendsto_const_nhds tendsto_const_nhds tendsto_const_nhds caseHold cfg hn 4
  obtain ⟨W', H', Wl, Hl, q, ql, h1, h2, -, -, -, h3⟩ := hr fun i a b _ ha hb => C257_python_fixed caseHold cfg hn hδ 4 r0 e i a b ha hb
  refine ⟨W', Wl, h2, ⟨r0, e, by rw [h1]⟩, ?_⟩
  filter_upwards [h3] with x hx
  obtain ⟨r, hr1, hr2, -⟩ := hx 4
  exact ⟨r, hr1, by rw [hr2]⟩

end Esat
