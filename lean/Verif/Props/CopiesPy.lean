import Verif.Props.SampleMultiples
import Verif.Props.PythonRuns

/-!
# C244, C259 and C266 for the Python loop

Repeated samples under ws-nmf, features and samples that are multiples of each other, and samples without signal, in runs of the Python loop (`sa.py:430-464`, `optimized=False`).
-/

namespace Esat

section
variable {m n k l : ℕ}

/-- **C244 (ws-nmf), the Python loop.** As `C244_ws`, for all starting contributions and all values of `robust_alpha`. -/
theorem C244_ws_python (inv : Mat k k ℝ → Mat k k ℝ) (hinv : InvHomogeneous inv) {φ : Fin l → Fin m} (hφ : Function.Surjective φ) (V U : Mat m n ℝ) (alpha alpha' : ℝ) (cfg : LoopCfg ℝ) (hit : 0 < cfg.maxIter) (W : Mat m k ℝ) (W' : Mat l k ℝ) (H : Mat k n ℝ)
    (U' : Mat m n ℝ) (hU' : ∀ i j, U' i j = U i j / √((Finset.univ.filter fun s => φ s = i).card : ℝ)) :
    pyLoop (wsLoopStep inv (fun s j => V (φ s) j) (weights fun s j => U (φ s) j)) (lsQPy (fun s j => V (φ s) j) (fun s j => U (φ s) j) alpha) cfg true false 0 (some W', some H) =
      (pyLoop (wsLoopStep inv V (weights U')) (lsQPy V U' alpha') cfg true false 0 (some W, some H)).map fun st =>
        ⟨(st.factors.1.map fun X => fun s a => X (φ s) a, st.factors.2), st.holdH, st.window, st.losses, st.converged, st.convergeSteps⟩ := by
  obtain rfl : U' = sharedUncertainty φ U := funext fun i => funext fun j => hU' i j
  rw [pyLoop_forgets _ _ cfg true false 0 (some W', some H) (copySamples φ (some W, some H)) hit rfl]
  refine pyLoop_map' (copySamples φ) _ _ _ _ (fun u p => by rw [weights_shared]; exact wsLoopStep_copies inv hinv hφ V (weights U) u p) (fun p => ?_) cfg true false 0 (some W, some H)
  rw [(lsQPy_fst _ _ _ _).1, (lsQPy_fst _ _ _ _).1, (lsQPy_fst _ _ _ _).2, (lsQPy_fst _ _ _ _).2, lsQ_copies]
  exact ⟨rfl, rfl⟩

/-- **C259, the Python loop.** As `C259_ls`, for all values of `robust_alpha`. -/
theorem C259_python {χ : Fin l → Fin n} {d s : Fin l → ℝ} (hχ : Function.Surjective χ) (hd : ∀ t, d t ≠ 0) (hs : ∀ t, s t ≠ 0) (V U : Mat m n ℝ) (alpha alpha' : ℝ) (cfg : LoopCfg ℝ) (W : Mat m k ℝ) (H : Mat k n ℝ) :
    lsTrainPy (fun i t => d t * V i (χ t)) (fun i t => s t * U i (χ t)) alpha cfg W (fun a t => d t * H a (χ t)) =
      (lsTrainPy V (fun i j => U i j / √(∑ t with χ t = j, (d t / s t) ^ 2)) alpha' cfg W H).map fun st =>
        ⟨(st.factors.1, st.factors.2.map fun X => fun a t => d t * X a (χ t)), st.holdH, st.window, st.losses, st.converged, st.convergeSteps⟩ := by
  refine pyLoop_map' (copyFeatures χ d) (lsLoopStep V (weights fun i j => U i j / √(featShare χ d s j))) _ (lsQPy V (fun i j => U i j / √(featShare χ d s j)) alpha') _
    (fun u p => by rw [weights_features, weights_copies]; exact lsLoopStep_features hχ hd hs V (weights U) u p) (fun p => ?_) cfg true false 0 (some W, some H)
  rw [(lsQPy_fst _ _ _ _).1, (lsQPy_fst _ _ _ _).1, (lsQPy_fst _ _ _ _).2, (lsQPy_fst _ _ _ _).2, lsQ_features]
  exact ⟨rfl, rfl⟩

/-- **C266 (ls-nmf), the Python loop.** As `C266_ls`, for all values of `robust_alpha`. -/
theorem C266_ls_python {φ : Fin l → Fin m} {d s : Fin l → ℝ} (hφ : Function.Surjective φ) (hd : ∀ t, d t ≠ 0) (hs : ∀ t, s t ≠ 0) (V U : Mat m n ℝ) (alpha alpha' : ℝ) (cfg : LoopCfg ℝ) (W : Mat m k ℝ) (H : Mat k n ℝ) :
    lsTrainPy (fun t j => d t * V (φ t) j) (fun t j => s t * U (φ t) j) alpha cfg (fun t a => d t * W (φ t) a) H =
      (lsTrainPy V (fun i j => U i j / √(∑ t with φ t = i, (d t / s t) ^ 2)) alpha' cfg W H).map fun st =>
        ⟨(st.factors.1.map fun X => fun t a => d t * X (φ t) a, st.factors.2), st.holdH, st.window, st.losses, st.converged, st.convergeSteps⟩ := by
  refine pyLoop_map' (multSamples φ d) (lsLoopStep V (weights fun i j => U i j / √(featShare φ d s i))) _ (lsQPy V (fun i j => U i j / √(featShare φ d s i)) alpha') _
    (fun u p => by rw [weights_samples, weights_multiples]; exact lsLoopStep_multiples hφ hd hs V (weights U) u p) (fun p => ?_) cfg true false 0 (some W, some H)
  rw [(lsQPy_fst _ _ _ _).1, (lsQPy_fst _ _ _ _).1, (lsQPy_fst _ _ _ _).2, (lsQPy_fst _ _ _ _).2, lsQ_multiples]
  exact ⟨rfl, rfl⟩

/-- **C266 (ws-nmf), the Python loop.** As `C266_ws`, for all starting contributions and all values of `robust_alpha`. -/
theorem C266_ws_python (inv : Mat k k ℝ → Mat k k ℝ) (hinv : InvHomogeneous inv) (φ : Fin l → Fin m) (d s : Fin l → ℝ) (hφ : ∀ i, ∃ t, φ t = i ∧ d t ≠ 0) (hd : ∀ t, 0 ≤ d t) (hs : ∀ t, s t ≠ 0) (V U : Mat m n ℝ) (alpha alpha' : ℝ) (cfg : LoopCfg ℝ)
    (hit : 0 < cfg.maxIter) (W : Mat m k ℝ) (W' : Mat l k ℝ) (H : Mat k n ℝ) (U' : Mat m n ℝ) (hU' : ∀ i j, U' i j = U i j / √(∑ t with φ t = i, (d t / s t) ^ 2)) :
    pyLoop (wsLoopStep inv (fun t j => d t * V (φ t) j) (weights fun t j => s t * U (φ t) j)) (lsQPy (fun t j => d t * V (φ t) j) (fun t j => s t * U (φ t) j) alpha) cfg true false 0 (some W', some H) =
      (pyLoop (wsLoopStep inv V (weights U')) (lsQPy V U' alpha') cfg true false 0 (some W, some H)).map fun st =>
        ⟨(st.factors.1.map fun X => fun t a => d t * X (φ t) a, st.factors.2), st.holdH, st.window, st.losses, st.converged, st.convergeSteps⟩ := by
  have hp : ∀ i, 0 < featShare φ d s i := fun i => by
    obtain ⟨t, ht, h0⟩ := hφ i
    refine Finset.sum_pos' (fun t _ => sq_nonneg _) ⟨t, Finset.mem_filter.2 ⟨Finset.mem_univ _, ht⟩, ?_⟩
    have := div_ne_zero h0 (hs t)
    positivity
  obtain rfl : U' = fun i j => U i j / √(featShare φ d s i) := funext fun i => funext fun j => hU' i j
  rw [pyLoop_forgets _ _ cfg true false 0 (some W', some H) (multSamples φ d (some W, some H)) hit rfl]
  refine pyLoop_map' (multSamples φ d) _ _ _ _ (fun u p => by rw [weights_samples, weights_multiples]; exact wsLoopStep_multiples inv hinv φ d s hd hs hp V (weights U) u p) (fun p => ?_) cfg true false 0 (some W, some H)
  rw [(lsQPy_fst _ _ _ _).1, (lsQPy_fst _ _ _ _).1, (lsQPy_fst _ _ _ _).2, (lsQPy_fst _ _ _ _).2, lsQ_multiples]
  exact ⟨rfl, rfl⟩

/-- **C266 (samples without signal), the Python loop.** As `C266_empty`, for all values of `robust_alpha`. -/
theorem C266_empty_python (inv : Mat k k ℝ → Mat k k ℝ) (V U : Mat m n ℝ) (u : Fin n → ℝ) (alpha alpha' : ℝ) (cfg : LoopCfg ℝ) (hit : 0 < cfg.maxIter) (W : Mat m k ℝ) (W' : Mat (m + 1) k ℝ) (H : Mat k n ℝ) :
    pyLoop (wsLoopStep inv (Fin.snoc V (fun _ => 0)) (weights (Fin.snoc U u))) (lsQPy (Fin.snoc V (fun _ => 0)) (Fin.snoc U u) alpha) cfg true false 0 (some W', some H) =
      (pyLoop (wsLoopStep inv V (weights U)) (lsQPy V U alpha') cfg true false 0 (some W, some H)).map fun st =>
        ⟨(st.factors.1.map fun X => Fin.snoc X (fun _ => 0), st.factors.2), st.holdH, st.window, st.losses, st.converged, st.convergeSteps⟩ := by
  rw [pyLoop_forgets _ _ cfg true false 0 (some W', some H) (addEmpty (some W, some H)) hit rfl]
  refine pyLoop_map' addEmpty _ _ _ _ (fun v p => wsLoopStep_addEmpty inv V U u v p) (fun p => ?_) cfg true false 0 (some W, some H)
  rw [(lsQPy_fst _ _ _ _).1, (lsQPy_fst _ _ _ _).1, (lsQPy_fst _ _ _ _).2, (lsQPy_fst _ _ _ _).2, lsQ_addEmpty]
  exact ⟨rfl, rfl⟩

/-- Cases of these statements: a third sample that is twice the first, and an empty fourth sample. -/
example (V U : Mat 2 4 ℝ) (W : Mat 2 1 ℝ) (W' : Mat 4 1 ℝ) (H : Mat 1 4 ℝ) :=
  C266_ws_python (k := 1) (fun A _ _ => (A 0 0)⁻¹) (fun t A _ => by funext a b; exact mul_inv _ _) (![0, 1, 0, 1] : Fin 4 → Fin 2) ![1, 1, 2, 0] (fun _ => 1)
    (fun i => by
      fin_cases i
      · exact ⟨0, rfl, by simp⟩
      · exact ⟨1, rfl, by simp⟩)
    (fun t => by fin_cases t <;> norm_num) (fun _ => one_ne_zero) V U 4 4 ⟨20, 1, 10, false, 0⟩ (by norm_num) W W' H _ fun _ _ => rfl

end

end Esat
