import Verif.Props.Copies

/-!
# C259: a feature that occurs several times

Features that are multiples of each other, with uncertainties that are multiples as well: the same species measured twice, or given in two units. An ls-nmf run on such data is a run on the
distinct features, one with a smaller uncertainty. For ws-nmf this holds for the contributions only, as `EPSILON` is added to the two sums of the profile step.
-/

namespace Esat

section features
variable {m n k l : ℕ}

/-- The weight that the copies of feature `j` have together, in units of the weight of feature `j`: copy `t` has `d t` times the values and `s t` times the uncertainties. -/
noncomputable def featShare (χ : Fin l → Fin n) (d s : Fin l → ℝ) (j : Fin n) : ℝ := ∑ t with χ t = j, (d t / s t) ^ 2

theorem sum_features (χ : Fin l → Fin n) (c : Fin l → ℝ) (g : Fin n → ℝ) : ∑ t, c t * g (χ t) = ∑ j, (∑ t with χ t = j, c t) * g j := by
  rw [← Finset.sum_fiberwise Finset.univ χ]
  refine Finset.sum_congr rfl fun j _ => ?_
  rw [Finset.sum_mul]
  exact Finset.sum_congr rfl fun t ht => by rw [(Finset.mem_filter.1 ht).2]

theorem featShare_pos {χ : Fin l → Fin n} {d s : Fin l → ℝ} (hχ : Function.Surjective χ) (hd : ∀ t, d t ≠ 0) (hs : ∀ t, s t ≠ 0) (j : Fin n) : 0 < featShare χ d s j := by
  obtain ⟨t, ht⟩ := hχ j
  exact Finset.sum_pos (fun t _ => by have := div_ne_zero (hd t) (hs t); positivity) ⟨t, Finset.mem_filter.2 ⟨Finset.mem_univ _, ht⟩⟩

/-- The same contributions, and `d t` times the profile column of feature `χ t` for copy `t`. -/
def copyFeatures (χ : Fin l → Fin n) (d : Fin l → ℝ) (p : Option (Mat m k ℝ) × Option (Mat k n ℝ)) : Option (Mat m k ℝ) × Option (Mat k l ℝ) :=
  (p.1, p.2.map fun H => fun a t => d t * H a (χ t))

theorem weights_features (χ : Fin l → Fin n) (d s : Fin l → ℝ) (U : Mat m n ℝ) :
    weights (fun i j => U i j / √(featShare χ d s j)) = fun i j => featShare χ d s j * weights U i j := by
  funext i j
  have h0 : 0 ≤ featShare χ d s j := Finset.sum_nonneg fun t _ => sq_nonneg _
  simp only [weights, div_pow]
  rw [Real.sq_sqrt h0, one_div_div, div_eq_mul_one_div]

theorem weights_copies (χ : Fin l → Fin n) (s : Fin l → ℝ) (U : Mat m n ℝ) :
    weights (fun i t => s t * U i (χ t)) = fun i t => 1 / s t ^ 2 * weights U i (χ t) := by
  funext i t
  simp only [weights, mul_pow]
  rw [one_div_mul_one_div]

theorem mmul_features (χ : Fin l → Fin n) (d : Fin l → ℝ) (W : Mat m k ℝ) (H : Mat k n ℝ) (i : Fin m) (t : Fin l) :
    ∑ b, W i b * (d t * H b (χ t)) = d t * ∑ b, W i b * H b (χ t) := by
  rw [Finset.mul_sum]
  exact Finset.sum_congr rfl fun b _ => by ring

theorem qLoss_features (χ : Fin l → Fin n) (d s : Fin l → ℝ) (V U : Mat m n ℝ) (W : Mat m k ℝ) (H : Mat k n ℝ) :
    qLoss (fun i t => d t * V i (χ t)) (fun i t => s t * U i (χ t)) W (fun a t => d t * H a (χ t)) = qLoss V (fun i j => U i j / √(featShare χ d s j)) W H := by
  unfold qLoss
  simp only [if_true]
  refine Finset.sum_congr rfl fun i _ => ?_
  have e : ∀ t, (d t * V i (χ t) - mmul W (fun a t => d t * H a (χ t)) i t) / (s t * U i (χ t)) * ((d t * V i (χ t) - mmul W (fun a t => d t * H a (χ t)) i t) / (s t * U i (χ t))) =
      (d t / s t) ^ 2 * (fun j => (V i j - (W ⬝ H) i j) / U i j * ((V i j - (W ⬝ H) i j) / U i j)) (χ t) := fun t => by
    simp only [mmul]
    rw [mmul_features, ← mul_sub, mul_div_mul_comm]
    ring
  rw [Finset.sum_congr rfl fun t _ => e t, sum_features χ (fun t => (d t / s t) ^ 2) (fun j => (V i j - (W ⬝ H) i j) / U i j * ((V i j - (W ⬝ H) i j) / U i j))]
  refine Finset.sum_congr rfl fun j _ => ?_
  have h0 : 0 ≤ featShare χ d s j := Finset.sum_nonneg fun t _ => sq_nonneg _
  rw [div_div_eq_mul_div, mul_div_right_comm, mul_mul_mul_comm, Real.mul_self_sqrt h0]
  exact mul_comm _ _

theorem lsQ_features (χ : Fin l → Fin n) (d s : Fin l → ℝ) (V U : Mat m n ℝ) (p : Option (Mat m k ℝ) × Option (Mat k n ℝ)) :
    lsQ (fun i t => d t * V i (χ t)) (fun i t => s t * U i (χ t)) (copyFeatures χ d p) = lsQ V (fun i j => U i j / √(featShare χ d s j)) p := by
  obtain ⟨_ | W, _ | H⟩ := p
  · rfl
  · rfl
  · rfl
  · exact congrArg some (qLoss_features χ d s V U W H)

theorem lsStepW_features (χ : Fin l → Fin n) (d s : Fin l → ℝ) (V We : Mat m n ℝ) (W : Mat m k ℝ) (H : Mat k n ℝ) :
    lsStepW (fun i t => d t * V i (χ t)) (fun i t => 1 / s t ^ 2 * We i (χ t)) W (fun a t => d t * H a (χ t)) = lsStepW V (fun i j => featShare χ d s j * We i j) W H := by
  have hnum : lsWNum (fun i t => d t * V i (χ t)) (fun i t => 1 / s t ^ 2 * We i (χ t)) (fun a t => d t * H a (χ t)) = lsWNum V (fun i j => featShare χ d s j * We i j) H := by
    funext i a
    rw [lsWNum_apply, lsWNum_apply, Finset.sum_congr rfl (g := fun t => (d t / s t) ^ 2 * (fun j => We i j * V i j * H a j) (χ t)) fun t _ => by ring,
      sum_features χ (fun t => (d t / s t) ^ 2) (fun j => We i j * V i j * H a j)]
    exact Finset.sum_congr rfl fun j _ => by rw [featShare]; ring
  have hden : lsWDen (fun i t => 1 / s t ^ 2 * We i (χ t)) W (fun a t => d t * H a (χ t)) = lsWDen (fun i j => featShare χ d s j * We i j) W H := by
    funext i a
    rw [lsWDen_apply, lsWDen_apply, Finset.sum_congr rfl (g := fun t => (d t / s t) ^ 2 * (fun j => We i j * (∑ b, W i b * H b j) * H a j) (χ t)) fun t _ => by rw [mmul_features]; ring,
      sum_features χ (fun t => (d t / s t) ^ 2) (fun j => We i j * (∑ b, W i b * H b j) * H a j)]
    exact Finset.sum_congr rfl fun j _ => by rw [featShare]; ring
  unfold lsStepW
  rw [hnum, hden]

theorem lsStepH_features {χ : Fin l → Fin n} {d s : Fin l → ℝ} (hχ : Function.Surjective χ) (hd : ∀ t, d t ≠ 0) (hs : ∀ t, s t ≠ 0) (V We : Mat m n ℝ) (W : Mat m k ℝ) (H : Mat k n ℝ) :
    lsStepH (fun i t => d t * V i (χ t)) (fun i t => 1 / s t ^ 2 * We i (χ t)) W (fun a t => d t * H a (χ t)) =
      (lsStepH V (fun i j => featShare χ d s j * We i j) W H).map fun H => fun a t => d t * H a (χ t) := by
  have hn : ∀ a t, lsHNum (fun i t => d t * V i (χ t)) (fun i t => 1 / s t ^ 2 * We i (χ t)) W a t = d t / s t ^ 2 * lsHNum V We W a (χ t) := fun a t => by
    rw [lsHNum_apply, lsHNum_apply, Finset.mul_sum]
    exact Finset.sum_congr rfl fun i _ => by ring
  have hD : ∀ a t, lsHDen (fun i t => 1 / s t ^ 2 * We i (χ t)) W (fun a t => d t * H a (χ t)) a t = d t / s t ^ 2 * lsHDen We W H a (χ t) := fun a t => by
    rw [lsHDen_apply, lsHDen_apply, Finset.mul_sum]
    exact Finset.sum_congr rfl fun i _ => by rw [mmul_features]; ring
  have hn' : ∀ a j, lsHNum V (fun i j => featShare χ d s j * We i j) W a j = featShare χ d s j * lsHNum V We W a j := fun a j => by
    rw [lsHNum_apply, lsHNum_apply, Finset.mul_sum]
    exact Finset.sum_congr rfl fun i _ => by ring
  have hD' : ∀ a j, lsHDen (fun i j => featShare χ d s j * We i j) W H a j = featShare χ d s j * lsHDen We W H a j := fun a j => by
    rw [lsHDen_apply, lsHDen_apply, Finset.mul_sum]
    exact Finset.sum_congr rfl fun i _ => by ring
  have hc : ∀ t, d t / s t ^ 2 ≠ 0 := fun t => div_ne_zero (hd t) (pow_ne_zero _ (hs t))
  have hp := fun j => (featShare_pos hχ hd hs j).ne'
  have hz : NoZero (lsHDen (fun i t => 1 / s t ^ 2 * We i (χ t)) W (fun a t => d t * H a (χ t))) ↔ NoZero (lsHDen (fun i j => featShare χ d s j * We i j) W H) := by
    constructor
    · intro h0 a j
      obtain ⟨t, rfl⟩ := hχ j
      rw [hD']
      have := h0 a t
      rw [hD] at this
      exact mul_ne_zero (hp _) (right_ne_zero_of_mul this)
    · intro h0 a t
      have := h0 a (χ t)
      rw [hD'] at this
      rw [hD]
      exact mul_ne_zero (hc t) (right_ne_zero_of_mul this)
  unfold lsStepH
  by_cases h0 : NoZero (lsHDen (fun i j => featShare χ d s j * We i j) W H)
  · rw [if_pos h0, if_pos (hz.2 h0), Option.map_some]
    congr 1
    funext a t
    simp only [emul, ediv, hn, hD, hn', hD']
    rw [mul_div_mul_left _ _ (hc t), mul_div_mul_left _ _ (hp _), mul_assoc]
  · rw [if_neg h0, if_neg (fun h => h0 (hz.1 h))]
    rfl

theorem lsLoopStep_features {χ : Fin l → Fin n} {d s : Fin l → ℝ} (hχ : Function.Surjective χ) (hd : ∀ t, d t ≠ 0) (hs : ∀ t, s t ≠ 0) (V We : Mat m n ℝ) (u : Bool) (p : Option (Mat m k ℝ) × Option (Mat k n ℝ)) :
    lsLoopStep (fun i t => d t * V i (χ t)) (fun i t => 1 / s t ^ 2 * We i (χ t)) u (copyFeatures χ d p) = copyFeatures χ d (lsLoopStep V (fun i j => featShare χ d s j * We i j) u p) := by
  obtain ⟨_ | W, _ | H⟩ := p
  · cases u <;> rfl
  · cases u <;> rfl
  · cases u <;> rfl
  · cases u
    · simp only [lsLoopStep, copyFeatures, Option.map_some, Option.bind_some, Bool.false_eq_true, if_false]
      rw [lsStepW_features]
    · simp only [lsLoopStep, copyFeatures, Option.map_some, Option.bind_some, if_true]
      rw [lsStepH_features hχ hd hs]
      cases lsStepH V (fun i j => featShare χ d s j * We i j) W H with
      | none => rfl
      | some H' =>
        simp only [Option.map_some, Option.bind_some]
        rw [lsStepW_features]

/-- **C259 (ls-nmf).** Data with features that are multiples of others (values `d t` times, uncertainties `s t` times those of feature `χ t`), the profile columns starting as the same multiples: the run takes the course of the run on the distinct
features, each with its uncertainty divided by the square root of `∑ (d t / s t) ^ 2` over its copies. Losses, convergence, reports and contributions are the same, and the profile columns stay multiples of each other. -/
theorem C259_ls {χ : Fin l → Fin n} {d s : Fin l → ℝ} (hχ : Function.Surjective χ) (hd : ∀ t, d t ≠ 0) (hs : ∀ t, s t ≠ 0) (V U : Mat m n ℝ) (cfg : LoopCfg ℝ) (clock : ℕ → Bool) (rm : Bool) (rn : ℤ) (W : Mat m k ℝ) (H : Mat k n ℝ) :
    let run := lsTrain V (fun i j => U i j / √(∑ t with χ t = j, (d t / s t) ^ 2)) cfg clock rm rn W H
    let run' := lsTrain (fun i t => d t * V i (χ t)) (fun i t => s t * U i (χ t)) cfg clock rm rn W (fun a t => d t * H a (χ t))
    run'.converged = run.converged ∧ run'.convergeI = run.convergeI ∧ run'.reports = run.reports ∧ run'.losses = run.losses ∧
      run'.factors.1 = run.factors.1 ∧ run'.factors.2 = run.factors.2.map (fun X => fun a t => d t * X a (χ t)) := by
  intro run run'
  have hid : ∀ o : Option ℝ, o.map (1 * ·) = o := fun o => by cases o <;> simp
  have key := rustLoop_rescale (copyFeatures χ d) 1 one_pos (lsLoopStep V (weights fun i j => U i j / √(featShare χ d s j))) (lsLoopStep (fun i t => d t * V i (χ t)) (weights fun i t => s t * U i (χ t)))
    (lsQ V (fun i j => U i j / √(featShare χ d s j))) (lsQ (fun i t => d t * V i (χ t)) (fun i t => s t * U i (χ t)))
    (fun u p => by rw [weights_features, weights_copies]; exact lsLoopStep_features hχ hd hs V (weights U) u p) (fun p => by rw [hid, lsQ_features]) cfg clock (some W, some H)
  have hrun : run' = run.rescale (copyFeatures χ d) 1 := by
    refine Eq.trans ?_ key
    rw [one_mul]
    rfl
  rw [hrun]
  exact ⟨rfl, rfl, rfl, rescale_one_losses run, rfl, rfl⟩

/-- **C259 (ws-nmf, contributions).** The contributions ws-nmf computes for given profiles are those of the distinct features with the smaller uncertainties, for every matrix inverse. -/
theorem C259_ws_contributions (inv : Mat k k ℝ → Mat k k ℝ) (χ : Fin l → Fin n) (d s : Fin l → ℝ) (V U : Mat m n ℝ) (H : Mat k n ℝ) :
    wsStepW inv (fun i t => d t * V i (χ t)) (weights fun i t => s t * U i (χ t)) (fun a t => d t * H a (χ t)) =
      wsStepW inv V (weights fun i j => U i j / √(∑ t with χ t = j, (d t / s t) ^ 2)) H := by
  have hw := weights_features χ d s U
  unfold featShare at hw
  rw [hw, weights_copies]
  have hN : ∀ i, wsNormal (fun i t => 1 / s t ^ 2 * weights U i (χ t)) (fun a t => d t * H a (χ t)) i = wsNormal (fun i j => (∑ t with χ t = j, (d t / s t) ^ 2) * weights U i j) H i := fun i => by
    funext a b
    unfold wsNormal
    rw [Finset.sum_congr rfl (g := fun t => (d t / s t) ^ 2 * (fun j => H a j * (weights U i j * H b j)) (χ t)) fun t _ => by ring, sum_features χ (fun t => (d t / s t) ^ 2) (fun j => H a j * (weights U i j * H b j))]
    exact Finset.sum_congr rfl fun j _ => by ring
  have hR : ∀ i, wsRhs (fun i t => d t * V i (χ t)) (fun i t => 1 / s t ^ 2 * weights U i (χ t)) (fun a t => d t * H a (χ t)) i = wsRhs V (fun i j => (∑ t with χ t = j, (d t / s t) ^ 2) * weights U i j) H i := fun i => by
    funext a
    unfold wsRhs
    rw [Finset.sum_congr rfl (g := fun t => (d t / s t) ^ 2 * (fun j => H a j * (weights U i j * V i j)) (χ t)) fun t _ => by ring, sum_features χ (fun t => (d t / s t) ^ 2) (fun j => H a j * (weights U i j * V i j))]
    exact Finset.sum_congr rfl fun j _ => by ring
  funext i b
  unfold wsStepW
  rw [hN, hR]

end features

/-! ## ws-nmf -/

theorem wsStepH_one {n : ℕ} (V We : Mat 1 n ℝ) (w : ℝ) (hw : 0 ≤ w) (H : Mat 1 n ℝ) (hV : ∀ j, 0 ≤ V 0 j) (hWe : ∀ j, 0 ≤ We 0 j) (hH : ∀ j, 0 < H 0 j) :
    wsStepH V We (fun (_ _ : Fin 1) => w) H = some fun _ j => H 0 j * √((We 0 j * V 0 j * w + wsEps) / (H 0 j * (w * We 0 j * w) + wsEps)) := by
  have e0 : (0 : ℝ) < wsEps := by unfold wsEps; norm_num
  have hN : ∀ b j, wsNum V We (fun (_ _ : Fin 1) => w) H b j = We 0 j * V 0 j * w + wsEps := fun b j => by
    rw [Subsingleton.elim b 0]
    simp [wsNum, wsLin, wsQuad, wsPos, wsNeg, abs_of_nonneg hw]
  have hD : ∀ b j, wsDen V We (fun (_ _ : Fin 1) => w) H b j = H 0 j * (w * We 0 j * w) + wsEps := fun b j => by
    rw [Subsingleton.elim b 0]
    simp [wsDen, wsLin, wsQuad, wsPos, wsNeg, abs_of_nonneg hw]
  have p1 : ∀ j, 0 < We 0 j * V 0 j * w + wsEps := fun j => by have := hV j; have := hWe j; positivity
  have p2 : ∀ j, 0 < H 0 j * (w * We 0 j * w) + wsEps := fun j => by have := hH j; have := hWe j; positivity
  unfold wsStepH
  rw [if_pos fun b j => by rw [hN, hD]; exact ⟨(p2 j).ne', (div_pos (p1 j) (p2 j)).le⟩]
  congr 1
  funext b j
  rw [hN, hD, Subsingleton.elim b 0]

/-- **C259 (ws-nmf, profiles).** The profile step of ws-nmf does not have this property, even for an exact copy of a feature: one sample, one factor, three features of which the first two are the same. The column of the copied
feature differs from the one found with the uncertainty divided by `√2`, because `EPSILON` is added to both sums. -/
theorem C259_ws_profiles :
    ∃ H H' : ℝ, (wsLoopStep (fun A _ _ => (A 0 0)⁻¹) (fun (_ : Fin 1) (j : Fin 2) => ![1, 2] j) (weights fun _ j => ![1 / √2, 1] j) true (some fun _ _ => 1, some fun (_ : Fin 1) _ => 1)).2.map (fun X => X 0 0) = some H ∧
      (wsLoopStep (fun A _ _ => (A 0 0)⁻¹) (fun (_ : Fin 1) (j : Fin 3) => ![1, 1, 2] j) (weights fun _ _ => 1) true (some fun _ _ => 1, some fun (_ : Fin 1) _ => 1)).2.map (fun X => X 0 0) = some H' ∧ H ≠ H' := by
  have hW : wsStepW (fun A _ _ => (A 0 0)⁻¹) (fun (_ : Fin 1) (j : Fin 2) => ![1, 2] j) (weights fun _ j => ![1 / √2, 1] j) (fun (_ : Fin 1) _ => 1) = fun (_ _ : Fin 1) => (4 / 3 : ℝ) := by
    funext i a
    simp [wsStepW, wsRhs, wsNormal, weights, Fin.sum_univ_succ]
    norm_num
  have hW' : wsStepW (fun A _ _ => (A 0 0)⁻¹) (fun (_ : Fin 1) (j : Fin 3) => ![1, 1, 2] j) (weights fun _ _ => 1) (fun (_ : Fin 1) _ => 1) = fun (_ _ : Fin 1) => (4 / 3 : ℝ) := by
    funext i a
    simp [wsStepW, wsRhs, wsNormal, weights, Fin.sum_univ_succ]
    norm_num
  have e0 : (0 : ℝ) < wsEps := by unfold wsEps; norm_num
  refine ⟨√((8 / 3 + wsEps) / (32 / 9 + wsEps)), √((4 / 3 + wsEps) / (16 / 9 + wsEps)), ?_, ?_, ?_⟩
  · show (wsStepH _ _ (wsStepW _ _ _ _) _).map _ = _
    rw [hW, wsStepH_one _ _ _ (by norm_num) _ (fun j => by fin_cases j <;> simp [weights] <;> norm_num) (fun j => by fin_cases j <;> simp [weights] <;> norm_num) (fun _ => one_pos), Option.map_some]
    simp [weights]
    norm_num
  · show (wsStepH _ _ (wsStepW _ _ _ _) _).map _ = _
    rw [hW', wsStepH_one _ _ _ (by norm_num) _ (fun j => by fin_cases j <;> simp [weights] <;> norm_num) (fun j => by fin_cases j <;> simp [weights] <;> norm_num) (fun _ => one_pos), Option.map_some]
    simp [weights]
    norm_num
  · intro h
    have h1 := (Real.sqrt_inj (by positivity) (by positivity)).1 h
    rw [div_eq_div_iff (by positivity) (by positivity)] at h1
    nlinarith

/-- One feature in two units, and a second one: the run on the three columns is the run on two, the first with its uncertainty divided by `√2`. -/
example (V U : Mat 4 2 ℝ) (cfg : LoopCfg ℝ) (clock : ℕ → Bool) (W : Mat 4 1 ℝ) (H : Mat 1 2 ℝ) :
    (lsTrain (fun i t => (![1, 1000, 1] : Fin 3 → ℝ) t * V i (![0, 0, 1] t)) (fun i t => (![1, 1000, 1] : Fin 3 → ℝ) t * U i (![0, 0, 1] t)) cfg clock false 0 W (fun a t => (![1, 1000, 1] : Fin 3 → ℝ) t * H a (![0, 0, 1] t))).factors.1 =
      (lsTrain V (fun i j => U i j / √(if j = 0 then 2 else 1)) cfg clock false 0 W H).factors.1 := by
  have h1 : ∀ t : Fin 3, (![1, 1000, 1] : Fin 3 → ℝ) t ≠ 0 := fun t => by fin_cases t <;> simp
  rw [(C259_ls (χ := (![0, 0, 1] : Fin 3 → Fin 2)) (by decide) h1 h1 V U cfg clock false 0 W H).2.2.2.2.1]
  have : ∀ j : Fin 2, (∑ t : Fin 3 with (![0, 0, 1] : Fin 3 → Fin 2) t = j, ((![1, 1000, 1] : Fin 3 → ℝ) t / (![1, 1000, 1] : Fin 3 → ℝ) t) ^ 2) = if j = 0 then 2 else 1 := fun j => by
    rw [Finset.sum_congr rfl (g := fun _ => (1 : ℝ)) fun t _ => by rw [div_self (h1 t), one_pow], Finset.sum_const, nsmul_eq_mul, mul_one]
    have h2 : ∀ j : Fin 2, (Finset.univ.filter fun t : Fin 3 => (![0, 0, 1] : Fin 3 → Fin 2) t = j).card = if j = 0 then 2 else 1 := by decide
    rw [h2]
    split <;> norm_num
  simp only [this]

end Esat
