import Verif.Model.Analysis
import Verif.Lemmas.Correlation
import Mathlib.Algebra.BigOperators.Field
import Mathlib.Tactic.FieldSimp
import Mathlib.Tactic.Ring
import Mathlib.Tactic.Linarith
import Mathlib.Tactic.NormNum
import Mathlib.Data.Fin.VecNotation
import Mathlib.Algebra.BigOperators.Fin

/-!
# Properties C73, C74 and C114-C124: tables and plots of a solution
-/

namespace Esat

open Finset

variable {m n k : ℕ}

/-! ### C73 -/

/-- Root mean square error. -/
noncomputable def rmse (v e : Fin m → ℝ) : ℝ := Real.sqrt ((∑ i, (v i - e i) ^ 2) / m)

/-- C73: what is reported is `√m / 14` times the root mean square error. -/
theorem C73_reported_value (v e : Fin m → ℝ) (hm : 0 < m) : reportedRmse v e = Real.sqrt m / 14 * rmse v e := by
  unfold reportedRmse rmse
  rw [Real.sqrt_div (sum_nonneg fun i _ => sq_nonneg _)]
  have : Real.sqrt m ≠ 0 := by positivity
  field_simp

/-- C73: the reported value is the root mean square error exactly for 196 samples (or a perfect fit). -/
theorem C73_correct_iff (v e : Fin m → ℝ) (hm : 0 < m) : reportedRmse v e = rmse v e ↔ m = 196 ∨ ∀ i, v i = e i := by
  rw [C73_reported_value v e hm]
  have h14 : Real.sqrt m = 14 ↔ m = 196 := by
    rw [show (14 : ℝ) = Real.sqrt 196 by rw [show (196 : ℝ) = 14 ^ 2 by norm_num, Real.sqrt_sq (by norm_num)]]
    rw [Real.sqrt_inj (by positivity) (by norm_num)]
    exact_mod_cast Iff.rfl
  have hz : rmse v e = 0 ↔ ∀ i, v i = e i := by
    unfold rmse
    rw [Real.sqrt_eq_zero (by positivity), div_eq_zero_iff]
    have : (m : ℝ) ≠ 0 := by positivity
    simp only [this, or_false]
    rw [sum_eq_zero_iff_of_nonneg (fun i _ => sq_nonneg _)]
    simp [sub_eq_zero]
  rw [← h14, ← hz]
  constructor
  · intro h
    by_cases h0 : rmse v e = 0
    · exact Or.inr h0
    · left
      have : (Real.sqrt m / 14 - 1) * rmse v e = 0 := by linarith
      rcases mul_eq_zero.1 this with h | h
      · linarith
      · exact absurd h h0
  · rintro (h | h)
    · rw [h]; norm_num
    · rw [h]; simp

/-- C73 is refuted: for every number of samples other than 196 there are data whose reported value, even after any rounding
to four digits, differs from the root mean square error by more than any given bound. -/
theorem C73_refuted (hm : 0 < m) (h196 : m ≠ 196) (rd : ℝ → ℝ) (hrd : ∀ x, |rd x - x| ≤ 1 / 20000) (B : ℝ) :
    ∃ v e : Fin m → ℝ, B < |rd (reportedRmse v e) - rmse v e| := by
  have hs : Real.sqrt m / 14 - 1 ≠ 0 := by
    intro h
    have : Real.sqrt m = 14 := by linarith
    have h2 : (m : ℝ) = 14 ^ 2 := by rw [← this, Real.sq_sqrt (by positivity)]
    apply h196
    have : (m : ℝ) = 196 := by rw [h2]; norm_num
    exact_mod_cast this
  have hpos : 0 < |Real.sqrt m / 14 - 1| := abs_pos.2 hs
  set s := |Real.sqrt m / 14 - 1| with hsdef
  obtain ⟨c, hc, hcB⟩ : ∃ c : ℝ, 0 ≤ c ∧ B + 1 < s * c := by
    refine ⟨(|B| + 2) / s, by positivity, ?_⟩
    rw [mul_div_cancel₀ _ hpos.ne']
    have := le_abs_self B
    linarith
  refine ⟨fun _ => c, fun _ => 0, ?_⟩
  have hr : rmse (fun _ : Fin m => c) (fun _ => 0) = c := by
    unfold rmse
    simp only [sub_zero, sum_const, card_univ, Fintype.card_fin, nsmul_eq_mul]
    have : (m : ℝ) ≠ 0 := by positivity
    rw [mul_div_cancel_left₀ _ this, Real.sqrt_sq hc]
  have hv := C73_reported_value (fun _ : Fin m => c) (fun _ => 0) hm
  rw [hr] at hv
  have h1 := hrd (reportedRmse (fun _ : Fin m => c) (fun _ => 0))
  have h2 : |reportedRmse (fun _ : Fin m => c) (fun _ => 0) - c| = s * c := by
    rw [hv, show Real.sqrt m / 14 * c - c = (Real.sqrt m / 14 - 1) * c by ring, abs_mul, abs_of_nonneg hc]
  rw [hr]
  have h3 := abs_sub_le (reportedRmse (fun _ : Fin m => c) (fun _ => 0))
    (rd (reportedRmse (fun _ : Fin m => c) (fun _ => 0))) c
  rw [abs_sub_comm (reportedRmse _ _) (rd _)] at h3
  linarith

/-! ### C74 -/

variable {K : Type*} [Field K] [LinearOrder K] [IsStrictOrderedRing K]

/-- C74: for non-negative profiles and a feature with a positive column sum, every normalised value lies between 0 and 100
and the values of the feature add up to 100 over the factors. -/
theorem C74_percentages (H : Mat k n K) (hH : ∀ f j, 0 ≤ H f j) (j : Fin n) (hj : 0 < ∑ g, H g j) :
    ∃ p : Fin k → K, (∀ f, fingerprint H f j = some (p f)) ∧ (∀ f, 0 ≤ p f ∧ p f ≤ 100) ∧ ∑ f, p f = 100 ∧
      ∀ f, p f * ∑ g, H g j = 100 * H f j := by
  refine ⟨fun f => 100 * (H f j / ∑ g, H g j), fun f => by simp [fingerprint, hj.ne'], fun f => ⟨?_, ?_⟩, ?_, fun f => ?_⟩
  · exact mul_nonneg (by norm_num) (div_nonneg (hH f j) hj.le)
  · have : H f j / ∑ g, H g j ≤ 1 :=
      (div_le_one hj).2 (single_le_sum (f := fun g => H g j) (fun g _ => hH g j) (mem_univ f))
    linarith
  · rw [← mul_sum, ← sum_div, div_self hj.ne', mul_one]
  · field_simp

/-- C74: a feature that no factor explains has no percentages: all entries are NaN. -/
theorem C74_empty_feature (H : Mat k n K) (hH : ∀ f j, 0 ≤ H f j) (j : Fin n) :
    (∀ f, fingerprint H f j = none) ↔ (∀ f, H f j = 0) := by
  rw [← show ∑ g, H g j = 0 ↔ ∀ f, H f j = 0 by
    rw [sum_eq_zero_iff_of_nonneg (fun g _ => hH g j)]; simp]
  unfold fingerprint
  constructor
  · intro h
    by_contra hne
    rcases Nat.eq_zero_or_pos k with rfl | hk
    · exact hne (by simp)
    · have := h ⟨0, hk⟩
      rw [if_neg hne] at this
      simp at this
  · intro h f
    rw [if_pos h]

/-- Non-vacuity: profile values 1 and 3 give 25 % and 75 %. -/
example : fingerprint (K := ℚ) (![![1], ![3]] : Mat 2 1 ℚ) 0 0 = some 25
    ∧ fingerprint (K := ℚ) (![![1], ![3]] : Mat 2 1 ℚ) 1 0 = some 75 := by
  decide +kernel

/-! ### C114: the regression columns of the statistics table -/

private theorem sum_dev (x : Fin m → ℝ) (hm : 0 < m) : ∑ i, (x i - vmean x) = 0 := by
  have : (m : ℝ) ≠ 0 := by positivity
  simp only [vmean, sum_sub_distrib, sum_const, card_univ, Fintype.card_fin, nsmul_eq_mul]
  field_simp
  ring

/-- Squared error of a line, decomposed around the regression line. -/
theorem lineError_decomp (x y : Fin m → ℝ) (hm : 0 < m) (s c : ℝ) :
    lineError x y s c
      = scov y y - 2 * s * scov x y + s ^ 2 * scov x x + m * (vmean y - s * vmean x - c) ^ 2 := by
  have hx := sum_dev x hm
  have hy := sum_dev y hm
  have h1 : ∀ i, (y i - (s * x i + c)) ^ 2
      = (y i - vmean y) * (y i - vmean y) - 2 * s * ((x i - vmean x) * (y i - vmean y))
        + s ^ 2 * ((x i - vmean x) * (x i - vmean x)) + (vmean y - s * vmean x - c) ^ 2
        + 2 * (vmean y - s * vmean x - c) * (y i - vmean y)
        - 2 * s * (vmean y - s * vmean x - c) * (x i - vmean x) := fun i => by ring
  unfold lineError scov
  rw [sum_congr rfl fun i _ => h1 i]
  simp only [sum_add_distrib, sum_sub_distrib, ← mul_sum]
  rw [sum_sub_distrib] at hx hy
  rw [hx, hy]
  simp

/-- C114: slope and intercept in the table are the least-squares line of the estimated on the observed values. -/
theorem C114_least_squares (x y : Fin m → ℝ) (hm : 0 < m) (hx : scov x x ≠ 0) (s c : ℝ) :
    lineError x y (lrSlope x y) (lrIntercept x y) ≤ lineError x y s c ∧
      (lineError x y s c = lineError x y (lrSlope x y) (lrIntercept x y) ↔ s = lrSlope x y ∧ c = lrIntercept x y) := by
  have hpos : 0 < scov x x := lt_of_le_of_ne (scov_self_nonneg x) hx.symm
  have hmm : (0 : ℝ) < m := by exact_mod_cast hm
  rw [lineError_decomp x y hm, lineError_decomp x y hm]
  have hs : lrSlope x y * scov x x = scov x y := by unfold lrSlope; field_simp
  have hc : vmean y - lrSlope x y * vmean x - lrIntercept x y = 0 := by unfold lrIntercept; ring
  have key : (scov y y - 2 * s * scov x y + s ^ 2 * scov x x + m * (vmean y - s * vmean x - c) ^ 2)
      - (scov y y - 2 * lrSlope x y * scov x y + lrSlope x y ^ 2 * scov x x
          + m * (vmean y - lrSlope x y * vmean x - lrIntercept x y) ^ 2)
      = scov x x * (s - lrSlope x y) ^ 2 + m * (vmean y - s * vmean x - c) ^ 2 := by
    rw [hc, ← hs]; ring
  have hn1 : 0 ≤ scov x x * (s - lrSlope x y) ^ 2 := by positivity
  have hn2 : 0 ≤ (m : ℝ) * (vmean y - s * vmean x - c) ^ 2 := by positivity
  refine ⟨by linarith, ⟨fun h => ?_, fun h => ?_⟩⟩
  · have h1 : scov x x * (s - lrSlope x y) ^ 2 = 0 := by linarith
    have h2 : (m : ℝ) * (vmean y - s * vmean x - c) ^ 2 = 0 := by linarith
    have h3 : s = lrSlope x y := by
      have := pow_eq_zero_iff (two_ne_zero) |>.1 ((mul_eq_zero.1 h1).resolve_left hx)
      linarith
    have h4 := pow_eq_zero_iff (two_ne_zero) |>.1 ((mul_eq_zero.1 h2).resolve_left hmm.ne')
    exact ⟨h3, by unfold lrIntercept; rw [← h3]; linarith⟩
  · rw [h.1, h.2]

/-- C114: `SE Regression` is the root mean squared distance from that line. -/
theorem C114_se_regression (x y : Fin m → ℝ) (hm : 0 < m) (hx : scov x x ≠ 0) :
    seRegression x y = Real.sqrt (lineError x y (lrSlope x y) (lrIntercept x y) / m) := by
  have hpos : 0 < scov x x := lt_of_le_of_ne (scov_self_nonneg x) hx.symm
  have hmm : (0 : ℝ) < m := by exact_mod_cast hm
  have hc : vmean y - lrSlope x y * vmean x - lrIntercept x y = 0 := by unfold lrIntercept; ring
  have hL : lineError x y (lrSlope x y) (lrIntercept x y) = (1 - lrR2 x y) * scov y y := by
    rw [lineError_decomp x y hm, hc]
    unfold lrR2 lrSlope
    by_cases hy : scov y y = 0
    · have hxy : scov x y = 0 := by
        have : ∀ i, y i - vmean y = 0 := by
          have := (sum_eq_zero_iff_of_nonneg (s := univ) (f := fun i => (y i - vmean y) * (y i - vmean y))
            (fun i _ => mul_self_nonneg _)).1 hy
          intro i
          exact mul_self_eq_zero.1 (this i (mem_univ i))
        unfold scov
        exact sum_eq_zero fun i _ => by rw [this i, mul_zero]
      rw [if_pos (by rw [hy, mul_zero]), hy, hxy]
      simp
    · rw [if_neg (mul_ne_zero hx hy)]
      field_simp
      ring
  have h1 : 0 ≤ 1 - lrR2 x y := by
    unfold lrR2
    split
    · norm_num
    · rename_i h
      have h' : scov x x ≠ 0 ∧ scov y y ≠ 0 := mul_ne_zero_iff.1 h
      have := (r2_bounds x y (scov x y ^ 2 / (scov x x * scov y y)) (by
        unfold r2; rw [if_neg (by tauto)])).2
      linarith
  unfold seRegression npStd
  rw [hL, mul_div_assoc, Real.sqrt_mul h1]

/-- Non-vacuity: two different samples. -/
example : scov (![0, 1] : Fin 2 → ℝ) ![0, 1] ≠ 0 := by
  norm_num [scov, vmean, Fin.sum_univ_two]

/-! ### C115: contributions normalised to average one -/

omit [IsStrictOrderedRing K] [LinearOrder K] in
private theorem mean_div (w : Fin m → K) (s : K) : vmean (fun i => w i / s) = vmean w / s := by
  simp only [vmean, ← sum_div]
  rw [div_right_comm]

/-- C115: the contributions in the factor profile plot do average to one. -/
theorem C115_profile_mean_one (w : Fin m → K) (h : vmean w ≠ 0) :
    ∃ c : Fin m → K, (∀ i, profileContr w i = some (c i)) ∧ vmean c = 1 :=
  ⟨fun i => w i / vmean w, fun i => by simp [profileContr, h], by rw [mean_div, div_self h]⟩

/-- C115: the contributions of the g-space plot (labelled "avg=1") average to one over the number of samples, those of the
factor contributions plot (also labelled "avg=1") to one hundred over the number of samples. -/
theorem C115_plot_means (w : Fin m → K) (hm : 0 < m) (h : ∑ i, w i ≠ 0) :
    ∃ g p : Fin m → K, (∀ i, gSpaceContr w i = some (g i)) ∧ (∀ i, contrPlot w i = some (p i)) ∧
      vmean g = 1 / m ∧ vmean p = 100 / m := by
  have hmm : (m : K) ≠ 0 := by positivity
  refine ⟨fun i => w i / ∑ l, w l, fun i => 100 * (w i / ∑ l, w l), fun i => by simp [gSpaceContr, h],
    fun i => by simp [contrPlot, h], ?_, ?_⟩
  · rw [mean_div]; unfold vmean; field_simp
  · rw [vmean_smul, mean_div]; unfold vmean; field_simp

/-- C115: so the label of the g-space plot is right only for a single sample, that of the contributions plot only for
one hundred samples. -/
theorem C115_label_correct_iff (w : Fin m → K) (hm : 0 < m) (h : ∑ i, w i ≠ 0) (g p : Fin m → K)
    (hg : ∀ i, gSpaceContr w i = some (g i)) (hp : ∀ i, contrPlot w i = some (p i)) :
    (vmean g = 1 ↔ m = 1) ∧ (vmean p = 1 ↔ m = 100) := by
  obtain ⟨g', p', hg', hp', hgm, hpm⟩ := C115_plot_means w hm h
  have e1 : g = g' := funext fun i => Option.some.inj ((hg i).symm.trans (hg' i))
  have e2 : p = p' := funext fun i => Option.some.inj ((hp i).symm.trans (hp' i))
  have hmm : (m : K) ≠ 0 := by positivity
  subst e1 e2
  rw [hgm, hpm, div_eq_one_iff_eq hmm, div_eq_one_iff_eq hmm]
  exact ⟨by rw [eq_comm]; exact_mod_cast Iff.rfl, by rw [eq_comm]; exact_mod_cast Iff.rfl⟩

/-! ### C116: the contribution threshold -/

/-- C116: the test rejects exactly the negative thresholds; every value above the documented maximum of 50 is accepted. -/
theorem C116_rejected_iff (t : K) : thresholdRejected t = true ↔ t < 0 := by
  simp only [thresholdRejected, decide_eq_true_eq]
  exact ⟨fun h => h.2, fun h => ⟨by linarith, h⟩⟩

omit [IsStrictOrderedRing K] in
/-- C116: the pie chart has exactly the factors whose share exceeds the threshold, each labelled with its own number. -/
theorem C116_pie (contr : Fin k → K) (t : K) (e : ℕ × K) :
    e ∈ pieEntries contr t ↔ ∃ f : Fin k, e = (f.val + 1, contr f) ∧ t < contr f := by
  simp only [pieEntries, List.mem_map, List.mem_filter, List.mem_reverse, List.mem_finRange, true_and,
    decide_eq_true_eq]
  constructor
  · rintro ⟨f, h, rfl⟩; exact ⟨f, rfl, h⟩
  · rintro ⟨f, rfl, h⟩; exact ⟨f, h, rfl⟩

/-- C116: with a threshold of 50 or more at most one factor is left, so the accepted large thresholds hide the composition
of the feature. -/
theorem C116_large_threshold (H : Mat k n K) (hH : ∀ f j, 0 ≤ H f j) (j : Fin n) (hj : 0 < ∑ g, H g j) (p : Fin k → K)
    (hp : ∀ f, fingerprint H f j = some (p f)) (t : K) (ht : 50 ≤ t) (f g : Fin k) (hf : t < p f) (hg : t < p g) :
    f = g := by
  obtain ⟨p', hp', hb, hs, -⟩ := C74_percentages H hH j hj
  have e : p = p' := funext fun i => Option.some.inj ((hp i).symm.trans (hp' i))
  subst e
  by_contra hne
  have h2 : p f + p g ≤ ∑ i, p i := by
    rw [← sum_pair hne]
    exact sum_le_sum_of_subset_of_nonneg (subset_univ _) (fun i _ _ => (hb i).1)
  rw [hs] at h2
  linarith

/-! ### C117: labels of the residual curves -/

/-- C117: with a data handler exactly the trained models are drawn, each with its own number and visibility. -/
theorem C117_with_handler {R : Type*} (results : List (Option R)) (best : ℕ) (t : Trace R) :
    t ∈ residualTracesDh results best ↔
      ∃ i r, results[i]? = some (some r) ∧ t = ⟨i + 1, decide (i = best), r⟩ := by
  unfold residualTracesDh
  simp only [List.mem_filterMap, id, List.mem_mapIdx]
  constructor
  · rintro ⟨o, ⟨i, hi, rfl⟩, h⟩
    rw [Option.map_eq_some_iff] at h
    obtain ⟨r, hr, rfl⟩ := h
    exact ⟨i, r, by rw [List.getElem?_eq_getElem hi, hr], rfl⟩
  · rintro ⟨i, r, h, rfl⟩
    obtain ⟨hi, hr⟩ := List.getElem?_eq_some_iff.1 h
    exact ⟨_, ⟨i, hi, rfl⟩, by rw [hr]; rfl⟩

/-- C117: without a data handler the same holds when every model was trained. -/
theorem C117_without_handler_no_failure {R : Type*} (results : List (Option R)) (best : ℕ) (h : ∀ o ∈ results, o.isSome) :
    residualTraces results best = residualTracesDh results best := by
  obtain ⟨l, rfl⟩ : ∃ l : List R, results = l.map some := by
    refine ⟨results.filterMap id, ?_⟩
    induction results with
    | nil => rfl
    | cons o rest ih =>
      have ho := h o (by simp)
      obtain ⟨r, rfl⟩ := Option.isSome_iff_exists.1 ho
      simp only [List.filterMap_cons, id, List.map_cons, List.cons.injEq, true_and]
      exact ih fun o ho => h o (by simp [ho])
  unfold residualTraces residualTracesDh
  have h1 : (l.map some).mapIdx (fun i r => r.map (fun r => (⟨i + 1, i = best, r⟩ : Trace R)))
      = (l.mapIdx (fun i r => (⟨i + 1, i = best, r⟩ : Trace R))).map some := by
    apply List.ext_getElem?
    intro i
    simp only [List.getElem?_mapIdx, List.getElem?_map]
    cases l[i]? <;> rfl
  have h2 : ∀ {T : Type _} (x : List T), (x.map some).filterMap id = x := fun x => by
    simp [List.filterMap_map, Function.comp_def]
  rw [h1, h2, h2]

/-- C117: without a data handler every model that comes after failed ones is labelled with the number of an earlier model:
the label is its position less the number of failures before it. -/
theorem C117_shifted_labels {R : Type*} (pre post : List (Option R)) (r : R) (best : ℕ) :
    (residualTraces (pre ++ some r :: post) best)[(pre.filterMap id).length]?
      = some ⟨(pre.filterMap id).length + 1, decide ((pre.filterMap id).length = best), r⟩ := by
  unfold residualTraces
  rw [List.getElem?_mapIdx, List.filterMap_append]
  simp

/-- C117: if a model before the best one failed, the curve of the best model is hidden; a curve that is shown belongs to a later model, and is labelled with the number of the best one. -/
theorem C117_wrong_best {R : Type*} (pre post : List (Option R)) (r : R) (hf : none ∈ pre) :
    (residualTraces (pre ++ some r :: post) pre.length)[(pre.filterMap id).length]? = some ⟨(pre.filterMap id).length + 1, false, r⟩ ∧
      ∀ t ∈ residualTraces (pre ++ some r :: post) pre.length, t.visible = true → some t.model ∈ post ∧ t.label = pre.length + 1 := by
  have hlt : (pre.filterMap id).length < pre.length := by
    have : ∀ l : List (Option R), (l.filterMap id).length ≤ l.length := fun l => List.length_filterMap_le _ _
    obtain ⟨a, b, rfl⟩ := List.append_of_mem hf
    have h1 := this a
    have h2 := this b
    have e : (a ++ none :: b).filterMap id = a.filterMap id ++ b.filterMap id := by simp
    rw [e]
    simp only [List.length_append, List.length_cons]
    omega
  refine ⟨?_, fun t ht hv => ?_⟩
  · rw [C117_shifted_labels]
    rw [decide_eq_false hlt.ne]
  · unfold residualTraces at ht
    rw [List.mem_mapIdx] at ht
    obtain ⟨i, hi, rfl⟩ := ht
    obtain rfl : i = pre.length := by simpa using hv
    refine ⟨?_, rfl⟩
    have e : (pre ++ some r :: post).filterMap id = (pre.filterMap id ++ [r]) ++ post.filterMap id := by simp
    simp only [e]
    rw [List.getElem_append_right (by simp; omega)]
    have := List.getElem_mem (l := post.filterMap id) (n := pre.length - (pre.filterMap id ++ [r]).length) (by
      rw [e] at hi
      simp only [List.length_append, List.length_cons, List.length_nil] at hi ⊢
      omega)
    obtain ⟨o, ho, h⟩ := List.mem_filterMap.1 this
    rw [← h]
    exact ho

/-- Three models, of which the first failed and the second is the best: the curve of the third one is shown, as model 2. -/
example : residualTraces [none, some 'a', some 'b'] 1 = [⟨1, false, 'a'⟩, ⟨2, true, 'b'⟩] := rfl

/-! ### C118: three-dimensional plot -/

/-- C118: the 3-d plot of all factors raises exactly for the type `both` (in any capitalisation); `conc` shows the
concentrations and anything else the percentages. -/
theorem C118_outcome (t : String) :
    plot3d t = if t.toLower = "both" then .raised else .ret (decide (t.toLower = "conc")) := by
  unfold plot3d
  by_cases h : t.toLower = "both"
  · simp [h]
  · simp [h]

example : plot3d "Both" = .raised ∧ plot3d "conc" = .ret true := by decide +kernel

/-! ### C119: the surface plot -/

omit [IsStrictOrderedRing K] in
/-- C119: the values of the surface plot add up to `WH / V` over the factors, not to one. -/
theorem C119_sum (V : Mat m n K) (W : Mat m k K) (H : Mat k n K) (i : Fin m) (j : Fin n)
    (hV : V i j ≠ 0) :
    ∃ p : Fin k → K, (∀ f, surfacePct V W H f i j = some (p f)) ∧ ∑ f, p f = (W ⬝ H) i j / V i j ∧
      (∑ f, p f = 1 ↔ (W ⬝ H) i j = V i j) := by
  have hs : ∑ f, W i f * H f j / V i j = (W ⬝ H) i j / V i j := by rw [← sum_div]; rfl
  exact ⟨fun f => W i f * H f j / V i j, fun f => by simp [surfacePct, hV], hs, by rw [hs, div_eq_one_iff_eq hV]⟩

/-- C119: a missing-by-zero observation has no value at all. -/
theorem C119_zero_data (V : Mat m n K) (W : Mat m k K) (H : Mat k n K) (f : Fin k) (i : Fin m) (j : Fin n)
    (hV : V i j = 0) : surfacePct V W H f i j = none := by simp [surfacePct, hV]

/-! ### C120: lines of the observed/estimated plot -/

/-- C120: the line labelled "One-to-One" passes through `(x, x)` for every observation, whichever minimiser the solver
returns, also when all observations are equal. -/
theorem C120_one_to_one (x : Fin m → ℝ) (s c : ℝ) (h : IsLstsq x x s c) (i : Fin m) : s * x i + c = x i := by
  have h0 : lineError x x s c ≤ 0 := by
    refine (h 1 0).trans (le_of_eq ?_)
    unfold lineError
    exact sum_eq_zero fun i _ => by ring
  have h1 : (x i - (s * x i + c)) ^ 2 ≤ lineError x x s c :=
    single_le_sum (f := fun i => (x i - (s * x i + c)) ^ 2) (fun i _ => sq_nonneg _) (mem_univ i)
  have h2 : (x i - (s * x i + c)) ^ 2 = 0 := le_antisymm (h1.trans h0) (sq_nonneg _)
  have := pow_eq_zero_iff (two_ne_zero) |>.1 h2
  linarith

/-- C120: the line labelled "Regression" is the one whose slope and intercept are in the statistics table. -/
theorem C120_regression (x y : Fin m → ℝ) (hm : 0 < m) (hx : scov x x ≠ 0) (s c : ℝ) :
    IsLstsq x y s c ↔ s = lrSlope x y ∧ c = lrIntercept x y := by
  constructor
  · intro h
    obtain ⟨h1, h2⟩ := C114_least_squares x y hm hx s c
    exact h2.1 (le_antisymm (h _ _) h1)
  · rintro ⟨rfl, rfl⟩ s' c'
    exact (C114_least_squares x y hm hx s' c').1

/-! ### C121: data for the plots -/

omit [LinearOrder K] [IsStrictOrderedRing K] in
/-- C121: without aggregation the plotted estimate, summed factor by factor, is the model estimate `WH`. -/
theorem C121_estimate (W : Mat m k K) (H : Mat k n K) : vPrimePlot W H = W ⬝ H := by
  funext i j
  unfold vPrimePlot mmul
  rw [← List.ofFn_eq_map, List.sum_ofFn]

/-- C121: the constructor leaves usable plot data exactly if there are at most `max_plotting_n` samples; for larger data
sets, the case the aggregation is meant for, every plot of the input data raises. -/
theorem C121_plot_data {D R : Type*} (nSamples maxN : ℕ) (input unc aggIn aggUnc : D) (f : D → R) :
    useInputPlot f (aggregateData nSamples maxN input unc aggIn aggUnc ⟨none, none, none⟩)
      = if nSamples ≤ maxN then .ret (f input) else .raised := by
  unfold aggregateData
  by_cases h : nSamples ≤ maxN
  · rw [if_pos h, if_pos h]; rfl
  · rw [if_neg h, if_neg h]; rfl

/-! ### C122: the default of `selected_model` -/

/-- C122: a plot with a title raises exactly if no model number was passed to the constructor (its default); otherwise the title shows the number counted from one, so that it is `t` exactly if
`t - 1` was passed. -/
theorem C122_title (selected : Option Int) :
    (titleModel selected = .raised ↔ selected = none) ∧ ∀ t, titleModel selected = .ret t ↔ selected = some (t - 1) := by
  cases selected with
  | none => simp [titleModel]
  | some i =>
    refine ⟨by simp [titleModel], fun t => ?_⟩
    simp only [titleModel, Outcome.ret.injEq, Option.some.injEq]
    omega

/-! ### C123: concentrations in the profile plot -/

/-- C123: the bar of feature `j` is the total contribution of the factor times its profile entry, and over the factors the
bars add up to the column sum of the estimate `WH`; a vanishing bar is drawn with the replacement value. -/
theorem C123_bars (tiny : K) (W : Mat m k K) (H : Mat k n K) (j : Fin n) :
    (∀ f, (∑ i, W i f) * H f j ≠ 0 → concSums tiny (fun i => W i f) (H f) j = (∑ i, W i f) * H f j) ∧
    (∀ f, (∑ i, W i f) * H f j = 0 → concSums tiny (fun i => W i f) (H f) j = tiny) ∧
    ((∀ f, (∑ i, W i f) * H f j ≠ 0) →
      ∑ f, concSums tiny (fun i => W i f) (H f) j = ∑ i, (W ⬝ H) i j) := by
  have h0 : ∀ f, ∑ i, W i f * H f j = (∑ i, W i f) * H f j := fun f => (sum_mul _ _ _).symm
  refine ⟨fun f hf => ?_, fun f hf => ?_, fun h => ?_⟩
  · unfold concSums; simp only; rw [h0, if_neg hf]
  · unfold concSums; simp only; rw [h0, if_pos hf]
  · have : ∀ f, concSums tiny (fun i => W i f) (H f) j = ∑ i, W i f * H f j := fun f => by
      unfold concSums; simp only; rw [if_neg (by rw [h0]; exact h f)]
    rw [sum_congr rfl fun f _ => this f]
    unfold mmul
    rw [sum_comm]

/-! ### C124: the concentration axis -/

/-- C124: the top of a positive bar lies in the range of the logarithmic axis exactly if its concentration is at least
one: smaller concentrations are cut off. -/
theorem C124_axis [NeZero n] (c : Fin n → ℝ) (hc : ∀ j, 0 < c j) (j : Fin n) :
    ((concAxis c).1 ≤ Real.logb 10 (c j) ∧ Real.logb 10 (c j) ≤ (concAxis c).2) ↔ 1 ≤ c j := by
  have h2 : Real.logb 10 (c j) ≤ (concAxis c).2 :=
    le_sup' (f := fun j => Real.logb 10 (c j)) (mem_univ j)
  rw [and_iff_left h2]
  exact Real.logb_nonneg_iff (b := 10) (by norm_num) (hc j)

end Esat
