import Mathlib.Probability.Distributions.Gaussian.Real
import Verif.Props.InputFigures2

/-!
# C216: the ridge curves are densities

The height of a curve above its base line is the average of normal densities around the values that take part, with the variance of Scott's rule. Its integral over the real line is one.
-/

namespace Esat
open MeasureTheory ProbabilityTheory
variable {m : ℕ}

/-! ## Specification -/

/-- The value with which a cell takes part in the ridge line. -/
noncomputable def ridgeEntry (logX : Bool) : Option ℝ → Option ℝ
  | none => none
  | some v => if logX then (if 0 < v then some (Real.logb 10 v) else none) else some v

/-- The sum of `f` over the values that take part. -/
noncomputable def ridgeSum (logX : Bool) (col : Fin m → Option ℝ) (f : ℝ → ℝ) : ℝ := ∑ r, (ridgeEntry logX (col r)).elim 0 f

/-- Their number, mean and sample variance. -/
noncomputable def ridgeCount (logX : Bool) (col : Fin m → Option ℝ) : ℝ := ridgeSum logX col fun _ => 1
noncomputable def ridgeMean (logX : Bool) (col : Fin m → Option ℝ) : ℝ := ridgeSum logX col (fun v => v) / ridgeCount logX col
noncomputable def ridgeVar (logX : Bool) (col : Fin m → Option ℝ) : ℝ :=
  ridgeSum logX col (fun v => (v - ridgeMean logX col) ^ 2) / (ridgeCount logX col - 1)

/-- Average of the normal densities around the values, with variance `count^(-2/5)` times the sample variance. -/
noncomputable def ridgeDensity (logX : Bool) (col : Fin m → Option ℝ) (t : ℝ) : ℝ :=
  ridgeSum logX col (fun v => gaussianPDFReal v (ridgeCount logX col ^ (-(2 / 5 : ℝ)) * ridgeVar logX col).toNNReal t) / ridgeCount logX col

/-! ## Sums over the values -/

theorem ridgeData_eq (logX : Bool) (col : Fin m → Option ℝ) : ridgeData logX col = (List.finRange m).filterMap fun r => ridgeEntry logX (col r) := by
  unfold ridgeData
  cases logX with
  | false =>
    simp only [Bool.false_eq_true, if_false]
    exact List.filterMap_congr fun r _ => by cases col r <;> rfl
  | true =>
    simp only [if_true]
    rw [List.filter_filterMap, List.map_filterMap]
    refine List.filterMap_congr fun r _ => ?_
    cases h : col r with
    | none => rfl
    | some v => by_cases hv : 0 < v <;> simp [ridgeEntry, hv, Option.filter]

theorem sum_filterMap {α : Type*} (g : α → Option ℝ) (f : ℝ → ℝ) (l : List α) : ((l.filterMap g).map f).sum = (l.map fun r => (g r).elim 0 f).sum := by
  induction l with
  | nil => rfl
  | cons r l ih =>
    rw [List.filterMap_cons]
    cases h : g r with
    | none => simp [h, ih]
    | some v => simp [h, ih]

theorem ridge_sum_get (logX : Bool) (col : Fin m → Option ℝ) (f : ℝ → ℝ) :
    ∑ i : Fin (ridgeData logX col).length, f ((ridgeData logX col).get i) = ridgeSum logX col f := by
  have h : ∑ i : Fin (ridgeData logX col).length, f ((ridgeData logX col).get i) = ((ridgeData logX col).map f).sum := by
    rw [← Fin.sum_univ_fun_getElem]; rfl
  rw [h, ridgeData_eq, sum_filterMap, ridgeSum, ← List.sum_ofFn, List.ofFn_eq_map]

theorem ridge_count (logX : Bool) (col : Fin m → Option ℝ) : ((ridgeData logX col).length : ℝ) = ridgeCount logX col := by
  rw [ridgeCount, ← ridge_sum_get]; simp

theorem ridge_mean (logX : Bool) (col : Fin m → Option ℝ) : vmean (fun i : Fin (ridgeData logX col).length => (ridgeData logX col).get i) = ridgeMean logX col := by
  rw [vmean, ridgeMean, ← ridge_count, ← ridge_sum_get]

theorem ridge_var (logX : Bool) (col : Fin m → Option ℝ) :
    scov (fun i : Fin (ridgeData logX col).length => (ridgeData logX col).get i) (fun i => (ridgeData logX col).get i) / (((ridgeData logX col).length : ℝ) - 1) = ridgeVar logX col := by
  rw [scov, ridge_mean, ridgeVar, ← ridge_count, ← ridge_sum_get]
  congr 1
  exact Finset.sum_congr rfl fun i _ => by ring

theorem kde_density (logX : Bool) (col : Fin m → Option ℝ) (hl : 2 ≤ (ridgeData logX col).length)
    (hs : 0 < scov (fun i : Fin (ridgeData logX col).length => (ridgeData logX col).get i) (fun i => (ridgeData logX col).get i)) :
    0 < ridgeCount logX col ^ (-(2 / 5 : ℝ)) * ridgeVar logX col ∧
      ∀ t, kdeAt (fun i : Fin (ridgeData logX col).length => (ridgeData logX col).get i) t = ridgeDensity logX col t := by
  have hl0 : (0 : ℝ) < (ridgeData logX col).length := by
    have : 0 < (ridgeData logX col).length := by omega
    exact_mod_cast this
  have hl1 : (0 : ℝ) < ((ridgeData logX col).length : ℝ) - 1 := by
    have : (2 : ℝ) ≤ (ridgeData logX col).length := by exact_mod_cast hl
    linarith
  have hv : 0 < ridgeVar logX col := by rw [← ridge_var]; exact div_pos hs hl1
  have hc : 0 < ridgeCount logX col := by rw [← ridge_count]; exact hl0
  have hp : 0 < ridgeCount logX col ^ (-(2 / 5 : ℝ)) * ridgeVar logX col := mul_pos (Real.rpow_pos_of_pos hc _) hv
  refine ⟨hp, fun t => ?_⟩
  have hw : kdeWidth (fun i : Fin (ridgeData logX col).length => (ridgeData logX col).get i) = ridgeCount logX col ^ (-(1 / 5 : ℝ)) * Real.sqrt (ridgeVar logX col) := by
    rw [kdeWidth, ridge_var, ridge_count]
  have hw2 : (ridgeCount logX col ^ (-(1 / 5 : ℝ)) * Real.sqrt (ridgeVar logX col)) ^ 2 = ridgeCount logX col ^ (-(2 / 5 : ℝ)) * ridgeVar logX col := by
    rw [mul_pow, Real.sq_sqrt hv.le, ← Real.rpow_natCast, ← Real.rpow_mul hc.le]
    norm_num
  have hwp : 0 < ridgeCount logX col ^ (-(1 / 5 : ℝ)) * Real.sqrt (ridgeVar logX col) := mul_pos (Real.rpow_pos_of_pos hc _) (Real.sqrt_pos.2 hv)
  have hroot : Real.sqrt (2 * Real.pi * (ridgeCount logX col ^ (-(2 / 5 : ℝ)) * ridgeVar logX col)) = Real.sqrt (2 * Real.pi) * (ridgeCount logX col ^ (-(1 / 5 : ℝ)) * Real.sqrt (ridgeVar logX col)) := by
    rw [Real.sqrt_mul (by positivity), ← hw2, Real.sqrt_sq hwp.le]
  rw [kdeAt, hw, hw2, ridge_count, ridgeDensity]
  rw [ridge_sum_get logX col fun v => Real.exp (-((t - v) ^ 2 / (2 * (ridgeCount logX col ^ (-(2 / 5 : ℝ)) * ridgeVar logX col))))]
  have e : ridgeSum logX col (fun v => gaussianPDFReal v (ridgeCount logX col ^ (-(2 / 5 : ℝ)) * ridgeVar logX col).toNNReal t)
      = (Real.sqrt (2 * Real.pi) * (ridgeCount logX col ^ (-(1 / 5 : ℝ)) * Real.sqrt (ridgeVar logX col)))⁻¹ *
        ridgeSum logX col fun v => Real.exp (-((t - v) ^ 2 / (2 * (ridgeCount logX col ^ (-(2 / 5 : ℝ)) * ridgeVar logX col)))) := by
    unfold ridgeSum
    rw [Finset.mul_sum]
    refine Finset.sum_congr rfl fun r _ => ?_
    cases ridgeEntry logX (col r) with
    | none => simp
    | some v =>
      simp only [Option.elim]
      rw [gaussianPDFReal, Real.coe_toNNReal _ hp.le, hroot, neg_div]
  rw [e]
  field_simp

/-- **C216 (density).** The height of a curve above its base line is the average of normal densities around the values that take part, with the variance of Scott's rule; this function is integrable and its integral is one. -/
theorem C216_density (logX : Bool) (nbins : ℕ) (b : ℝ) (col : Fin m → Option ℝ) (pts : List (ℝ × ℝ)) (h : ridgeCurve logX nbins b col = some (some pts)) :
    (∀ q ∈ pts, q.2 = ridgeDensity logX col q.1 + b) ∧ (∀ t, 0 < ridgeDensity logX col t) ∧ Integrable (ridgeDensity logX col) ∧ ∫ t, ridgeDensity logX col t = 1 := by
  obtain ⟨lo, hi, -, -, -, hl, hv, he⟩ := ridgeCurve_spread logX nbins b col ((C216_curve logX nbins b col).1.1 ⟨pts, h⟩)
  obtain ⟨hp, hk⟩ := kde_density logX col hl hv
  rw [he] at h
  obtain rfl := Option.some.inj (Option.some.inj h)
  have hne : (ridgeCount logX col ^ (-(2 / 5 : ℝ)) * ridgeVar logX col).toNNReal ≠ 0 := by
    rw [Ne, Real.toNNReal_eq_zero]; exact not_le.2 hp
  have hterm : ∀ r : Fin m, Integrable fun t => (ridgeEntry logX (col r)).elim 0 fun v => gaussianPDFReal v (ridgeCount logX col ^ (-(2 / 5 : ℝ)) * ridgeVar logX col).toNNReal t := fun r => by
    cases ridgeEntry logX (col r) with
    | none => exact integrable_zero _ _ _
    | some v => exact integrable_gaussianPDFReal v _
  have hsum : Integrable fun t => ridgeSum logX col fun v => gaussianPDFReal v (ridgeCount logX col ^ (-(2 / 5 : ℝ)) * ridgeVar logX col).toNNReal t :=
    integrable_finsetSum _ fun r _ => hterm r
  have hc : ridgeCount logX col ≠ 0 := by
    rw [← ridge_count]
    have : (ridgeData logX col).length ≠ 0 := by omega
    exact_mod_cast this
  refine ⟨fun q hq => ?_, fun t => ?_, hsum.div_const _, ?_⟩
  · obtain ⟨p, -, rfl⟩ := List.mem_map.1 hq
    dsimp only
    rw [hk]
  · rw [← hk]
    exact kdeAt_pos _ hl hv t
  · unfold ridgeDensity
    rw [integral_div, div_eq_one_iff_eq hc]
    unfold ridgeSum
    rw [integral_finsetSum _ fun r _ => hterm r, ridgeCount, ridgeSum]
    refine Finset.sum_congr rfl fun r _ => ?_
    cases ridgeEntry logX (col r) with
    | none => simp
    | some v => exact integral_gaussianPDFReal_eq_one v hne

/-- A column with two different values and a missing one has a curve, and its density has integral one. -/
example : ∃ pts, ridgeCurve false 10 0 (![some 1, none, some 2] : Fin 3 → Option ℝ) = some (some pts) ∧ ∫ t, ridgeDensity false (![some 1, none, some 2] : Fin 3 → Option ℝ) t = 1 := by
  obtain ⟨pts, h⟩ := (C216_curve false 10 0 (![some 1, none, some 2] : Fin 3 → Option ℝ)).1.2
    ⟨1, 2, ⟨0, 1, rfl, by simp⟩, ⟨2, 2, rfl, by simp⟩, by norm_num⟩
  exact ⟨pts, h, (C216_density _ _ _ _ _ h).2.2.2⟩

end Esat
