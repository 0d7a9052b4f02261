import Verif.Model.RobustAlpha
import Verif.Props.Training

/-!
# Property C205: what `robust_alpha` can change
-/

namespace Esat
variable {m n k : ℕ}

theorem robustEntry_pos (r u α : ℝ) (hα : 0 < α) :
    robustEntry r u α = some (if |r / u| > α then |r / (if Real.sqrt (|r / u| / α) * u ≤ 0 then 1 / 10 ^ 12 else Real.sqrt (|r / u| / α) * u)|
      else |r / u|) := by
  unfold robustEntry
  dsimp only
  by_cases h : |r / u| > α
  · rw [if_pos h, if_pos h, if_neg hα.ne', if_neg (not_lt.2 (by positivity))]
  · rw [if_neg h, if_neg h]

theorem robustEntry_zero (r u : ℝ) : robustEntry r u 0 = some 0 := by
  unfold robustEntry
  dsimp only
  by_cases h : |r / u| > 0
  · rw [if_pos h, if_pos rfl]
  · rw [if_neg h]
    exact congrArg some (le_antisymm (not_lt.1 h) (abs_nonneg _))

theorem robustEntry_neg (r u α : ℝ) (hα : α < 0) (hu : 0 < u) : robustEntry r u α = if r = 0 then some 0 else none := by
  unfold robustEntry
  dsimp only
  rw [if_pos (lt_of_lt_of_le hα (abs_nonneg _)), if_neg hα.ne]
  by_cases h : r = 0
  · rw [if_pos h, h, zero_div, abs_zero, zero_div, if_neg (lt_irrefl _), zero_div, abs_zero]
  · rw [if_neg h, if_pos (div_neg_of_pos_of_neg (abs_pos.2 (div_ne_zero h hu.ne')) hα)]

/-- **C205.** For a positive `alpha` no entry is NaN and the loss is the formula of the documentation (C03). -/
theorem C205_value (V U : Mat m n ℝ) (W : Mat m k ℝ) (H : Mat k n ℝ) (α : ℝ) (hα : 0 < α) :
    qrLossNan V U W H α = some (qrLoss V U W H α).1 := by
  unfold qrLossNan
  simp only [robustEntry_pos _ _ α hα]
  rw [if_neg (by simp)]
  rfl

/-- **C205.** For `alpha = 0` the robust loss is 0, whatever the data. -/
theorem C205_zero (V U : Mat m n ℝ) (W : Mat m k ℝ) (H : Mat k n ℝ) : qrLossNan V U W H 0 = some 0 := by
  unfold qrLossNan
  simp only [robustEntry_zero]
  rw [if_neg (by simp)]
  simp

/-- **C205.** For a negative `alpha` it is NaN, unless the factors reproduce the data exactly. -/
theorem C205_negative (V U : Mat m n ℝ) (W : Mat m k ℝ) (H : Mat k n ℝ) (α : ℝ) (hα : α < 0) (hU : ∀ i j, 0 < U i j) :
    (V ≠ W ⬝ H → qrLossNan V U W H α = none) ∧ (V = W ⬝ H → qrLossNan V U W H α = some 0) := by
  have e : ∀ i j, robustEntry (V i j - (W ⬝ H) i j) (U i j) α = if V i j - (W ⬝ H) i j = 0 then some 0 else none := fun i j =>
    robustEntry_neg _ _ α hα (hU i j)
  unfold qrLossNan
  simp only [e]
  constructor
  · intro h
    rw [if_pos]
    by_contra hc
    refine h (funext fun i => funext fun j => ?_)
    by_contra hv
    exact hc ⟨i, j, if_neg (sub_ne_zero.2 hv)⟩
  · rintro rfl
    simp

section loop
variable {σ K : Type*} [Field K] [LinearOrder K]

theorem pyBody_congr (step : Bool → σ → σ) (l l' : σ → Option K × Option K) (cfg : LoopCfg K) (a : Bool) (i : ℕ) (st : PyState σ K)
    (h : ∀ s, (l s).1 = (l' s).1 ∧ (l s).2.isNone = (l' s).2.isNone) : pyBody step l cfg a i st = pyBody step l' cfg a i st := by
  unfold pyBody
  dsimp only
  simp only [(h _).1, (h _).2]

theorem pyIter_congr (step : Bool → σ → σ) (l l' : σ → Option K × Option K) (cfg : LoopCfg K) (a : Bool)
    (h : ∀ s, (l s).1 = (l' s).1 ∧ (l s).2.isNone = (l' s).2.isNone) (f : ℕ) :
    ∀ i st, pyIter step l cfg a f i st = pyIter step l' cfg a f i st := by
  induction f with
  | zero => intro i st; rfl
  | succ f ih =>
    intro i st
    rw [pyIter, pyIter, pyBody_congr step l l' cfg a i st h]
    simp only [ih]

end loop

theorem qrLossNan_isNone (V U : Mat m n ℝ) (W : Mat m k ℝ) (H : Mat k n ℝ) (α : ℝ) (hα : 0 ≤ α) :
    (qrLossNan V U W H α).isNone = false := by
  rcases hα.eq_or_lt with rfl | h
  · rw [C205_zero]; rfl
  · rw [C205_value V U W H α h]; rfl

/-- **C205.** Training in Python is the same for all non-negative values of `robust_alpha`: factors, losses, convergence, number of steps and
exceptions. Only the reported Q(robust) depends on it. -/
theorem C205_same (V U : Mat m n ℝ) (α α' : ℝ) (hα : 0 ≤ α) (hα' : 0 ≤ α') (cfg : LoopCfg ℝ) (W : Mat m k ℝ) (H : Mat k n ℝ) :
    lsTrainPyNan V U α cfg W H = lsTrainPyNan V U α' cfg W H ∧ lsTrainPyNan V U α cfg W H = lsTrainPy V U α' cfg W H := by
  constructor
  · refine pyIter_congr _ _ _ _ _ ?_ _ _ _
    rintro ⟨_ | a, _ | b⟩
    · exact ⟨rfl, rfl⟩
    · exact ⟨rfl, rfl⟩
    · exact ⟨rfl, rfl⟩
    · exact ⟨rfl, (qrLossNan_isNone V U a b α hα).trans (qrLossNan_isNone V U a b α' hα').symm⟩
  · refine pyIter_congr _ _ _ _ _ ?_ _ _ _
    rintro ⟨_ | a, _ | b⟩
    · exact ⟨rfl, rfl⟩
    · exact ⟨rfl, rfl⟩
    · exact ⟨rfl, rfl⟩
    · exact ⟨rfl, qrLossNan_isNone V U a b α hα⟩

/-- **C205. Disagreement** between the two implementations: with a negative `robust_alpha` the Python loop ends after its first iteration, not
converged and with zero steps counted, unless that iteration reproduces the data exactly. The compiled loop does not look at Q(robust)
(`lib.rs:365-396`) and goes on as with any other value. -/
theorem C205_stops (V U : Mat m n ℝ) (α : ℝ) (hα : α < 0) (hU : ∀ i j, 0 < U i j) (cfg : LoopCfg ℝ) (hmax : 0 < cfg.maxIter)
    (W W' : Mat m k ℝ) (H H' : Mat k n ℝ)
    (hstep : lsLoopStep V (weights U) (!cfg.holdH) (some W, some H) = (some W', some H')) (hV : V ≠ W' ⬝ H') :
    lsTrainPyNan V U α cfg W H = .ok (⟨(some W', some H'), cfg.holdH, [some (qLoss V U W' H')], [some (qLoss V U W' H')], false, 0⟩ :
      PyState (Option (Mat m k ℝ) × Option (Mat k n ℝ)) ℝ) := by
  obtain ⟨f, hf⟩ : ∃ f, cfg.maxIter.toNat = f + 1 := ⟨cfg.maxIter.toNat - 1, by omega⟩
  have hd : (decide (0 < cfg.delayH) && decide (cfg.delayH < ((0 : ℕ) : ℤ))) = false := by
    rw [Bool.and_eq_false_iff, decide_eq_false_iff_not, decide_eq_false_iff_not]
    omega
  unfold lsTrainPyNan pyLoop
  rw [hf, pyIter]
  unfold pyBody
  dsimp only
  rw [hd]
  simp only [Bool.false_eq_true, if_false, Bool.not_true, hstep, lsQPyNan, (C205_negative V U W' H' α hα hU).1 hV, Option.isNone_none, Bool.or_true,
    if_true, List.nil_append]

/-- The data of `C157_documented_differs`: one step with fixed profiles leads to the loading 4.2 and to profiles that do not reproduce the data, so
every run with a negative `robust_alpha` ends there. -/
example (N : ℤ) (hN : 0 < N) : ∃ r, lsTrainPyNan (m := 1) (n := 2) (k := 1) ![![20, 2]] ![![1, 1]] (-4)
    { maxIter := N, delta := 1, convergeN := 10, holdH := true, delayH := -1 } ![![1]] ![![4, 2]] = .ok r ∧ r.losses.length = 1 ∧
      r.converged = false := by
  have hs : lsUpdate (m := 1) (n := 2) (k := 1) ![![20, 2]] (weights ![![1, 1]]) true ![![1]] ![![4, 2]] = some (![![4.2]], ![![(4 : ℝ), 2]]) :=
    C157_documented_differs.2
  refine ⟨_, C205_stops _ _ _ (by norm_num) ?_ _ hN _ ![![4.2]] _ ![![4, 2]] ?_ ?_, rfl, rfl⟩
  · intro i j; fin_cases i; fin_cases j <;> simp
  · simp only [lsUpdate, if_true, Option.bind_eq_bind, Option.bind_some] at hs
    cases hW : lsStepW (K := ℝ) (m := 1) (n := 2) (k := 1) ![![20, 2]] (weights ![![1, 1]]) ![![1]] ![![4, 2]] with
    | none => rw [hW] at hs; simp at hs
    | some W' =>
      rw [hW] at hs
      simp only [Option.bind_some, Option.pure_def, Option.some.injEq, Prod.mk.injEq] at hs
      simp [lsLoopStep, hW, hs.1]
  · intro h
    have := congrFun (congrFun h 0) 1
    norm_num [mmul] at this

end Esat
