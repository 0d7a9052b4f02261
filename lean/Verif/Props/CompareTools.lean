import Mathlib.Tactic.Linarith
import Mathlib.Tactic.NormNum
import Mathlib.Algebra.BigOperators.Field
import Mathlib.Algebra.Order.BigOperators.Group.Finset
import Mathlib.Algebra.Order.Field.Rat
import Mathlib.Data.Fin.VecNotation
import Mathlib.Logic.Equiv.Fintype
import Verif.Model.CompareTools

/-!
# C149, C150: comparison with PMF5 output
-/

namespace Esat
variable {K : Type*} {k m n : ℕ}

/-- **C149.** A standardised profile row is defined exactly if the row does not add up to zero; then it adds up to one, is
proportional to the row and does not change if the row is scaled; for a non-negative row its entries lie between 0 and 1. -/
theorem C149_standardize [Field K] [LinearOrder K] [IsStrictOrderedRing K] (row : Fin k → K) :
    ((∃ s, cmpStandardize row = some s) ↔ ∑ f, row f ≠ 0) ∧
    ∀ s, cmpStandardize row = some s → ∑ f, s f = 1 ∧ (∀ f g, s f * row g = s g * row f) ∧
      (∀ c : K, c ≠ 0 → cmpStandardize (fun f => c * row f) = some s) ∧
      ((∀ f, 0 ≤ row f) → ∀ f, 0 ≤ s f ∧ s f ≤ 1) := by
  unfold cmpStandardize
  constructor
  · constructor
    · rintro ⟨s, hs⟩ h
      rw [if_pos h] at hs
      cases hs
    · intro h
      exact ⟨_, if_neg h⟩
  · intro s hs
    by_cases h : ∑ f, row f = 0
    · rw [if_pos h] at hs; cases hs
    · rw [if_neg h] at hs
      obtain rfl := Option.some.inj hs
      refine ⟨?_, fun f g => by ring, fun c hc => ?_, fun h0 f => ?_⟩
      · rw [← Finset.sum_div, div_self h]
      · have e : ∑ f, c * row f = c * ∑ f, row f := (Finset.mul_sum _ _ _).symm
        simp only [e]
        rw [if_neg (mul_ne_zero hc h)]
        refine congrArg some (funext fun f => ?_)
        rw [mul_div_mul_left _ _ hc]
      · have hs0 : 0 < ∑ f, row f := lt_of_le_of_ne (Finset.sum_nonneg fun f _ => h0 f) (Ne.symm h)
        exact ⟨div_nonneg (h0 f) hs0.le, (div_le_one hs0).mpr
          (Finset.single_le_sum (f := row) (fun g _ => h0 g) (Finset.mem_univ f))⟩

example : (cmpStandardize ![(1 : ℚ), 3]).map (fun s => (s 0, s 1)) = some (1 / 4, 3 / 4) := by decide +kernel

/-- **C150.** The time series of the single factors add up to the modelled data that `timeseries_plot` and
`feature_histogram` show, in the order of the columns and in the order of any one-to-one mapping of the factors. -/
theorem C150_sum [Field K] (C : Mat m k K) (P : Mat n k K) (mapping : Fin k → Fin k) (h : Function.Injective mapping)
    (i : Fin m) (j : Fin n) : ∑ f, cmpFactorSeries C P (mapping f) i j = cmpMatmul C P i j := by
  have hb : Function.Bijective mapping := Finite.injective_iff_bijective.mp h
  unfold cmpFactorSeries cmpMatmul
  exact hb.sum_comp fun f => C i f * P j f

/-- **C150.** If the mapping is not one-to-one the sum is wrong for suitable data: some factor is counted twice. -/
theorem C150_sum_wrong [Field K] (mapping : Fin k → Fin k) (h : ¬ Function.Injective mapping) :
    ∃ (C : Mat 1 k K) (P : Mat 1 k K), ∑ f, cmpFactorSeries C P (mapping f) 0 0 ≠ cmpMatmul C P 0 0 := by
  have hs : ¬ Function.Surjective mapping := fun hs => h (Finite.injective_iff_surjective.mpr hs)
  unfold Function.Surjective at hs
  push Not at hs
  obtain ⟨b, hb⟩ := hs
  refine ⟨fun _ f => if f = b then 1 else 0, fun _ f => 1, ?_⟩
  simp [cmpFactorSeries, cmpMatmul, hb]

/-- **C150.** Reordering the factor columns of contributions and profiles together does not change the modelled data: no
mapping is needed there. -/
theorem C150_reorder [Field K] (C : Mat m k K) (P : Mat n k K) (σ : Fin k ≃ Fin k) :
    cmpMatmul (fun i f => C i (σ f)) (fun j f => P j (σ f)) = cmpMatmul C P := by
  funext i j
  exact Equiv.sum_comp σ fun f => C i f * P j f

theorem cmpIndex_isSome {α : Type*} (l : List α) (i : ℤ) :
    (∃ x, cmpIndex l i = some x) ↔ -(l.length : ℤ) ≤ i ∧ i < l.length := by
  unfold cmpIndex
  split
  · constructor
    · rintro ⟨x, hx⟩
      have := (List.getElem?_eq_some_iff.mp hx).1
      omega
    · intro h
      exact ⟨_, List.getElem?_eq_getElem (by omega : i.toNat < l.length)⟩
  · split
    · constructor
      · intro _; omega
      · intro h
        exact ⟨_, List.getElem?_eq_getElem (by omega : (i + l.length).toNat < l.length)⟩
    · constructor
      · rintro ⟨x, hx⟩; cases hx
      · intro h; omega

theorem cmpIndex_mod {α : Type*} (l : List α) (i : ℤ) (h : -(l.length : ℤ) ≤ i ∧ i < l.length) :
    cmpIndex l (i % (l.length : ℤ)) = cmpIndex l i := by
  have hpos : (0 : ℤ) < l.length := by omega
  unfold cmpIndex
  by_cases hi : 0 ≤ i
  · rw [Int.emod_eq_of_lt hi h.2]
  · have e : i % (l.length : ℤ) = i + l.length := by
      rw [← Int.add_emod_right, Int.emod_eq_of_lt (by omega) (by omega)]
    rw [e, if_pos (by omega), if_neg hi, if_pos h.1]

/-- **C150.** A known feature is shown as asked; otherwise `plot_factor_contribution` always finds a feature, while the time
series and the histogram raise exactly if the number is outside `-len .. len - 1`; where both work they show the same. -/
theorem C150_feature (features : List String) (hne : features ≠ []) (feature : Option String) (i : ℤ) :
    (∀ f ∈ features, cmpPick features (some f) i = some f ∧ cmpPickWrapped features (some f) i = some f) ∧
    (∃ f ∈ features, cmpPickWrapped features feature i = some f) ∧
    (cmpPick features feature i = none ↔ (∀ f ∈ features, feature ≠ some f) ∧ ¬ (-(features.length : ℤ) ≤ i ∧ i < features.length)) ∧
    (∀ f, cmpPick features feature i = some f → cmpPickWrapped features feature i = some f) := by
  have hpos : 0 < features.length := List.length_pos_iff.mpr hne
  have hmem : ∀ (j : ℤ) f, cmpIndex features j = some f → f ∈ features := by
    intro j f
    unfold cmpIndex
    split
    · exact fun h => List.mem_of_getElem? h
    · split
      · exact fun h => List.mem_of_getElem? h
      · intro h; cases h
  have hw : ∃ f ∈ features, cmpIndex features (i % (features.length : ℤ)) = some f := by
    have h1 := Int.emod_nonneg i (by omega : (features.length : ℤ) ≠ 0)
    have h2 := Int.emod_lt_of_pos i (by omega : (0 : ℤ) < features.length)
    obtain ⟨f, hf⟩ := (cmpIndex_isSome features (i % (features.length : ℤ))).mpr (by omega)
    exact ⟨f, hmem _ _ hf, hf⟩
  have hnone : cmpIndex features i = none ↔ ¬ (-(features.length : ℤ) ≤ i ∧ i < features.length) := by
    rw [← cmpIndex_isSome]
    cases cmpIndex features i <;> simp
  have hsame : ∀ f, cmpIndex features i = some f → cmpIndex features (i % (features.length : ℤ)) = some f := by
    intro f hf
    rw [cmpIndex_mod _ _ ((cmpIndex_isSome _ _).mp ⟨f, hf⟩), hf]
  refine ⟨fun f hf => ⟨by simp [cmpPick, hf], by simp [cmpPickWrapped, hf]⟩, ?_, ?_, ?_⟩
  · cases feature with
    | none => simpa [cmpPickWrapped, hne] using hw
    | some g =>
      by_cases hg : g ∈ features
      · exact ⟨g, hg, by simp [cmpPickWrapped, hg]⟩
      · simpa [cmpPickWrapped, hg, hne] using hw
  · cases feature with
    | none => simpa [cmpPick] using hnone
    | some g =>
      by_cases hg : g ∈ features
      · simp [cmpPick, hg]
      · have : ∀ f ∈ features, some g ≠ some f := fun f hf h => hg (by rw [Option.some.inj h]; exact hf)
        simp only [cmpPick, hg, if_false, hnone]
        exact ⟨fun h => ⟨this, h⟩, fun h => h.2⟩
  · cases feature with
    | none => simpa [cmpPick, cmpPickWrapped, hne] using hsame
    | some g =>
      by_cases hg : g ∈ features
      · simp [cmpPick, cmpPickWrapped, hg]
      · simpa [cmpPick, cmpPickWrapped, hg, hne] using hsame

/-- **C150.** `plot_factors` works exactly for at most six factors with complete mappings: the grid has six rows. -/
theorem C150_plot_factors (factorN lsLen wsLen : ℕ) :
    cmpPlotFactors factorN lsLen wsLen = true ↔ factorN ≤ lsLen ∧ factorN ≤ wsLen ∧ factorN ≤ 6 := by
  unfold cmpPlotFactors
  rw [List.all_eq_true]
  simp only [List.mem_range, Bool.and_eq_true, decide_eq_true_eq]
  constructor
  · intro h
    by_cases h0 : factorN = 0
    · omega
    · have := h (factorN - 1) (by omega)
      omega
  · intro h f hf
    omega

/-- **C150.** The count in the table of residuals, labelled ">|t|", also counts residuals of exactly the threshold: it is
the number of residuals strictly above plus those equal to it. -/
theorem C150_count [Field K] [LinearOrder K] [IsStrictOrderedRing K] (t : K) (r : List K) :
    cmpCount t r = r.countP (fun x => decide (t < |x|)) + r.countP (fun x => decide (|x| = t)) := by
  unfold cmpCount
  rw [← List.countP_eq_length_filter]
  induction r with
  | nil => rfl
  | cons x r ih =>
    simp only [List.countP_cons, ih]
    rcases lt_trichotomy t |x| with h | h | h
    · simp [h, h.le, h.ne']; omega
    · simp [← h]; omega
    · simp [not_le.mpr h, not_lt.mpr h.le, h.ne]

example : cmpCount (3 : ℚ) [3, -4, 1, -3] = 3 := by decide +kernel

end Esat
