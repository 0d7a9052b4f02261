import Verif.Model.AnalysisTables
import Verif.Props.Analysis
import Verif.Props.Quantile
import Mathlib.Data.Real.Sqrt
import Mathlib.Tactic.Linarith
import Mathlib.Tactic.FieldSimp
import Mathlib.Tactic.Positivity

/-!
# The tables of a solution, the panels of all factors and the surface (C218–C221)
-/

namespace Esat

open Finset

section C218
variable {m n n' : ℕ}

/-- C218: the table exists exactly if the estimate has a column for each column of the data and there is one name per column. -/
theorem C218_exists (features : List String) (V : Mat m n ℝ) (est : Mat m n' ℝ) :
    (featuresMetrics features V est).isSome ↔ n ≤ n' ∧ features.length = n := by
  unfold featuresMetrics
  by_cases h : n ≤ n'
  · by_cases h2 : features.length = n <;> simp [h, h2]
  · simp [h]

/-- C218: row `j` has the name of feature `j` and, rounded to four decimals, the mean and the population variance of the data and of the estimate;
the last column is `√m / 14` times the root mean square error, rounded. Further columns of the estimate have no influence. -/
theorem C218_rows (features : List String) (V : Mat m n ℝ) (est : Mat m n' ℝ) (hm : 0 < m) (rows : List MetricsRow)
    (h : featuresMetrics features V est = some rows) :
    rows.length = n ∧ ∀ (j : ℕ) (r : MetricsRow), rows[j]? = some r → ∃ (h1 : j < n) (h2 : j < n'), features[j]? = some r.feature ∧
      IsRounded 4 ((∑ i, V i ⟨j, h1⟩) / m) r.mean ∧ IsRounded 4 ((∑ i, est i ⟨j, h2⟩) / m) r.estMean ∧
      IsRounded 4 ((∑ i, (V i ⟨j, h1⟩ - (∑ l, V l ⟨j, h1⟩) / m) ^ 2) / m) r.var ∧
      IsRounded 4 ((∑ i, (est i ⟨j, h2⟩ - (∑ l, est l ⟨j, h2⟩) / m) ^ 2) / m) r.estVar ∧
      IsRounded 4 (Real.sqrt m / 14 * Real.sqrt ((∑ i, (V i ⟨j, h1⟩ - est i ⟨j, h2⟩) ^ 2) / m)) r.rmse := by
  unfold featuresMetrics at h
  split_ifs at h with h0 hf
  obtain rfl := Option.some.inj h
  refine ⟨List.length_ofFn, fun j r hr => ?_⟩
  obtain ⟨hj, hr⟩ := List.getElem?_eq_some_iff.1 hr
  rw [List.length_ofFn] at hj
  rw [List.getElem_ofFn] at hr
  subst hr
  have hv (x : Fin m → ℝ) : npVar x = (∑ i, (x i - (∑ l, x l) / m) ^ 2) / m := by
    unfold npVar scov vmean
    congr 1
    exact sum_congr rfl fun i _ => (sq _).symm
  refine ⟨hj, by omega, ?_, roundTo_isRounded _ _, roundTo_isRounded _ _, ?_, ?_, ?_⟩
  · rw [List.getD_eq_getElem _ _ (by omega), List.getElem?_eq_getElem (by omega)]
  · rw [← hv]; exact roundTo_isRounded _ _
  · rw [← hv fun i => est i ⟨j, _⟩]; exact roundTo_isRounded _ _
  · have := C73_reported_value (fun i => V i ⟨j, hj⟩) (fun i => est i ⟨j, by omega⟩) hm
    unfold rmse at this
    rw [← this]
    exact roundTo_isRounded _ _

/-- The hypotheses hold for two rows, one feature and an estimate with one column more. -/
example : ∃ rows, featuresMetrics ["Al"] (fun i _ => (i.1 : ℝ) : Mat 2 1 ℝ) (fun _ _ => 1 : Mat 2 2 ℝ) = some rows :=
  Option.isSome_iff_exists.1 ((C218_exists _ _ _).2 ⟨by norm_num, rfl⟩)

end C218

section C219
variable {m : ℕ} {K : Type*} [LinearOrder K]

/-- C219: with increasing critical values and decreasing significance levels, the label is the largest level at which the Anderson test does not
reject; `No` means that it rejects at every level. -/
theorem C219_anderson (crit : List (K × K)) (hc : crit.Pairwise fun a b => a.1 < b.1 ∧ b.2 < a.2) (stat : K) :
    (andersonLabel crit stat = none ↔ ∀ c ∈ crit, c.1 ≤ stat) ∧
    ∀ s, andersonLabel crit stat = some s ↔ (∃ c ∈ crit, c.2 = s ∧ stat < c.1) ∧ ∀ c ∈ crit, stat < c.1 → c.2 ≤ s := by
  unfold andersonLabel
  induction crit with
  | nil => simp
  | cons a l ih =>
    obtain ⟨h1, h2⟩ := List.pairwise_cons.1 hc
    obtain ⟨i1, i2⟩ := ih h2
    by_cases ha : stat < a.1
    · rw [List.find?_cons_of_pos (by simpa using ha)]
      refine ⟨by simp [ha], fun s => ?_⟩
      simp only [Option.map_some, Option.some.injEq]
      constructor
      · rintro rfl
        refine ⟨⟨a, by simp, rfl, ha⟩, fun c hm _ => ?_⟩
        rcases List.mem_cons.1 hm with rfl | hm
        · exact le_rfl
        · exact (h1 c hm).2.le
      · rintro ⟨⟨c, hm, rfl, -⟩, h4⟩
        have h5 := h4 a (by simp) ha
        rcases List.mem_cons.1 hm with rfl | hm
        · rfl
        · exact absurd (h1 c hm).2 (not_lt.2 h5)
    · rw [List.find?_cons_of_neg (by simpa using ha)]
      refine ⟨by rw [i1]; simp [not_lt.1 ha], fun s => ?_⟩
      rw [i2]
      simp [ha]

/-- C219, **Disagreement**: the columns of the other two tests (`analysis.py:181-182`, not modelled) say `No` below the level 0.05; the Anderson column still shows a level, not `No`, for a
statistic that is rejected at the level `s` but not at a later one. -/
theorem C219_rejected (crit : List (K × K)) (hc : crit.Pairwise fun a b => a.1 < b.1 ∧ b.2 < a.2) (stat : K) (a b : K × K)
    (ha : a ∈ crit) (hb : b ∈ crit) (h1 : a.1 ≤ stat) (h2 : stat < b.1) : ∃ s, andersonLabel crit stat = some s ∧ s < a.2 := by
  obtain ⟨hn, hs⟩ := C219_anderson crit hc stat
  cases h : andersonLabel crit stat with
  | none => exact absurd (hn.1 h b hb) (not_le.2 h2)
  | some s =>
    refine ⟨s, rfl, ?_⟩
    obtain ⟨⟨c, hcm, rfl, hlt⟩, -⟩ := (hs s).1 h
    have hac : a.1 < c.1 := lt_of_le_of_lt h1 hlt
    obtain ⟨p, hp, rfl⟩ := List.getElem_of_mem ha
    obtain ⟨q, hq, rfl⟩ := List.getElem_of_mem hcm
    rcases Nat.lt_trichotomy p q with hpq | rfl | hpq
    · exact (List.pairwise_iff_getElem.1 hc p q hp hq hpq).2
    · exact absurd hac (lt_irrefl _)
    · exact absurd (List.pairwise_iff_getElem.1 hc q p hq hp hpq).1 (not_lt.2 hac.le)

/-- The five levels of `stats.anderson` for the normal distribution: a statistic of 0.8 is rejected at 5 % and labelled `2.5`. -/
example : andersonLabel [((576 : ℚ) / 1000, 15), (656 / 1000, 10), (787 / 1000, 5), (918 / 1000, 5 / 2), (1092 / 1000, 1)] (4 / 5) = some (5 / 2) ∧
    andersonLabel [((576 : ℚ) / 1000, 15), (656 / 1000, 10), (787 / 1000, 5), (918 / 1000, 5 / 2), (1092 / 1000, 1)] 2 = none ∧
    ([((576 : ℚ) / 1000, (15 : ℚ)), (656 / 1000, 10), (787 / 1000, 5), (918 / 1000, 5 / 2), (1092 / 1000, 1)].Pairwise
      fun a b => a.1 < b.1 ∧ b.2 < a.2) := by
  decide +kernel

/-- C219, **Disagreement**: the column `SE` is the standard error of the mean residual times `√((m - 1) / m)`; an offset of all residuals does not change it. -/
theorem C219_se (r : Fin m → ℝ) (hm : 1 < m) (c : ℝ) :
    statSE r = Real.sqrt ((m - 1) / m) * Real.sqrt ((∑ i, (r i - (∑ l, r l) / m) ^ 2) / (m - 1) / m) ∧
    statSE (fun i => r i + c) = statSE r := by
  have hm0 : (0 : ℝ) < m := by exact_mod_cast (by omega : 0 < m)
  have hm1 : (0 : ℝ) < m - 1 := by
    have : (1 : ℝ) < m := by exact_mod_cast hm
    linarith
  constructor
  · unfold statSE npStd scov vmean
    rw [← Real.sqrt_div' _ hm0.le, ← Real.sqrt_mul (by positivity)]
    congr 1
    rw [show (∑ i, (r i - (∑ l, r l) / m) * (r i - (∑ l, r l) / m)) = ∑ i, (r i - (∑ l, r l) / m) ^ 2 from
      sum_congr rfl fun i _ => (sq _).symm]
    generalize ∑ i, (r i - (∑ l, r l) / m) ^ 2 = S
    field_simp
  · unfold statSE npStd
    congr 3
    have hv : vmean (fun i => r i + c) = vmean r + c := by
      unfold vmean
      rw [sum_add_distrib]
      simp only [sum_const, card_univ, Fintype.card_fin, nsmul_eq_mul]
      field_simp
    unfold scov
    rw [hv]
    exact sum_congr rfl fun i _ => by ring

end C219

section C220
variable {m n k : ℕ} {K : Type*} [Field K] [LinearOrder K]

/-- C220: without a selected model the call raises; otherwise there is a title for every factor, and a panel, in the row of its own number, for exactly
the factors of the list, which counts from zero and where other numbers are ignored; without a list for all factors. -/
theorem C220_panels (tiny : K) (selected : Option ℤ) (W : Mat m k K) (H : Mat k n K) (fl : Option (List ℤ)) :
    ((allFactors tiny selected W H fl).isSome ↔ selected.isSome) ∧
    ∀ t ps, allFactors tiny selected W H fl = some (t, ps) →
      (∀ q, q ∈ t ↔ 1 ≤ q ∧ q ≤ k) ∧ (ps.map fun p => p.row).Pairwise (· < ·) ∧
      (∀ q, q ∈ ps.map (fun p => p.row) ↔ 1 ≤ q ∧ q ≤ k ∧ ∀ l, fl = some l → (q : ℤ) - 1 ∈ l) ∧
      ∀ p ∈ ps, ∀ f : Fin k, p.row = f.1 + 1 → ∀ j,
        p.conc j = (if (∑ i, W i f * H f j) = 0 then tiny else ∑ i, W i f * H f j) ∧
        p.pct j = (if ∑ g, H g j = 0 then none else some (100 * (H f j / ∑ g, H g j))) := by
  refine ⟨by unfold allFactors; simp, ?_⟩
  intro t ps h
  unfold allFactors at h
  obtain ⟨s, -, h'⟩ := Option.map_eq_some_iff.1 h
  obtain ⟨rfl, rfl⟩ := Prod.mk.inj h'
  refine ⟨?_, ?_, ?_, ?_⟩
  · intro q
    simp only [List.mem_map, List.mem_range]
    exact ⟨by rintro ⟨a, ha, rfl⟩; omega, fun h => ⟨q - 1, by omega, by omega⟩⟩
  · rw [List.map_map, List.pairwise_map]
    refine List.Pairwise.imp ?_ ((List.pairwise_lt_finRange k).filter _)
    intro a b hab
    simpa [Function.comp] using hab
  · intro q
    simp only [List.map_map, List.mem_map, List.mem_filter, List.mem_finRange, true_and, Function.comp]
    constructor
    · rintro ⟨f, hf, rfl⟩
      refine ⟨by omega, by omega, ?_⟩
      rintro l rfl
      simpa using hf
    · rintro ⟨h1, h2, h3⟩
      refine ⟨⟨q - 1, by omega⟩, ?_, by simp; omega⟩
      cases fl with
      | none => rfl
      | some l =>
        have := h3 l rfl
        simp only [decide_eq_true_iff]
        rwa [show ((q - 1 : ℕ) : ℤ) = (q : ℤ) - 1 by omega]
  · intro p hp f hpf j
    obtain ⟨f', -, rfl⟩ := List.mem_map.1 hp
    have : f' = f := Fin.ext (by simpa using hpf)
    subst this
    exact ⟨rfl, rfl⟩

/-- C220, **Disagreement**: the figure has entries in its legend only if the first factor is drawn. -/
theorem C220_legend (tiny : K) (selected : Option ℤ) (W : Mat m k K) (H : Mat k n K) (fl : Option (List ℤ)) (t : List ℕ)
    (ps : List (FactorPanel n K)) (h : allFactors tiny selected W H fl = some (t, ps)) :
    (∃ p ∈ ps, p.legend = true) ↔ 0 < k ∧ ∀ l, fl = some l → (0 : ℤ) ∈ l := by
  unfold allFactors at h
  obtain ⟨s, -, h'⟩ := Option.map_eq_some_iff.1 h
  obtain ⟨rfl, rfl⟩ := Prod.mk.inj h'
  simp only [List.mem_map, List.mem_filter, List.mem_finRange, true_and]
  constructor
  · rintro ⟨p, ⟨f, hf, rfl⟩, hl⟩
    have h0 : f.1 = 0 := by simpa using hl
    refine ⟨by omega, ?_⟩
    rintro l rfl
    simpa [h0] using hf
  · rintro ⟨hk, hl⟩
    refine ⟨_, ⟨⟨0, hk⟩, ?_, rfl⟩, by simp⟩
    cases fl with
    | none => rfl
    | some l => simpa using hl l rfl

/-- Two factors, the list holds the second one and a number that does not exist: one panel, no legend. -/
example : ((allFactors (1 / 10 : ℚ) (some 0) (fun _ _ => 1 : Mat 1 2 ℚ) (fun _ _ => 2 : Mat 2 1 ℚ) (some [1, 7])).map
    fun q => q.2.map fun p => (p.row, p.legend)) = some [(2, false)] := by decide +kernel

end C220

section C221
variable {m n k : ℕ} {K : Type*} [Field K] [LinearOrder K]

theorem surfaceIdx_eq_some (c : ℕ) (i : ℤ) (f : Fin c) : surfaceIdx c i = some f ↔ i = (f.1 : ℤ) + 1 := by
  unfold surfaceIdx
  split_ifs with h
  · rw [Option.some.injEq, Fin.ext_iff]
    simp only
    omega
  · simp only [reduceCtorEq, false_iff]
    have := f.2
    omega

theorem surfaceIdx_isSome (c : ℕ) (i : ℤ) : (surfaceIdx c i).isSome ↔ 1 ≤ i ∧ i ≤ c := by
  unfold surfaceIdx
  split_ifs with h <;> simp [h]

/-- C221: the surface is drawn exactly if a factor or a feature is given and each number given is between one and the number of factors or features. -/
theorem C221_shown (features : Fin n → String) (V : Mat m n K) (W : Mat m k K) (H : Mat k n K) (factor feature : Option ℤ) (pct : Bool) (t : K) :
    (factorSurface features V W H factor feature pct t).isSome ↔
      (factor.isSome ∨ feature.isSome) ∧ (∀ f, factor = some f → 1 ≤ f ∧ f ≤ k) ∧ ∀ j, feature = some j → 1 ≤ j ∧ j ≤ n := by
  unfold factorSurface
  cases factor with
  | none =>
    cases feature with
    | none => simp
    | some j => simp [surfaceIdx_isSome]
  | some f =>
    have h1 := surfaceIdx_isSome k f
    cases hf : surfaceIdx k f with
    | none =>
      rw [hf] at h1
      have h1 : ¬ (1 ≤ f ∧ f ≤ k) := fun h => by simpa using h1.2 h
      simp [hf]
      intro h2 h3
      exact absurd ⟨h2, h3⟩ h1
    | some f' =>
      rw [hf] at h1
      have h1 : 1 ≤ f ∧ f ≤ k := h1.1 rfl
      cases feature with
      | none => simp [h1, hf]
      | some j =>
        have h2 := surfaceIdx_isSome n j
        cases hj : surfaceIdx n j with
        | none =>
          rw [hj] at h2
          have h2 : ¬ (1 ≤ j ∧ j ≤ n) := fun h => by simpa using h2.2 h
          simp [h1, hf, hj]
          intro h3
          by_contra h4
          exact h2 ⟨h3, not_lt.1 h4⟩
        | some j' =>
          rw [hj] at h2
          have h2 : 1 ≤ j ∧ j ≤ n := h2.1 rfl
          simp [h1, h2, hf, hj]

/-- C221: the masses of a factor: one row per sample, one column per feature; a value below the threshold is not drawn, and exactly the features with a
value at or above it are labelled. A feature number given in addition has no influence. -/
theorem C221_mass (features : Fin n → String) (V : Mat m n K) (W : Mat m k K) (H : Mat k n K) (f : Fin k) (feature : Option ℤ) (t : K) (S : SurfaceFig K)
    (h : factorSurface features V W H (some ((f.1 : ℤ) + 1)) feature false t = some S) :
    S.x = List.ofFn features ∧
    (S.z = List.ofFn fun i => List.ofFn fun j => if W i f * H f j < t then Ext.nan else Ext.fin (W i f * H f j)) ∧
    S.ticks.Sublist (List.ofFn features) ∧ ∀ s, s ∈ S.ticks ↔ ∃ j, features j = s ∧ ∃ i, t ≤ W i f * H f j := by
  unfold factorSurface at h
  dsimp only at h
  rw [(surfaceIdx_eq_some k _ f).2 rfl, Option.bind_some] at h
  split_ifs at h
  obtain rfl := Option.some.inj h
  refine ⟨rfl, rfl, ?_, ?_⟩
  · rw [List.ofFn_eq_map]
    exact List.filter_sublist.map _
  · intro s
    simp only [List.mem_map, List.mem_filter, List.mem_finRange, true_and]
    refine exists_congr fun j => ?_
    rw [and_comm]
    refine and_congr_right fun _ => ?_
    rw [Bool.not_eq_true', ← Bool.not_eq_true, List.all_eq_true]
    push Not
    refine exists_congr fun i => ?_
    simp only [List.mem_finRange, true_and, decide_eq_true_eq, surfaceZ, Bool.false_eq_true, if_false, extCut]
    split_ifs with hlt
    · simpa using hlt
    · simpa using not_lt.1 hlt

/-- C221, **Disagreement**: the heights called percentages are fractions of the measured value, and the threshold for masses is applied to them; where
the data are zero, a positive mass is drawn at infinity. -/
theorem C221_percentage (features : Fin n → String) (V : Mat m n K) (W : Mat m k K) (H : Mat k n K) (f : Fin k) (feature : Option ℤ) (t : K) (S : SurfaceFig K)
    (h : factorSurface features V W H (some ((f.1 : ℤ) + 1)) feature true t = some S) (i : Fin m) (j : Fin n) :
    ∃ row v, S.z[i.1]? = some row ∧ row[j.1]? = some v ∧
      (V i j ≠ 0 → ((∃ x, v = Ext.fin x) ↔ t ≤ W i f * H f j / V i j) ∧ ∀ x, v = Ext.fin x → x * V i j = W i f * H f j) ∧
      (V i j = 0 → 0 < W i f * H f j → v = Ext.posInf) ∧ (V i j = 0 → W i f * H f j ≤ 0 → v = Ext.nan) := by
  unfold factorSurface at h
  dsimp only at h
  rw [(surfaceIdx_eq_some k _ f).2 rfl, Option.bind_some] at h
  split_ifs at h
  obtain rfl := Option.some.inj h
  refine ⟨List.ofFn fun j => extCut t (surfaceZ V W H true f i j), extCut t (surfaceZ V W H true f i j), by simp, by simp, ?_, ?_, ?_⟩
  · intro hV
    simp only [surfaceZ, if_true, extDiv, if_neg hV, extCut]
    split_ifs with hlt
    · simpa using hlt
    · refine ⟨by simpa using not_lt.1 hlt, fun x hx => ?_⟩
      injection hx with hx
      rw [← hx, div_mul_cancel₀ _ hV]
  · intro hV hpos
    simp only [surfaceZ, if_true, extDiv, if_pos hV, if_neg hpos.ne', if_pos hpos, extCut]
  · intro hV hle
    simp only [surfaceZ, if_true, extDiv, if_pos hV, if_neg (not_lt.2 hle)]
    split_ifs <;> rfl

/-- C221: with a feature only, one column per factor; the threshold has no effect. -/
theorem C221_feature (features : Fin n → String) (V : Mat m n K) (W : Mat m k K) (H : Mat k n K) (j : Fin n) (pct : Bool) (t : K) (S : SurfaceFig K)
    (h : factorSurface features V W H none (some ((j.1 : ℤ) + 1)) pct t = some S) :
    S.x.length = k ∧ S.ticks = S.x ∧ (∀ f : Fin k, S.x[f.1]? = some s!"Factor {f.1 + 1}") ∧
    ∀ (i : Fin m) (f : Fin k), (S.z[i.1]?.bind fun r => r[f.1]?) =
      some (if pct then extDiv (W i f * H f j) (V i j) else Ext.fin (W i f * H f j)) := by
  unfold factorSurface at h
  dsimp only at h
  rw [(surfaceIdx_eq_some n _ j).2 rfl, Option.map_some] at h
  obtain rfl := Option.some.inj h
  refine ⟨by simp, rfl, fun f => by simp, fun i f => ?_⟩
  simp [surfaceZ]

/-- One sample, two features, one factor, threshold 1: the second feature is not labelled; as fractions both are below the threshold. -/
example : ((factorSurface ![ "Al", "Fe"] (fun _ _ => 4 : Mat 1 2 ℚ) (fun _ _ => 1 : Mat 1 1 ℚ) (fun _ j => if j = 0 then 3 else 1 / 2 : Mat 1 2 ℚ)
      (some 1) none false 1).map fun S => S.ticks) = some ["Al"] ∧
    ((factorSurface ![ "Al", "Fe"] (fun _ _ => 4 : Mat 1 2 ℚ) (fun _ _ => 1 : Mat 1 1 ℚ) (fun _ j => if j = 0 then 3 else 1 / 2 : Mat 1 2 ℚ)
      (some 1) none true 1).map fun S => S.ticks) = some [] := by decide +kernel

end C221

end Esat
