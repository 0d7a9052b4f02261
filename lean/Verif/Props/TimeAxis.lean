import Verif.Model.TimeAxis
import Verif.Props.InputFigures
import Verif.Props.Utils
import Mathlib.Data.List.Sort
import Mathlib.Data.List.GetD
import Mathlib.Tactic.FieldSimp

/-!
# The time axis of the figures of a solution (C217)
-/

namespace Esat

open Finset

section C217
variable {m k : ℕ} {K : Type*} [Field K]

/-- The steps `min_timestep` looks at: all but the last one. -/
theorem mem_steps (s : List ℤ) (d : ℤ) :
    d ∈ List.zipWith (fun a b => a - b) (s.drop 1).dropLast s.dropLast.dropLast ↔
      ∃ p, p + 2 < s.length ∧ d = s.getD (p + 1) 0 - s.getD p 0 := by
  constructor
  · intro h
    obtain ⟨p, hp, rfl⟩ := List.getElem_of_mem h
    simp only [List.length_zipWith, List.length_dropLast, List.length_drop] at hp
    refine ⟨p, by omega, ?_⟩
    rw [List.getElem_zipWith, List.getElem_dropLast, List.getElem_drop, List.getElem_dropLast, List.getElem_dropLast]
    rw [List.getD_eq_getElem _ _ (by omega), List.getD_eq_getElem _ _ (by omega)]
    congr 2
    omega
  · rintro ⟨p, hp, rfl⟩
    rw [List.mem_iff_getElem]
    refine ⟨p, by simp; omega, ?_⟩
    rw [List.getElem_zipWith, List.getElem_dropLast, List.getElem_drop, List.getElem_dropLast, List.getElem_dropLast]
    rw [List.getD_eq_getElem _ _ (by omega), List.getD_eq_getElem _ _ (by omega)]
    congr 2
    omega

/-- C217, **Disagreement**: of the figures with a time axis those exist whose smallest step in time, the last step not counted,
is exactly one hour; for all other data sets of at least three rows the call raises. `s` are the time stamps in order. -/
theorem C217_exists (time : Fin m → ℤ) (x : Fin m → Option K) (s : List ℤ) (hs : s.Perm (List.ofFn time))
    (hsort : s.Pairwise (· ≤ ·)) (hm : 3 ≤ m) :
    (resampled time x).isSome ↔
      (∃ p, p + 2 < m ∧ s.getD (p + 1) 0 - s.getD p 0 = 3600) ∧ ∀ p, p + 2 < m → 3600 ≤ s.getD (p + 1) 0 - s.getD p 0 := by
  have hlen : s.length = m := by rw [hs.length_eq, List.length_ofFn]
  have he : ((List.finRange m).map time).mergeSort (fun a b => decide (a ≤ b)) = s := by
    have h1 : (((List.finRange m).map time).mergeSort (fun a b => decide (a ≤ b))).Perm s := by
      refine (List.mergeSort_perm _ _).trans ?_
      rw [← List.ofFn_eq_map]
      exact hs.symm
    exact h1.eq_of_pairwise' (r := (· ≤ ·)) (List.pairwise_mergeSort' (r := (· ≤ ·)) _) hsort
  unfold resampled
  rw [he]
  set st := List.zipWith (fun a b => a - b) (s.drop 1).dropLast s.dropLast.dropLast with hst
  have hne : st ≠ [] := by
    have : s.getD 1 0 - s.getD 0 0 ∈ st := (mem_steps s _).2 ⟨0, by omega, rfl⟩
    exact List.ne_nil_of_mem this
  cases hd : st.min? with
  | none => rw [List.min?_eq_none_iff] at hd; exact absurd hd hne
  | some d =>
    obtain ⟨h1, h2⟩ := (List.min?_eq_some_iff (xs := st) (a := d)).1 hd
    obtain ⟨p, hp, hpd⟩ := (mem_steps s d).1 h1
    have h0 : 0 ≤ d := by
      rw [hpd, List.getD_eq_getElem _ _ (by omega), List.getD_eq_getElem _ _ (by omega)]
      have := List.pairwise_iff_getElem.1 hsort p (p + 1) (by omega) (by omega) (by omega)
      omega
    have key := (C94_iff_partial s).2 d hd h0
    have hiff : d = 3600 ↔ (∃ p, p + 2 < m ∧ s.getD (p + 1) 0 - s.getD p 0 = 3600) ∧
        ∀ p, p + 2 < m → 3600 ≤ s.getD (p + 1) 0 - s.getD p 0 := by
      constructor
      · rintro rfl
        refine ⟨⟨p, by omega, hpd.symm⟩, fun q hq => ?_⟩
        exact h2 _ ((mem_steps s _).2 ⟨q, by omega, rfl⟩)
      · rintro ⟨⟨q, hq, hq2⟩, h3⟩
        have h4 := h2 _ ((mem_steps s _).2 ⟨q, by omega, rfl⟩)
        have h5 := h3 p (by omega)
        omega
    rw [← hiff, ← key]
    rcases C94_partial s with h | h <;> rw [h] <;> simp

/-- C217: the curve, where it exists, has one point for each day from the first to the last, and its value is the mean over the rows
of the day that have a value, NaN if there is none. -/
theorem C217_daily (time : Fin m → ℤ) (x : Fin m → Option K) (c : List (ℤ × Option K)) (h : resampled time x = some c) :
    (c.map fun q => q.1).Pairwise (· < ·) ∧
    (∀ d, d ∈ c.map (fun q => q.1) ↔ (∃ i, time i / 86400 ≤ d) ∧ ∃ i, d ≤ time i / 86400) ∧
    ∀ d v, (d, v) ∈ c → ∀ (R : Finset (Fin m)) (y : Fin m → K), (∀ i, i ∈ R ↔ time i / 86400 = d ∧ (x i).isSome) →
      (∀ i ∈ R, x i = some (y i)) → v = if R = ∅ then none else some ((∑ i ∈ R, y i) / (R.card : K)) := by
  have hc : c = (tsDays ((List.finRange m).map fun i => tsDay (time i))).map fun d => (d, dayMean time x d) := by
    unfold resampled at h
    split at h
    · cases h
    · exact (Option.some.inj h).symm
  have hfst : c.map (fun q => q.1) = tsDays ((List.finRange m).map fun i => tsDay (time i)) := by
    rw [hc, List.map_map]
    exact List.map_id _
  refine ⟨by rw [hfst]; exact tsDays_sorted _, ?_, ?_⟩
  · intro d
    rw [hfst, mem_tsDays]
    simp only [List.mem_map, List.mem_finRange, true_and, exists_exists_eq_and, tsDay]
  · intro d v hdv R y hR hy
    rw [hc] at hdv
    obtain ⟨d', -, he⟩ := List.mem_map.1 hdv
    obtain ⟨rfl, rfl⟩ := Prod.mk.inj he
    unfold dayMean
    dsimp only
    set l := (List.finRange m).filter fun i => decide (tsDay (time i) = d') with hl
    have hnd : (l.filter fun i => (x i).isSome).Nodup := ((List.nodup_finRange m).filter _).filter _
    have hR' : (l.filter fun i => (x i).isSome).toFinset = R := by
      ext i
      rw [List.mem_toFinset, List.mem_filter, hl, List.mem_filter, decide_eq_true_iff, hR]
      exact ⟨fun h => ⟨h.1.2, h.2⟩, fun h => ⟨⟨List.mem_finRange i, h.1⟩, h.2⟩⟩
    have hv : l.filterMap x = (l.filter fun i => (x i).isSome).map y := by
      have hy' : ∀ i ∈ l.filter (fun i => (x i).isSome), x i = some (y i) := by
        intro i hi
        exact hy i (by rw [← hR', List.mem_toFinset]; exact hi)
      clear hR' hnd
      clear_value l
      clear hl
      induction l with
      | nil => rfl
      | cons i l ih =>
        rw [List.filterMap_cons, List.filter_cons]
        cases hx : x i with
        | none =>
          simp only [Option.isSome_none, Bool.false_eq_true, if_false]
          apply ih
          intro i' hi'
          apply hy'
          rw [List.filter_cons, hx]
          simpa using hi'
        | some a =>
          simp only [Option.isSome_some, if_true, List.map_cons]
          have h1 := hy' i (by rw [List.filter_cons, hx]; simp)
          rw [hx] at h1
          rw [Option.some.inj h1]
          congr 1
          apply ih
          intro i' hi'
          apply hy'
          rw [List.filter_cons, hx]
          simp only [Option.isSome_some, if_true]
          exact List.mem_cons_of_mem _ hi'
    rw [hv]
    have hcard : ((l.filter fun i => (x i).isSome).map y).length = R.card := by
      rw [List.length_map, ← hR', List.toFinset_card_of_nodup hnd]
    have hsum : ((l.filter fun i => (x i).isSome).map y).sum = ∑ i ∈ R, y i := by
      rw [← hR', List.sum_toFinset _ hnd]
    by_cases h0 : R = ∅
    · rw [if_pos h0, if_pos]
      rw [List.map_eq_nil_iff, ← List.toFinset_eq_empty_iff, hR', h0]
    · rw [if_neg h0, if_neg, hsum, hcard]
      rw [List.map_eq_nil_iff, ← List.toFinset_eq_empty_iff, hR']
      exact h0

/-- C217: for data without gaps the residual curve is the daily mean of the residuals. (With a missing observation it is not: the
two means run over different rows.) -/
theorem C217_residual [CharZero K] (time : Fin m → ℤ) (obs pred : Fin m → K)
    (c : List (ℤ × Option K × Option K × Option K))
    (h : estimatedCurves time (fun i => some (obs i)) (fun i => some (pred i)) = some c) :
    resampled time (fun i => some (obs i - pred i)) = some (c.map fun q => (q.1, q.2.2.2)) := by
  unfold estimatedCurves at h
  obtain ⟨o, ho, h2⟩ := Option.bind_eq_some_iff.1 h
  obtain ⟨p, hp, rfl⟩ := Option.map_eq_some_iff.1 h2
  unfold resampled at ho hp ⊢
  cases ht : minTimestep (((List.finRange m).map time).mergeSort fun a b => decide (a ≤ b)) with
  | none => simp only [ht, reduceCtorEq] at ho
  | some f =>
    simp only [ht, Option.some.injEq] at ho hp ⊢
    rw [← ho, ← hp]
    rw [List.zip_map', List.map_map, List.map_map]
    apply List.map_congr_left
    intro d _
    simp only [Function.comp, Prod.mk.injEq, true_and]
    unfold dayMean
    dsimp only
    set l := (List.finRange m).filter fun i => decide (tsDay (time i) = d)
    have e (y : Fin m → K) : l.filterMap (fun i => some (y i)) = l.map y := by
      rw [← List.filterMap_eq_map]; rfl
    rw [e, e, e]
    by_cases h0 : l = []
    · simp [h0]
    · rw [if_neg (by simpa using h0), if_neg (by simpa using h0), if_neg (by simpa using h0)]
      simp only [Option.bind_some, Option.map_some, Option.some.injEq, List.length_map]
      rw [← sub_div]
      congr 1
      clear h0
      induction l with
      | nil => simp
      | cons a l ih => simp only [List.map_cons, List.sum_cons, ih]; ring

end C217

section totals
variable {m k : ℕ} {K : Type*} [Field K] [LinearOrder K] [IsStrictOrderedRing K]

/-- Weighted with the number of rows of each day, the daily means add up to the sum of the column. -/
theorem resampled_total (time : Fin m → ℤ) (y : Fin m → K) (c : List (ℤ × Option K))
    (h : resampled time (fun i => some (y i)) = some c) :
    (c.map fun q => ((univ.filter fun i => time i / 86400 = q.1).card : K) * q.2.getD 0).sum = ∑ i, y i := by
  obtain ⟨h1, h2, h3⟩ := C217_daily time _ c h
  have hnd : (c.map fun q => q.1).Nodup := h1.imp (fun h => ne_of_lt h)
  have e : (c.map fun q => ((univ.filter fun i => time i / 86400 = q.1).card : K) * q.2.getD 0) =
      (c.map fun q => q.1).map fun d => ∑ i ∈ univ.filter (fun i => time i / 86400 = d), y i := by
    rw [List.map_map]
    apply List.map_congr_left
    rintro ⟨d, v⟩ hq
    have h4 := h3 d v hq (univ.filter fun i => time i / 86400 = d) y (by simp) (by simp)
    simp only [Function.comp]
    by_cases h5 : (univ.filter fun i => time i / 86400 = d) = ∅
    · rw [h5]; simp
    · rw [if_neg h5] at h4
      rw [h4, Option.getD_some]
      have : ((univ.filter fun i => time i / 86400 = d).card : K) ≠ 0 := by
        have := card_pos.2 (nonempty_iff_ne_empty.2 h5)
        exact_mod_cast this.ne'
      field_simp
  rw [e, ← List.sum_toFinset _ hnd]
  rw [sum_fiberwise_of_maps_to (g := fun i => time i / 86400)]
  intro i _
  rw [List.mem_toFinset, h2]
  exact ⟨⟨i, le_rfl⟩, ⟨i, le_rfl⟩⟩

/-- C217: in the contribution curve of a factor profile the days, weighted with their numbers of rows, average to one; in the
curves of `plot_factor_contributions` they add up to 100, so they average to `100 / m`. **Disagreement**: the title of the
latter says "(avg=1)". -/
theorem C217_average (time : Fin m → ℤ) (W : Mat m k K) (f : Fin k) (hW : ∑ i, W i f ≠ 0) (c d : List (ℤ × Option K))
    (hc : contributionCurve time W f = some c) (hd : percentCurve time W f = some d) :
    (c.map fun q => ((univ.filter fun i => time i / 86400 = q.1).card : K) * q.2.getD 0).sum / m = 1 ∧
    (d.map fun q => ((univ.filter fun i => time i / 86400 = q.1).card : K) * q.2.getD 0).sum / m = 100 / m := by
  have hm : (m : K) ≠ 0 := by
    intro h
    have : m = 0 := by exact_mod_cast h
    subst this
    simp at hW
  have hv : vmean (fun i => W i f) ≠ 0 := by
    unfold vmean
    exact div_ne_zero hW hm
  constructor
  · have e : (profileContr fun i => W i f) = fun i => some (W i f / vmean fun i => W i f) := by
      funext i
      unfold profileContr
      rw [if_neg hv]
    unfold contributionCurve at hc
    rw [e] at hc
    rw [resampled_total time _ c hc, ← sum_div]
    unfold vmean
    field_simp
  · have e : (contrPlot fun i => W i f) = fun i => some (100 * (W i f / ∑ l, W l f)) := by
      funext i
      unfold contrPlot
      rw [if_neg hW]
    unfold percentCurve at hd
    rw [e] at hd
    rw [resampled_total time _ d hd, ← mul_sum, ← sum_div, div_self hW, mul_one]

end totals

/-- Two-hourly data raise, hourly data give daily means. -/
example : (resampled ![0, 7200, 14400, 21600] (fun i => some ((i.1 : ℚ)))).isSome = false ∧
    (resampled ![0, 3600, 7200, 200000] (fun i => some ((i.1 : ℚ)))).isSome = true := by
  constructor
  · rw [Bool.eq_false_iff, Ne, C217_exists _ _ [0, 7200, 14400, 21600] (by simp [List.ofFn_succ]) (by decide) (by norm_num)]
    rintro ⟨⟨p, hp, h⟩, -⟩
    have : p = 0 ∨ p = 1 := by omega
    rcases this with rfl | rfl <;> simp at h
  · rw [C217_exists _ _ [0, 3600, 7200, 200000] (by simp [List.ofFn_succ]) (by decide) (by norm_num)]
    refine ⟨⟨0, by norm_num, rfl⟩, fun p hp => ?_⟩
    have : p = 0 ∨ p = 1 := by omega
    rcases this with rfl | rfl <;> simp

end Esat
