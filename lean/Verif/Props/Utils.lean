import Verif.Model.Utils
import Mathlib.Data.Rat.Defs
import Mathlib.Algebra.Order.Ring.Rat
import Mathlib.Algebra.Field.Rat
import Mathlib.Algebra.Order.Group.Int
import Mathlib.Order.Lattice
import Mathlib.Data.Fin.VecNotation
import Mathlib.Tactic.Linarith
import Mathlib.Tactic.NormNum
import Mathlib.Tactic.Ring

/-!
# C61, C62, C94, C95: utilities
-/

namespace Esat

/-! ## C61 -/

section compare
variable {K : Type*} [Field K] [LinearOrder K]

theorem foldl_flag {α : Type*} (p : α → Bool) (l : List α) (b : Bool) :
    l.foldl (fun s a => if p a then true else s) b = (b || l.any p) := by
  induction l generalizing b with
  | nil => simp
  | cons a l ih =>
    rw [List.foldl_cons, ih, List.any_cons]
    cases p a <;> cases b <;> simp

/-- A swap is reported exactly when the squared correlation of some factor with another factor of the base model is defined,
the one with its own factor is defined, and the former is larger. -/
theorem C61_swap {k n : ℕ} (m1 m2 : Fin k → Fin n → K) :
    compareAll m1 m2 = true ↔ ∃ i j, j ≠ i ∧ ∃ a b, r2 (m1 i) (m2 i) = some a ∧ r2 (m1 i) (m2 j) = some b ∧ a < b := by
  have h : compareAll m1 m2 =
      (List.finRange k).any fun i => (List.finRange k).any fun j => r2Gt (r2 (m1 i) (m2 j)) (r2 (m1 i) (m2 i)) := by
    unfold compareAll
    simp only [foldl_flag]
    have : ∀ (p : Fin k → Bool) (l : List (Fin k)) (b : Bool), l.foldl (fun s i => s || p i) b = (b || l.any p) := by
      intro p l
      induction l with
      | nil => intro b; simp
      | cons a l ih => intro b; rw [List.foldl_cons, ih, List.any_cons, Bool.or_assoc]
    rw [this, Bool.false_or]
  rw [h, List.any_eq_true]
  constructor
  · rintro ⟨i, _, hi⟩
    obtain ⟨j, _, hj⟩ := List.any_eq_true.1 hi
    cases h1 : r2 (m1 i) (m2 i) with
    | none => rw [h1] at hj; cases h2 : r2 (m1 i) (m2 j) <;> rw [h2] at hj <;> simp [r2Gt] at hj
    | some a =>
      cases h2 : r2 (m1 i) (m2 j) with
      | none => rw [h2] at hj; simp [r2Gt] at hj
      | some b =>
        rw [h1, h2] at hj
        have hab : a < b := by simpa [r2Gt] using hj
        refine ⟨i, j, ?_, a, b, h1, h2, hab⟩
        rintro rfl
        rw [h1, Option.some.injEq] at h2
        exact absurd hab (by rw [h2]; exact lt_irrefl _)
  · rintro ⟨i, j, _, a, b, h1, h2, hab⟩
    exact ⟨i, List.mem_finRange i, List.any_eq_true.2 ⟨j, List.mem_finRange j, by rw [h1, h2]; simpa [r2Gt] using hab⟩⟩

/-- A factor without a defined correlation with its own factor (a constant profile) never causes a report. -/
theorem C61_constant {k n : ℕ} (m1 m2 : Fin k → Fin n → K) (hc : ∀ i, r2 (m1 i) (m2 i) = none) : compareAll m1 m2 = false := by
  rw [Bool.eq_false_iff, ne_eq, C61_swap]
  rintro ⟨i, j, _, a, b, h1, _⟩
  rw [hc] at h1
  simp at h1

example : compareAll (K := ℚ) (k := 2) (n := 3) ![![1, 2, 3], ![3, 1, 1]] ![![2, 1, 2], ![1, 2, 3]] = true := by decide +kernel
example : compareAll (K := ℚ) (k := 2) (n := 3) ![![1, 2, 3], ![3, 1, 1]] ![![1, 2, 3], ![2, 1, 1]] = false := by decide +kernel

end compare

/-! ## C62 -/

/-- The recommended number of cores times the memory estimate fits into the available memory, and the recommendation does not
exceed the number of cores. -/
theorem C62_memory (features samples factors available cores : ℕ) :
    let mc := maxCores available (maxBytes features samples factors) cores
    mc * maxBytes features samples factors ≤ available ∧ mc ≤ cores ∧ 0 ≤ mc := by
  intro mc
  refine ⟨?_, min_le_right _ _, le_min (by positivity) (by positivity)⟩
  have h1 : mc ≤ ((available / maxBytes features samples factors : ℕ) : ℤ) := min_le_left _ _
  calc mc * (maxBytes features samples factors : ℤ)
      ≤ ((available / maxBytes features samples factors : ℕ) : ℤ) * (maxBytes features samples factors : ℤ) :=
        mul_le_mul_of_nonneg_right h1 (by positivity)
    _ ≤ available := by exact_mod_cast Nat.div_mul_le_self _ _

/-- It is the largest such number. -/
theorem C62_largest (features samples factors available cores c : ℕ) (hc : c ≤ cores)
    (hm : c * maxBytes features samples factors ≤ available) :
    (c : ℤ) ≤ maxCores available (maxBytes features samples factors) cores := by
  have hpos : 0 < maxBytes features samples factors := by unfold maxBytes; positivity
  refine le_min ?_ (by exact_mod_cast hc)
  exact_mod_cast (Nat.le_div_iff_mul_le hpos).2 hm

/-- The estimate is 150 MiB for the process and four copies of the five arrays of the model with eight bytes for each number: data, uncertainties and weights
(samples × features), profiles (factors × features) and contributions (samples × factors). So more data or factors never allow more processes. -/
theorem C62_estimate (features samples factors : ℕ) :
    maxBytes features samples factors = 157286400 + 4 * (8 * (samples * features) + 8 * (samples * features) + 8 * (samples * features) +
      8 * (factors * features) + 8 * (samples * factors)) ∧
    ∀ features' samples' factors', features ≤ features' → samples ≤ samples' → factors ≤ factors' → ∀ (available : ℕ) (cores : ℤ),
      maxCores available (maxBytes features' samples' factors') cores ≤ maxCores available (maxBytes features samples factors) cores := by
  refine ⟨by unfold maxBytes; ring, ?_⟩
  intro f' s' k' h1 h2 h3 available cores
  unfold maxCores
  refine min_le_min_right _ ?_
  have hpos : 0 < maxBytes features samples factors := by unfold maxBytes; positivity
  have hle : maxBytes features samples factors ≤ maxBytes f' s' k' := by unfold maxBytes; gcongr
  exact_mod_cast Nat.div_le_div_left hle hpos

example : maxCores (2 ^ 30) (maxBytes 40 300 5) 8 = 6 := by decide +kernel

/-! ## C95 -/

/-- Without an explicit number the batch uses at least one process, at most all cores, and as many as fit into the memory
whenever one model fits. An explicit positive number is used as given. -/
theorem C95_default (available bytes cpus : ℕ) (hb : 0 < bytes) (hc : 0 < cpus) :
    1 ≤ batchCores available bytes cpus none ∧ batchCores available bytes cpus none ≤ cpus ∧
    (bytes ≤ available → batchCores available bytes cpus none * bytes ≤ available) ∧
    ∀ c : ℤ, 0 < c → batchCores available bytes cpus (some c) = c := by
  have hb0 : batchCores available bytes cpus none = max (Int.tdiv (3 * maxCores available bytes cpus) 4) 1 := by
    unfold batchCores
    simp
  have h0 : 0 ≤ maxCores available bytes cpus := le_min (by positivity) (by positivity)
  have hle : Int.tdiv (3 * maxCores available bytes cpus) 4 ≤ maxCores available bytes cpus := by
    rw [Int.tdiv_eq_ediv_of_nonneg (by omega)]
    omega
  refine ⟨by rw [hb0]; exact le_max_right _ _, ?_, ?_, ?_⟩
  · rw [hb0]
    have : maxCores available bytes cpus ≤ cpus := min_le_right _ _
    exact max_le (by omega) (by omega)
  · intro hfit
    rw [hb0]
    have h1 : maxCores available bytes cpus ≤ ((available / bytes : ℕ) : ℤ) := min_le_left _ _
    have h2 : ((available / bytes : ℕ) : ℤ) * bytes ≤ available := by exact_mod_cast Nat.div_mul_le_self _ _
    rcases le_total (Int.tdiv (3 * maxCores available bytes cpus) 4) 1 with h | h
    · rw [max_eq_right h, one_mul]
      exact_mod_cast hfit
    · rw [max_eq_left h]
      calc _ ≤ ((available / bytes : ℕ) : ℤ) * (bytes : ℤ) := mul_le_mul_of_nonneg_right (hle.trans h1) (by positivity)
        _ ≤ available := h2
  · intro c hc'
    unfold batchCores
    simp [hc']

/-- **Disagreement.** The documented default is the number of cores minus one; with enough memory and more than eight cores the
batch uses three quarters of the cores, which is less. -/
theorem C95_documented_refuted (available bytes cpus : ℕ) (hb : 0 < bytes) (hm : cpus * bytes ≤ available) (hc : 8 < cpus) :
    batchCores available bytes cpus none < cpus - 1 := by
  have h1 : maxCores available bytes cpus = cpus := by
    unfold maxCores
    rw [min_eq_right]
    exact_mod_cast (Nat.le_div_iff_mul_le hb).2 hm
  unfold batchCores
  simp only [Option.getD_none, h1]
  rw [if_neg (by omega), Int.tdiv_eq_ediv_of_nonneg (by omega)]
  omega

example : batchCores (2 ^ 40) (maxBytes 40 300 5) 16 none = 12 := by decide +kernel

/-- C95, the documented default exactly: it is used on machines with two cores, and on machines with three or four cores if the memory suffices for that many models. Missing: all other machines, where it is not used. -/
theorem C95_iff_partial (available bytes cpus : ℕ) (hb : 0 < bytes) :
    batchCores available bytes cpus none = (cpus : ℤ) - 1 ↔ cpus = 2 ∨ ((cpus = 3 ∨ cpus = 4) ∧ cpus * bytes ≤ available) := by
  rw [← Nat.le_div_iff_mul_le hb]
  unfold batchCores maxCores
  generalize available / bytes = q
  simp only [Option.getD_none]
  rw [if_neg (by omega), Int.tdiv_eq_ediv_of_nonneg (by omega)]
  omega

/-- Case for `C95_iff_partial`: four cores and plenty of memory. -/
example : batchCores (2 ^ 40) (maxBytes 40 300 5) 4 none = 3 := (C95_iff_partial _ _ 4 (by decide)).2 (.inr ⟨.inr rfl, by decide⟩)

/-! ## C94 -/

/-- The pairs of neighbouring timestamps that are looked at. -/
theorem steps_const (s : ℤ) (L : ℕ) (t0 : ℤ) :
    List.zipWith (fun a b => a - b) ((((List.range (L + 3)).map fun i : ℕ => t0 + s * i).drop 1).dropLast)
      ((List.range (L + 3)).map fun i : ℕ => t0 + s * i).dropLast.dropLast = List.replicate (L + 1) s := by
  have hdl : ∀ N : ℕ, (List.range (N + 1)).dropLast = List.range N := by
    intro N
    rw [List.range_succ, List.dropLast_concat]
  have hd1 : ∀ N : ℕ, (List.range (N + 1)).drop 1 = (List.range N).map (· + 1) := by
    intro N
    rw [List.range_succ_eq_map]
    rfl
  rw [← List.map_drop, hd1, ← List.map_dropLast, ← List.map_dropLast, ← List.map_dropLast, ← List.map_dropLast, hdl, hdl, hdl,
    List.map_map, List.zipWith_map, List.zipWith_self]
  rw [List.eq_replicate_iff]
  constructor
  · simp
  · intro b hb
    obtain ⟨i, _, rfl⟩ := List.mem_map.1 hb
    simp only [Function.comp]
    push_cast
    ring

theorem min_replicate (s : ℤ) (L : ℕ) : (List.replicate (L + 1) s).min? = some s := by
  rw [List.min?_eq_some_iff]
  exact ⟨by simp, fun b hb => by rw [(List.mem_replicate.1 hb).2]⟩

/-- **Disagreement.** For equally spaced timestamps the function should return the spacing. It returns nothing (`None`) for
every spacing except one hour, and one day (`"D"`) for hourly data. -/
theorem C94_refuted (t0 s : ℤ) (hs : 0 < s) (L : ℕ) :
    minTimestep ((List.range (L + 3)).map fun i : ℕ => t0 + s * i) = if s = 3600 then some "D" else none := by
  unfold minTimestep
  rw [steps_const, min_replicate]
  simp only
  by_cases h : s = 3600
  · subst h
    norm_num
  · rw [if_neg h]
    by_cases h1 : 1 ≤ s / 86400
    · rw [if_pos h1]
    · rw [if_neg h1]
      by_cases h2 : s % 86400 < 60
      · rw [if_pos h2]
      · rw [if_neg h2]
        by_cases h3 : s % 86400 < 60 * 60
        · rw [if_pos h3]
        · rw [if_neg h3, if_pos]
          omega

/-- **Disagreement.** The last timestamp is not looked at: the result is the same for all values of it. -/
theorem C94_last_step_refuted (l : List ℤ) (c c' : ℤ) : minTimestep (l ++ [c]) = minTimestep (l ++ [c']) := by
  have h : ∀ x : ℤ, ((l ++ [x]).drop 1).dropLast = l.drop 1 := fun x => by
    cases l with
    | nil => rfl
    | cons a l => simp
  unfold minTimestep
  rw [h c, h c', List.dropLast_concat, List.dropLast_concat]

/-- Steps of a day and then of an hour, or of a year. -/
example : minTimestep ([0, 86400] ++ [90000]) = minTimestep ([0, 86400] ++ [86400 * 366]) := C94_last_step_refuted _ _ _

/-- In no case is a string other than `"D"` returned. -/
theorem C94_partial (ts : List ℤ) : minTimestep ts = none ∨ minTimestep ts = some "D" := by
  unfold minTimestep
  split
  · exact .inr rfl
  · split_ifs <;> simp

/-- The exact result for timestamps in order: `"D"` if there are fewer than three of them, or if the smallest step without the last one is one hour; otherwise `None`. -/
theorem C94_iff_partial (ts : List ℤ) :
    (ts.length < 3 → minTimestep ts = some "D") ∧
    ∀ d, (List.zipWith (fun a b => a - b) (ts.drop 1).dropLast ts.dropLast.dropLast).min? = some d → 0 ≤ d → (minTimestep ts = some "D" ↔ d = 3600) := by
  refine ⟨fun h => ?_, fun d hd h0 => ?_⟩
  · match ts, h with
    | [], _ => rfl
    | [_], _ => rfl
    | [_, _], _ => rfl
  · unfold minTimestep
    rw [hd]
    dsimp only
    split_ifs with h1 h2 h3 h4 <;> simp only [reduceCtorEq, false_iff, true_iff] <;> omega

end Esat
