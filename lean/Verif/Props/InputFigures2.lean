import Verif.Props.InputFigures
import Mathlib.Tactic.Positivity
import Mathlib.Tactic.NormNum

/-!
# Figures of the input data: heat map, histograms and ridge lines (C215, C216)
-/

namespace Esat

open Finset

/-! ### C215: correlation heat map, colours of the histograms -/

section C215
variable {m n : ℕ}

theorem heatCell_pts (cell : Fin m → Fin n → Option ℝ) (j l : Fin n) :
    heatCell cell j l =
      (let pts := xyPoints (fun i => cell i j) (fun i => cell i l)
       if ptsCov Prod.fst Prod.fst pts * ptsCov Prod.snd Prod.snd pts = 0 then none
       else some (ptsCov Prod.fst Prod.snd pts / Real.sqrt (ptsCov Prod.fst Prod.fst pts * ptsCov Prod.snd Prod.snd pts))) := by
  unfold heatCell
  dsimp only
  have h1 := scov_pts Prod.fst Prod.fst (xyPoints (fun i => cell i j) (fun i => cell i l))
  have h2 := scov_pts Prod.fst Prod.snd (xyPoints (fun i => cell i j) (fun i => cell i l))
  have h3 := scov_pts Prod.snd Prod.snd (xyPoints (fun i => cell i j) (fun i => cell i l))
  rw [h1, h2, h3]

theorem xyPoints_swap (x y : Fin m → Option ℝ) : xyPoints y x = (xyPoints x y).map Prod.swap := by
  unfold xyPoints
  rw [List.map_filterMap]
  apply List.filterMap_congr
  intro i _
  cases x i <;> cases y i <;> rfl

theorem ptsMean_map (f : ℝ × ℝ → ℝ × ℝ) (g : ℝ × ℝ → ℝ) (pts : List (ℝ × ℝ)) :
    ptsMean g (pts.map f) = ptsMean (fun q => g (f q)) pts := by
  unfold ptsMean
  rw [List.map_map, List.length_map]
  rfl

theorem ptsCov_map (f : ℝ × ℝ → ℝ × ℝ) (g h : ℝ × ℝ → ℝ) (pts : List (ℝ × ℝ)) :
    ptsCov g h (pts.map f) = ptsCov (fun q => g (f q)) (fun q => h (f q)) pts := by
  unfold ptsCov
  rw [List.map_map, ptsMean_map, ptsMean_map]
  rfl

theorem ptsCov_comm (g h : ℝ × ℝ → ℝ) (pts : List (ℝ × ℝ)) : ptsCov g h pts = ptsCov h g pts := by
  unfold ptsCov
  congr 1
  exact List.map_congr_left fun q _ => mul_comm _ _

/-- C215: the heat map is symmetric. -/
theorem C215_symmetric (cell : Fin m → Fin n → Option ℝ) (j l : Fin n) : heatCell cell j l = heatCell cell l j := by
  rw [heatCell_pts, heatCell_pts, xyPoints_swap (fun i => cell i j)]
  dsimp only
  rw [ptsCov_map, ptsCov_map, ptsCov_map]
  simp only [Prod.fst_swap, Prod.snd_swap]
  rw [mul_comm, ptsCov_comm Prod.fst Prod.snd]

/-- C215: each entry is NaN or a number between -1 and 1. -/
theorem C215_range (cell : Fin m → Fin n → Option ℝ) (j l : Fin n) (r : ℝ) (h : heatCell cell j l = some r) :
    -1 ≤ r ∧ r ≤ 1 := by
  unfold heatCell at h
  dsimp only at h
  set pts := xyPoints (fun i => cell i j) (fun i => cell i l)
  set x : Fin pts.length → ℝ := fun i => (pts.get i).1
  set y : Fin pts.length → ℝ := fun i => (pts.get i).2
  by_cases h0 : scov x x * scov y y = 0
  · rw [if_pos h0] at h; cases h
  · rw [if_neg h0] at h
    obtain rfl := Option.some.inj h
    have hp : 0 < scov x x * scov y y :=
      lt_of_le_of_ne (mul_nonneg (scov_self_nonneg x) (scov_self_nonneg y)) (Ne.symm h0)
    have h1 : r2 x y = some (scov x y ^ 2 / (scov x x * scov y y)) := by
      unfold r2
      rw [if_neg]
      rintro (h | h)
      · exact h0 (by rw [h, zero_mul])
      · exact h0 (by rw [h, mul_zero])
    have h2 := (r2_bounds x y _ h1).2
    rw [← abs_le, ← sq_le_one_iff_abs_le_one, div_pow, Real.sq_sqrt hp.le]
    exact h2

theorem scov_self_zero_iff {l : ℕ} (x : Fin l → ℝ) : scov x x = 0 ↔ ∀ i i', x i = x i' := by
  constructor
  · intro h
    have key : ∀ i, x i = vmean x := by
      intro i
      have h1 : (x i - vmean x) * (x i - vmean x) ≤ scov x x :=
        single_le_sum (f := fun i => (x i - vmean x) * (x i - vmean x)) (fun i _ => mul_self_nonneg _) (mem_univ i)
      rw [h] at h1
      have := mul_self_eq_zero.1 (le_antisymm h1 (mul_self_nonneg _))
      linarith
    intro i i'
    rw [key i, key i']
  · intro h
    unfold scov
    apply sum_eq_zero
    intro i _
    have hl : (l : ℝ) ≠ 0 := by
      have : 0 < l := lt_of_le_of_lt (Nat.zero_le _) i.2
      positivity
    have : vmean x = x i := by
      unfold vmean
      rw [sum_congr rfl fun i' _ => h i' i, sum_const, card_univ, Fintype.card_fin, nsmul_eq_mul]
      field_simp
    rw [this]
    ring

theorem ptsCov_self_eq_zero (g : ℝ × ℝ → ℝ) (pts : List (ℝ × ℝ)) :
    ptsCov g g pts = 0 ↔ ∀ q ∈ pts, ∀ q' ∈ pts, g q = g q' := by
  rw [← scov_pts, scov_self_zero_iff]
  constructor
  · intro h q hq q' hq'
    obtain ⟨i, rfl⟩ := List.get_of_mem hq
    obtain ⟨i', rfl⟩ := List.get_of_mem hq'
    exact h i i'
  · intro h i i'
    exact h _ (List.get_mem _ _) _ (List.get_mem _ _)

theorem mem_xyPoints {x y : Fin m → Option ℝ} {q : ℝ × ℝ} :
    q ∈ xyPoints x y ↔ ∃ i, x i = some q.1 ∧ y i = some q.2 := by
  unfold xyPoints
  rw [List.mem_filterMap]
  constructor
  · rintro ⟨i, -, h⟩
    obtain ⟨a, ha, h2⟩ := Option.bind_eq_some_iff.1 h
    obtain ⟨b, hb, rfl⟩ := Option.map_eq_some_iff.1 h2
    exact ⟨i, ha, hb⟩
  · rintro ⟨i, h1, h2⟩
    exact ⟨i, List.mem_finRange i, by rw [h1, h2]; rfl⟩

/-- C215: an entry is NaN exactly if one of the two columns is constant on the rows in which both have a value (in particular
if there are fewer than two such rows). -/
theorem C215_nan (cell : Fin m → Fin n → Option ℝ) (j l : Fin n) :
    heatCell cell j l = none ↔
      (∀ i i' a a' b b', cell i j = some a → cell i l = some b → cell i' j = some a' → cell i' l = some b' → a = a') ∨
      (∀ i i' a a' b b', cell i j = some a → cell i l = some b → cell i' j = some a' → cell i' l = some b' → b = b') := by
  rw [heatCell_pts]
  dsimp only
  rw [ite_eq_left_iff]
  simp only [reduceCtorEq, imp_false, not_not, mul_eq_zero, ptsCov_self_eq_zero]
  refine or_congr ?_ ?_
  · constructor
    · intro h i i' a a' b b' h1 h2 h3 h4
      exact h (a, b) (mem_xyPoints.2 ⟨i, h1, h2⟩) (a', b') (mem_xyPoints.2 ⟨i', h3, h4⟩)
    · intro h q hq q' hq'
      obtain ⟨i, h1, h2⟩ := mem_xyPoints.1 hq
      obtain ⟨i', h3, h4⟩ := mem_xyPoints.1 hq'
      exact h i i' _ _ _ _ h1 h2 h3 h4
  · constructor
    · intro h i i' a a' b b' h1 h2 h3 h4
      exact h (a, b) (mem_xyPoints.2 ⟨i, h1, h2⟩) (a', b') (mem_xyPoints.2 ⟨i', h3, h4⟩)
    · intro h q hq q' hq'
      obtain ⟨i, h1, h2⟩ := mem_xyPoints.1 hq
      obtain ⟨i', h3, h4⟩ := mem_xyPoints.1 hq'
      exact h i i' _ _ _ _ h1 h2 h3 h4

/-- C215: an entry of the diagonal is 1, or NaN if the column has no two different values. -/
theorem C215_diagonal (cell : Fin m → Fin n → Option ℝ) (j : Fin n) :
    ((∃ i i' a a', cell i j = some a ∧ cell i' j = some a' ∧ a ≠ a') → heatCell cell j j = some 1) ∧
      ((¬ ∃ i i' a a', cell i j = some a ∧ cell i' j = some a' ∧ a ≠ a') → heatCell cell j j = none) := by
  refine ⟨fun h => ?_, fun h => ?_⟩
  · obtain ⟨i, i', a, a', h1, h2, h3⟩ := h
    have hpts : ∀ q ∈ xyPoints (fun i => cell i j) (fun i => cell i j), q.1 = q.2 := by
      intro q hq
      obtain ⟨t, h4, h5⟩ := mem_xyPoints.1 hq
      exact Option.some.inj (h4.symm.trans h5)
    have hne : ptsCov Prod.fst Prod.fst (xyPoints (fun i => cell i j) (fun i => cell i j)) ≠ 0 := by
      rw [Ne, ptsCov_self_eq_zero]
      intro h6
      exact h3 (h6 (a, a) (mem_xyPoints.2 ⟨i, h1, h1⟩) (a', a') (mem_xyPoints.2 ⟨i', h2, h2⟩))
    rw [heatCell_pts]
    dsimp only
    set pts := xyPoints (fun i => cell i j) (fun i => cell i j)
    have hm : ptsMean Prod.fst pts = ptsMean Prod.snd pts := by
      unfold ptsMean
      rw [List.map_congr_left hpts]
    have e1 : ptsCov Prod.snd Prod.snd pts = ptsCov Prod.fst Prod.fst pts := by
      unfold ptsCov
      rw [hm]
      congr 1
      exact List.map_congr_left fun q hq => by rw [hpts q hq]
    have e2 : ptsCov Prod.fst Prod.snd pts = ptsCov Prod.fst Prod.fst pts := by
      unfold ptsCov
      rw [hm]
      congr 1
      exact List.map_congr_left fun q hq => by rw [hpts q hq]
    have hnn : 0 ≤ ptsCov Prod.fst Prod.fst pts := by
      unfold ptsCov
      apply List.sum_nonneg
      intro t ht
      obtain ⟨q, -, rfl⟩ := List.mem_map.1 ht
      exact mul_self_nonneg _
    rw [e1, e2, if_neg (mul_ne_zero hne hne), Real.sqrt_mul_self hnn, div_self hne]
  · rw [C215_nan]
    left
    intro i i' a a' b b' h1 _ h3 _
    by_contra hne
    exact h ⟨i, i', a, a', h1, h3, hne⟩

theorem ptsMean_affine (g : ℝ × ℝ → ℝ) (a b : ℝ) (pts : List (ℝ × ℝ)) (hp : pts ≠ []) :
    ptsMean (fun q => a * g q + b) pts = a * ptsMean g pts + b := by
  unfold ptsMean
  have hl : (pts.length : ℝ) ≠ 0 := by
    have := List.length_pos_of_ne_nil hp
    positivity
  rw [List.sum_map_add, List.sum_map_mul_left, List.map_const', List.sum_replicate, nsmul_eq_mul]
  field_simp

theorem ptsCov_affine (g h : ℝ × ℝ → ℝ) (a b c d : ℝ) (pts : List (ℝ × ℝ)) :
    ptsCov (fun q => a * g q + b) (fun q => c * h q + d) pts = a * c * ptsCov g h pts := by
  by_cases hp : pts = []
  · subst hp
    simp [ptsCov]
  · unfold ptsCov
    rw [ptsMean_affine g a b pts hp, ptsMean_affine h c d pts hp, ← List.sum_map_mul_left]
    congr 1
    exact List.map_congr_left fun q _ => by ring

/-- C215: the heat map does not depend on the units: multiplying the columns by positive factors and adding constants changes
no entry. -/
theorem C215_units (cell : Fin m → Fin n → Option ℝ) (a b : Fin n → ℝ) (ha : ∀ j, 0 < a j) (j l : Fin n) :
    heatCell (fun i j => (cell i j).map fun v => a j * v + b j) j l = heatCell cell j l := by
  have hp : xyPoints (fun i => (cell i j).map fun v => a j * v + b j) (fun i => (cell i l).map fun v => a l * v + b l) =
      (xyPoints (fun i => cell i j) (fun i => cell i l)).map fun q => (a j * q.1 + b j, a l * q.2 + b l) := by
    unfold xyPoints
    rw [List.map_filterMap]
    apply List.filterMap_congr
    intro i _
    dsimp only
    generalize cell i j = u
    generalize cell i l = v
    cases u <;> cases v <;> rfl
  rw [heatCell_pts, heatCell_pts]
  dsimp only
  rw [hp]
  set pts := xyPoints (fun i => cell i j) (fun i => cell i l)
  rw [ptsCov_map, ptsCov_map, ptsCov_map]
  dsimp only
  rw [ptsCov_affine Prod.fst Prod.fst, ptsCov_affine Prod.fst Prod.snd, ptsCov_affine Prod.snd Prod.snd]
  have hj := ha j
  have hl := ha l
  have e : a j * a j * ptsCov Prod.fst Prod.fst pts * (a l * a l * ptsCov Prod.snd Prod.snd pts) =
      (a j * a l) ^ 2 * (ptsCov Prod.fst Prod.fst pts * ptsCov Prod.snd Prod.snd pts) := by ring
  rw [e]
  have hne : (a j * a l) ^ 2 ≠ 0 := by positivity
  by_cases h0 : ptsCov Prod.fst Prod.fst pts * ptsCov Prod.snd Prod.snd pts = 0
  · rw [if_pos (by rw [h0, mul_zero]), if_pos h0]
  · rw [if_neg (mul_ne_zero hne h0), if_neg h0, Real.sqrt_mul (by positivity), Real.sqrt_sq (by positivity)]
    rw [mul_div_mul_left _ _ (by positivity)]

/-- C215: two histograms have the same colour exactly if their positions differ by a multiple of ten; the first ten features
have different colours. -/
theorem C215_colours (i j : ℕ) :
    (histColour i = histColour j ↔ ∃ t : ℤ, (i : ℤ) - j = 10 * t) ∧
      (i < 10 → j < 10 → histColour i = histColour j → i = j) := by
  unfold histColour
  refine ⟨⟨fun h => ⟨(i : ℤ) / 10 - j / 10, by omega⟩, ?_⟩, by omega⟩
  rintro ⟨t, ht⟩
  omega

/-- Two rows with both values, one of them unlike the other in both columns: correlation 1; the third row lacks a value. -/
example : heatCell (m := 3) (n := 2) ![![some 1, some 2], ![some 3, some 6], ![some 5, none]] 0 0 = some 1 ∧
    (heatCell (m := 3) (n := 2) ![![some 1, some 2], ![some 3, some 6], ![some 5, none]] 0 1).isSome := by
  refine ⟨?_, ?_⟩
  · apply (C215_diagonal _ _).1
    exact ⟨0, 1, 1, 3, rfl, rfl, by norm_num⟩
  · rw [Option.isSome_iff_ne_none, Ne, C215_nan]
    push Not
    exact ⟨⟨0, 1, 1, 3, 2, 6, rfl, rfl, rfl, rfl, by norm_num⟩, ⟨0, 1, 1, 3, 2, 6, rfl, rfl, rfl, rfl, by norm_num⟩⟩

end C215

/-! ### C216: ridge lines -/

section C216
variable {m n : ℕ}

/-- C216: with the default heights the base lines are 1.5 apart for up to nine features, 0.5 for 28 and more, and `14 / n`
in between; without features the call raises. -/
theorem C216_spacing (n : ℕ) :
    ridgeSpacing 800 (1 / 2) (3 / 2) n =
      if n = 0 then none else some (if n ≤ 9 then (3 / 2 : ℝ) else if 28 ≤ n then 1 / 2 else 14 / n) := by
  unfold ridgeSpacing
  by_cases h0 : n = 0
  · simp [h0]
  · rw [if_neg h0, if_neg h0]
    have hn : (0 : ℝ) < n := by exact_mod_cast Nat.pos_of_ne_zero h0
    have e : ((800 : ℝ) - 100) / n / 50 = 14 / n := by field_simp; norm_num
    rw [e]
    by_cases h1 : n ≤ 9
    · rw [if_pos h1]
      have : (n : ℝ) ≤ 9 := by exact_mod_cast h1
      have h2 : (3 / 2 : ℝ) ≤ 14 / n := by rw [le_div_iff₀ hn]; linarith
      rw [min_eq_left (h2.trans (le_max_right _ _))]
    · rw [if_neg h1]
      have h1' : (10 : ℝ) ≤ n := by exact_mod_cast (not_le.1 h1)
      have h3 : (14 / n : ℝ) ≤ 3 / 2 := by rw [div_le_iff₀ hn]; linarith
      rw [min_eq_right (max_le (by norm_num) h3)]
      by_cases h2 : 28 ≤ n
      · rw [if_pos h2, max_eq_left]
        have : (28 : ℝ) ≤ n := by exact_mod_cast h2
        rw [div_le_iff₀ hn]; linarith
      · rw [if_neg h2, max_eq_right]
        have : (n : ℝ) ≤ 28 := by exact_mod_cast (not_le.1 h2).le
        rw [le_div_iff₀ hn]; linarith

/-- The values of a column that take part: all with a value, with the logarithmic axis the logarithms of the positive ones. -/
def RidgeValue (logX : Bool) (col : Fin m → Option ℝ) (v : ℝ) : Prop :=
  ∃ i a, col i = some a ∧ if logX then 0 < a ∧ v = Real.logb 10 a else v = a

theorem mem_ridgeData {logX : Bool} {col : Fin m → Option ℝ} {v : ℝ} : v ∈ ridgeData logX col ↔ RidgeValue logX col v := by
  unfold ridgeData RidgeValue
  cases logX with
  | false =>
    simp only [Bool.false_eq_true, if_false, List.mem_filterMap, List.mem_finRange, true_and]
    constructor
    · rintro ⟨i, h⟩; exact ⟨i, v, h, rfl⟩
    · rintro ⟨i, a, h, rfl⟩; exact ⟨i, h⟩
  | true =>
    simp only [if_true, List.mem_map, List.mem_filter, List.mem_filterMap, List.mem_finRange, true_and, decide_eq_true_eq]
    constructor
    · rintro ⟨a, ⟨⟨i, h⟩, h2⟩, rfl⟩; exact ⟨i, a, h, h2, rfl⟩
    · rintro ⟨i, a, h, h2, rfl⟩; exact ⟨a, ⟨⟨i, h⟩, h2⟩, rfl⟩

theorem scov_list_eq_zero (l : List ℝ) :
    scov (fun i : Fin l.length => l.get i) (fun i => l.get i) = 0 ↔ ∀ a ∈ l, ∀ b ∈ l, a = b := by
  rw [scov_self_zero_iff]
  constructor
  · intro h q hq q' hq'
    obtain ⟨i, rfl⟩ := List.get_of_mem hq
    obtain ⟨i', rfl⟩ := List.get_of_mem hq'
    exact h i i'
  · intro h i i'
    exact h _ (List.get_mem _ _) _ (List.get_mem _ _)

/-- Two rows that take part have different values. -/
def RidgeSpread (logX : Bool) (col : Fin m → Option ℝ) : Prop := ∃ v v', RidgeValue logX col v ∧ RidgeValue logX col v' ∧ v ≠ v'

theorem filterMap_two (col : Fin m → Option ℝ) :
    ((List.finRange m).filterMap col).length < 2 ↔ ∀ i i', (col i).isSome → (col i').isSome → i = i' := by
  have e : ((List.finRange m).filterMap col).length = (univ.filter fun i => (col i).isSome).card := by
    have h1 : ∀ l : List (Fin m), (l.filterMap col).length = (l.filter fun i => (col i).isSome).length := by
      intro l
      induction l with
      | nil => rfl
      | cons a l ih =>
        rw [List.filterMap_cons, List.filter_cons]
        cases col a <;> simp [ih]
    rw [h1, ← List.toFinset_card_of_nodup ((List.nodup_finRange m).filter _)]
    congr 1
    ext i
    simp
  rw [e, Nat.lt_succ_iff, card_le_one]
  simp only [mem_filter, mem_univ, true_and]
  exact ⟨fun h i i' h1 h2 => h i h1 i' h2, fun h i h1 i' h2 => h i i' h1 h2⟩

theorem two_le_of_ne {l : List ℝ} {v v' : ℝ} (h : v ∈ l) (h' : v' ∈ l) (hne : v ≠ v') : 2 ≤ l.length := by
  by_contra hc
  have h1 : l.length = 0 ∨ l.length = 1 := by omega
  rcases h1 with h1 | h1
  · rw [List.length_eq_zero_iff] at h1
    subst h1
    simp at h
  · obtain ⟨a, rfl⟩ := List.length_eq_one_iff.1 h1
    simp only [List.mem_singleton] at h h'
    exact hne (h.trans h'.symm)

/-- The curve in the case of two different values. -/
theorem ridgeCurve_spread (logX : Bool) (nbins : ℕ) (b : ℝ) (col : Fin m → Option ℝ) (h : RidgeSpread logX col) :
    ∃ lo hi, RidgeValue logX col lo ∧ RidgeValue logX col hi ∧ (∀ v, RidgeValue logX col v → lo ≤ v ∧ v ≤ hi) ∧
      2 ≤ (ridgeData logX col).length ∧
      0 < scov (fun i : Fin (ridgeData logX col).length => (ridgeData logX col).get i) (fun i => (ridgeData logX col).get i) ∧
      ridgeCurve logX nbins b col = some (some ((List.range nbins).map fun q =>
        (gridAt lo hi nbins q, kdeAt (fun i => (ridgeData logX col).get i) (gridAt lo hi nbins q) + b))) := by
  obtain ⟨v, v', hv, hv', hne⟩ := h
  rw [← mem_ridgeData] at hv hv'
  have hlen := two_le_of_ne hv hv' hne
  have hs : scov (fun i : Fin (ridgeData logX col).length => (ridgeData logX col).get i) (fun i => (ridgeData logX col).get i) ≠ 0 := by
    rw [Ne, scov_list_eq_zero]
    exact fun h => hne (h v hv v' hv')
  cases hmin : (ridgeData logX col).min? with
  | none =>
    rw [List.min?_eq_none_iff] at hmin
    rw [hmin] at hlen
    simp at hlen
  | some lo =>
    cases hmax : (ridgeData logX col).max? with
    | none =>
      rw [List.max?_eq_none_iff] at hmax
      rw [hmax] at hlen
      simp at hlen
    | some hi =>
      obtain ⟨ha, ha'⟩ := (List.min?_eq_some_iff (xs := ridgeData logX col) (a := lo)).1 hmin
      obtain ⟨hb, hb'⟩ := (List.max?_eq_some_iff (xs := ridgeData logX col) (a := hi)).1 hmax
      refine ⟨lo, hi, mem_ridgeData.1 ha, mem_ridgeData.1 hb, fun v hv => ⟨ha' v (mem_ridgeData.2 hv), hb' v (mem_ridgeData.2 hv)⟩,
        hlen, lt_of_le_of_ne (scov_self_nonneg _) (Ne.symm hs), ?_⟩
      unfold ridgeCurve
      dsimp only
      rw [if_neg (by rintro ⟨-, h⟩; omega)]
      simp only [hmin, hmax]
      rw [if_neg (by rintro (h | h); · omega
                     · exact hs h)]

/-- C216: a feature gets a curve exactly if two of its values that take part differ. Otherwise it is left out if the axis is
linear and at most one row has a value, and in all other cases the call raises. **Disagreement**: with the (default)
logarithmic axis there is no such check, so one feature without two different positive values prevents the whole figure. -/
theorem C216_curve (logX : Bool) (nbins : ℕ) (b : ℝ) (col : Fin m → Option ℝ) :
    ((∃ pts, ridgeCurve logX nbins b col = some (some pts)) ↔ RidgeSpread logX col) ∧
    (ridgeCurve logX nbins b col = some none ↔ logX = false ∧ ∀ i i', (col i).isSome → (col i').isSome → i = i') ∧
    (ridgeCurve logX nbins b col = none ↔
      ¬ RidgeSpread logX col ∧ ¬ (logX = false ∧ ∀ i i', (col i).isSome → (col i').isSome → i = i')) := by
  have hfew : (logX = false ∧ ∀ i i', (col i).isSome → (col i').isSome → i = i') ↔
      logX = false ∧ (ridgeData logX col).length < 2 := by
    constructor
    · rintro ⟨rfl, h⟩
      exact ⟨rfl, (filterMap_two col).2 h⟩
    · rintro ⟨rfl, h⟩
      exact ⟨rfl, (filterMap_two col).1 h⟩
  by_cases hs : RidgeSpread logX col
  · obtain ⟨lo, hi, -, -, -, hl, -, he⟩ := ridgeCurve_spread logX nbins b col hs
    rw [he, hfew]
    refine ⟨⟨fun _ => hs, fun _ => ⟨_, rfl⟩⟩, ⟨fun h => (by cases h), fun h => absurd h.2 (by omega)⟩,
      ⟨fun h => (by cases h), fun h => absurd hs h.1⟩⟩
  · rw [hfew]
    by_cases h2 : logX = false ∧ (ridgeData logX col).length < 2
    · have he : ridgeCurve logX nbins b col = some none := by
        unfold ridgeCurve
        dsimp only
        rw [if_pos h2]
      rw [he]
      exact ⟨⟨fun ⟨p, h⟩ => (by cases h), fun h => absurd h hs⟩, ⟨fun _ => h2, fun _ => rfl⟩,
        ⟨fun h => (by cases h), fun h => absurd h2 h.2⟩⟩
    · have hz : scov (fun i : Fin (ridgeData logX col).length => (ridgeData logX col).get i) (fun i => (ridgeData logX col).get i) = 0 := by
        rw [scov_list_eq_zero]
        intro v hv v' hv'
        by_contra hne
        exact hs ⟨v, v', mem_ridgeData.1 hv, mem_ridgeData.1 hv', hne⟩
      have he : ridgeCurve logX nbins b col = none := by
        unfold ridgeCurve
        dsimp only
        rw [if_neg h2]
        split
        · rw [if_pos (.inr hz)]
        · rfl
      rw [he]
      exact ⟨⟨fun ⟨p, h⟩ => (by cases h), fun h => absurd h hs⟩, ⟨fun h => (by cases h), fun h => absurd h h2⟩,
        ⟨fun _ => ⟨hs, h2⟩, fun _ => rfl⟩⟩

theorem kdeAt_pos {l : ℕ} (x : Fin l → ℝ) (hl : 2 ≤ l) (hx : 0 < scov x x) (t : ℝ) : 0 < kdeAt x t := by
  have hl0 : (0 : ℝ) < l := by
    have : 0 < l := by omega
    exact_mod_cast this
  have hl1 : (0 : ℝ) < l - 1 := by
    have : (2 : ℝ) ≤ l := by exact_mod_cast hl
    linarith
  have hw : 0 < kdeWidth x := by
    unfold kdeWidth
    exact mul_pos (Real.rpow_pos_of_pos hl0 _) (Real.sqrt_pos.2 (div_pos hx hl1))
  unfold kdeAt
  refine div_pos ?_ (mul_pos hl0 (mul_pos (Real.sqrt_pos.2 (by positivity)) hw))
  exact sum_pos (fun i _ => Real.exp_pos _) ⟨⟨0, by omega⟩, mem_univ _⟩

/-- C216: a curve has `nbins` points, lies above its base line everywhere, and runs from the smallest to the largest value
that takes part. -/
theorem C216_points (logX : Bool) (nbins : ℕ) (hn : 2 ≤ nbins) (b : ℝ) (col : Fin m → Option ℝ) (pts : List (ℝ × ℝ))
    (h : ridgeCurve logX nbins b col = some (some pts)) :
    pts.length = nbins ∧ (∀ q ∈ pts, b < q.2) ∧ (pts.map fun q => q.1).Pairwise (· < ·) ∧
    ∃ lo hi, RidgeValue logX col lo ∧ RidgeValue logX col hi ∧ (∀ v, RidgeValue logX col v → lo ≤ v ∧ v ≤ hi) ∧
      pts.head?.map (fun q => q.1) = some lo ∧ pts.getLast?.map (fun q => q.1) = some hi := by
  have hs := (C216_curve logX nbins b col).1.1 ⟨pts, h⟩
  obtain ⟨lo, hi, hlo, hhi, hb, hl, hv, he⟩ := ridgeCurve_spread logX nbins b col hs
  rw [he] at h
  obtain rfl := Option.some.inj (Option.some.inj h)
  obtain ⟨v, v', h1, h2, hne⟩ := hs
  have hlt : lo < hi := by
    rcases lt_or_gt_of_ne hne with h3 | h3
    · exact lt_of_le_of_lt (hb v h1).1 (lt_of_lt_of_le h3 (hb v' h2).2)
    · exact lt_of_le_of_lt (hb v' h2).1 (lt_of_lt_of_le h3 (hb v h1).2)
  have hn1 : (0 : ℝ) < nbins - 1 := by
    have : (2 : ℝ) ≤ nbins := by exact_mod_cast hn
    linarith
  have hstep : 0 < (hi - lo) / (nbins - 1) := div_pos (by linarith) hn1
  refine ⟨by simp, ?_, ?_, lo, hi, hlo, hhi, hb, ?_, ?_⟩
  · intro q hq
    obtain ⟨p, -, rfl⟩ := List.mem_map.1 hq
    have := kdeAt_pos _ hl hv (gridAt lo hi nbins p)
    dsimp only
    linarith
  · rw [List.map_map, List.pairwise_map]
    refine List.pairwise_lt_range.imp ?_
    intro p p' hp
    have hp' : (p : ℝ) < p' := by exact_mod_cast hp
    simp only [Function.comp, gridAt]
    nlinarith
  · obtain ⟨k, rfl⟩ : ∃ k, nbins = k + 1 := ⟨nbins - 1, by omega⟩
    rw [List.range_succ_eq_map]
    simp [gridAt]
  · obtain ⟨k, rfl⟩ : ∃ k, nbins = k + 1 := ⟨nbins - 1, by omega⟩
    rw [List.range_succ]
    rw [List.map_append, List.map_singleton, List.getLast?_append]
    simp only [List.getLast?_singleton, Option.some_or, Option.map_some, gridAt, Option.some.injEq]
    push_cast at hn1 ⊢
    have : ((k : ℝ) + 1 - 1) ≠ 0 := hn1.ne'
    have hk : (k : ℝ) ≠ 0 := by simpa using this
    rw [add_sub_cancel_right]
    field_simp
    ring

/-- C216: the figure exists exactly if there is a feature and none of them raises; it shows the features with a curve in the
order of the columns, and the base line of column `j` is `j` times the spacing, also behind columns left out. -/
theorem C216_figure (cols : Fin n → String) (cell : Fin m → Fin n → Option ℝ) (logX : Bool) (mh mn mx : ℝ) (nbins : ℕ) :
    ((plotRidgeline cols cell logX mh mn mx nbins).isSome ↔ 0 < n ∧ ∀ j, RidgeSpread logX (fun i => cell i j) ∨
      logX = false ∧ ∀ i i', (cell i j).isSome → (cell i' j).isSome → i = i') ∧
    ∀ fig, plotRidgeline cols cell logX mh mn mx nbins = some fig →
      ∃ sp, sp = min mx (max mn ((mh - 100) / n / 50)) ∧ ∃ js : List (Fin n), js.Pairwise (· < ·) ∧
        (∀ j, j ∈ js ↔ RidgeSpread logX fun i => cell i j) ∧
        List.Forall₂ (fun j q => q.1 = cols j ∧ q.2.1 = j.1 * sp ∧
          ridgeCurve logX nbins (j.1 * sp) (fun i => cell i j) = some (some q.2.2)) js fig := by
  unfold plotRidgeline ridgeSpacing
  by_cases h0 : n = 0
  · subst h0
    simp
  · rw [if_neg h0, Option.bind_some]
    set sp := min mx (max mn ((mh - 100) / (n : ℝ) / 50)) with hsp
    constructor
    · rw [Option.isSome_map, mapM_isSome_iff]
      constructor
      · intro h
        refine ⟨Nat.pos_of_ne_zero h0, fun j => ?_⟩
        have h1 := h j (List.mem_finRange j)
        rw [Option.isSome_map, Option.isSome_iff_ne_none, Ne, (C216_curve logX nbins _ _).2.2] at h1
        by_contra hc
        exact h1 ⟨fun h2 => hc (.inl h2), fun h2 => hc (.inr h2)⟩
      · rintro ⟨-, h⟩ j _
        rw [Option.isSome_map, Option.isSome_iff_ne_none, Ne, (C216_curve logX nbins _ _).2.2]
        rintro ⟨h1, h2⟩
        rcases h j with h3 | h3
        · exact h1 h3
        · exact h2 h3
    · intro fig h
      obtain ⟨cs, h1, rfl⟩ := Option.map_eq_some_iff.1 h
      rw [forall₂_of_mapM] at h1
      refine ⟨sp, rfl, ?_⟩
      have gen : ∀ (l : List (Fin n)) (cs : List (Option (String × ℝ × List (ℝ × ℝ)))),
          List.Forall₂ (fun j c => (ridgeCurve logX nbins (j.1 * sp) fun i => cell i j).map
            (fun c => c.map fun pts => (cols j, j.1 * sp, pts)) = some c) l cs →
          ∃ js : List (Fin n), js.Sublist l ∧ (∀ j, j ∈ js ↔ j ∈ l ∧ RidgeSpread logX fun i => cell i j) ∧
            List.Forall₂ (fun (j : Fin n) q => q.1 = cols j ∧ q.2.1 = j.1 * sp ∧
              ridgeCurve logX nbins (j.1 * sp) (fun i => cell i j) = some (some q.2.2)) js (cs.filterMap id) := by
        intro l cs h
        induction h with
        | nil => exact ⟨[], List.Sublist.refl _, by simp, by simp⟩
        | @cons j c l cs hjc _ ih =>
          obtain ⟨js, h2, h3, h4⟩ := ih
          obtain ⟨c', h5, h6⟩ := Option.map_eq_some_iff.1 hjc
          cases c' with
          | none =>
            subst h6
            have hns : ¬ RidgeSpread logX fun i => cell i j := by
              intro hs
              obtain ⟨p, hp⟩ := (C216_curve logX nbins (j.1 * sp) _).1.2 hs
              rw [hp] at h5
              cases h5
            refine ⟨js, h2.cons _, ?_, by simpa using h4⟩
            intro j'
            rw [h3, List.mem_cons]
            constructor
            · rintro ⟨h7, h8⟩; exact ⟨.inr h7, h8⟩
            · rintro ⟨rfl | h7, h8⟩
              · exact absurd h8 hns
              · exact ⟨h7, h8⟩
          | some pts =>
            subst h6
            have hs := (C216_curve logX nbins (j.1 * sp) _).1.1 ⟨pts, h5⟩
            refine ⟨j :: js, h2.cons_cons _, ?_, ?_⟩
            · intro j'
              rw [List.mem_cons, List.mem_cons, h3]
              constructor
              · rintro (rfl | ⟨h7, h8⟩)
                · exact ⟨.inl rfl, hs⟩
                · exact ⟨.inr h7, h8⟩
              · rintro ⟨rfl | h7, h8⟩
                · exact .inl rfl
                · exact .inr ⟨h7, h8⟩
            · rw [List.filterMap_cons]
              exact List.Forall₂.cons ⟨rfl, rfl, h5⟩ h4
      obtain ⟨js, h2, h3, h4⟩ := gen _ _ h1
      exact ⟨js, (List.pairwise_lt_finRange n).sublist h2, fun j => by rw [h3]; simp, h4⟩

/-- Two columns, the second one with a single positive value: with the linear axis both columns are shown, with the
logarithmic one the call raises. -/
example : (plotRidgeline (m := 3) (n := 2) ![("Al" : String), "Ba"] ![![some 1, some 0], ![some 3, some 6], ![some 5, none]]
      false 800 (1 / 2) (3 / 2) 500).isSome ∧
    ¬ (plotRidgeline (m := 3) (n := 2) ![("Al" : String), "Ba"] ![![some 1, some 0], ![some 3, some 6], ![some 5, none]]
      true 800 (1 / 2) (3 / 2) 500).isSome := by
  constructor
  · rw [(C216_figure _ _ _ _ _ _ _).1]
    refine ⟨by norm_num, fun j => .inl ?_⟩
    fin_cases j
    · exact ⟨1, 3, ⟨0, 1, rfl, rfl⟩, ⟨1, 3, rfl, rfl⟩, by norm_num⟩
    · exact ⟨0, 6, ⟨0, 0, rfl, rfl⟩, ⟨1, 6, rfl, rfl⟩, by norm_num⟩
  · rw [(C216_figure _ _ _ _ _ _ _).1]
    rintro ⟨-, h⟩
    rcases h 1 with ⟨v, v', ⟨i, a, h1, h2, h3⟩, ⟨i', a', h4, h5, h6⟩, hne⟩ | h
    · have hcase : ∀ (i : Fin 3) (a : ℝ), (![![some 1, some 0], ![some 3, some 6], ![some 5, none]] :
          Fin 3 → Fin 2 → Option ℝ) i 1 = some a → 0 < a → a = 6 := by
        intro i a h hp
        fin_cases i
        · simp at h; linarith
        · simp at h; linarith
        · simp at h
      apply hne
      rw [h3, h6, hcase i a h1 h2, hcase i' a' h4 h5]
    · exact absurd h.1 (by simp)

end C216

end Esat
