import Verif.Model.Simulator
import Mathlib.Tactic.Linarith
import Mathlib.Tactic.NormNum
import Mathlib.Tactic.FieldSimp
import Mathlib.Tactic.Ring
import Mathlib.Tactic.Positivity
import Mathlib.Tactic.Set
import Mathlib.Algebra.Order.Floor.Semiring
import Mathlib.Algebra.Order.Floor.Ring

/-!
# Properties of the simulator: C63, C64, C65, C97, C98, C99
-/

namespace Esat

section positive
variable {K : Type*} [Field K] [LinearOrder K] [IsStrictOrderedRing K] {f n m : ℕ}

theorem clipPos_pos {eps : K} (he : 0 < eps) (x : K) : 0 < clipPos eps x := by
  unfold clipPos
  split
  · exact he
  · next h => exact not_le.mp h

/-- **C63, profiles**: whatever the draws and the custom profiles, every entry of the generated profiles is positive. -/
theorem C63_profiles_positive (custom : Option (ℕ × ℕ × (ℕ → ℕ → K))) (sel : Fin n → List (Fin f × K)) (H : Mat f n K)
    (h : generateProfiles f n custom sel = some H) : ∀ j i, 0 < H j i := by
  intro j i
  unfold generateProfiles at h
  simp only [Option.map_eq_some_iff] at h
  obtain ⟨H0, -, rfl⟩ := h
  exact clipPos_pos (by positivity) _

/-- **C63, data**: whatever the factors, the draws and the outlier parameters, every finite cell of the synthetic data and of the
synthetic uncertainty is positive. -/
theorem C63_data_positive (cfg : OutlierCfg K) (W : Mat m f K) (H : Mat f n K) (d : DataDraws m n K) (i : Fin m) (j : Fin n)
    (v u : K) (h : generateData cfg W H d i j = some (v, u)) : 0 < v ∧ 0 < u := by
  unfold generateData dataCell at h
  simp only [Option.map_eq_some_iff, Prod.mk.injEq] at h
  obtain ⟨y, -, rfl, rfl⟩ := h
  exact ⟨clipPos_pos (by positivity) _, clipPos_pos (by positivity) _⟩

/-- **C63, data are finite**: unless outliers are switched on with magnitude zero, every cell is a finite number, hence
positive. -/
theorem C63_data_finite (cfg : OutlierCfg K) (hc : cfg.on = true → cfg.mag ≠ 0) (W : Mat m f K) (H : Mat f n K)
    (d : DataDraws m n K) (i : Fin m) (j : Fin n) : ∃ v u, generateData cfg W H d i j = some (v, u) ∧ 0 < v ∧ 0 < u := by
  have hs : (generateData cfg W H d i j).isSome := by
    unfold generateData dataCell outlierCell
    cases hon : cfg.on
    · simp
    · have := hc hon
      simp only [Option.isSome_map, if_true, this, if_false]
      split <;> rfl
  obtain ⟨⟨v, u⟩, h⟩ := Option.isSome_iff_exists.mp hs
  exact ⟨v, u, h, C63_data_positive cfg W H d i j v u h⟩

/-- **C64**: for a rate between zero and one and a non-zero magnitude the outlier step multiplies exactly the cells whose draw is
below half the rate, divides exactly those whose draw is above one minus half the rate, and leaves all others unchanged. (In the
code most cells are multiplied and then divided; in floating point this is the identity only up to rounding unless the magnitude
is a power of two.) -/
theorem C64_outliers (p mag draw x : K) (hp1 : p ≤ 1) (hm : mag ≠ 0) :
    outlierCell p mag draw x =
      some (if draw < p / 2 then x * mag else if 1 - p / 2 < draw then x / mag else x) := by
  have hp : p * (1 / 2) = p / 2 := by ring
  have h1 : p / 2 ≤ 1 - p / 2 := by linarith
  unfold outlierCell
  simp only [hp, hm, if_false]
  by_cases a : draw < p / 2
  · have b : draw ≤ 1 - p / 2 := by linarith
    simp [a, b, not_le.mpr a]
  · have a' : p / 2 ≤ draw := not_lt.mp a
    by_cases b : 1 - p / 2 < draw
    · simp [a, a', b, not_le.mpr b]
    · simp [a, a', b, not_lt.mp b, hm]

/-- A case in which all three kinds of cell occur: rate 1/2, magnitude 2. -/
theorem C64_outliers_case : outlierCell (1 / 2 : ℚ) 2 (1 / 8) 6 = some 12 ∧ outlierCell (1 / 2 : ℚ) 2 (1 / 2) 6 = some 6 ∧
    outlierCell (1 / 2 : ℚ) 2 (7 / 8) 6 = some 3 := by
  refine ⟨?_, ?_, ?_⟩ <;> rw [C64_outliers _ _ _ _ (by norm_num) (by norm_num)] <;> norm_num

/-- **C64, rates above one**: the statement needs the bound on the rate: for rate two nothing is divided or left alone. -/
theorem C64_rate_needed : outlierCell (3 / 2 : ℚ) 2 (1 / 2) 6 ≠
    some (if (1 / 2 : ℚ) < 3 / 2 / 2 ∧ ¬ (1 - 3 / 2 / 2 < (1 / 2 : ℚ)) then 6 * 2 else 6 / 2) := by
  unfold outlierCell
  norm_num

end positive

section shape
variable {K : Type*} [Field K] [LinearOrder K] [IsStrictOrderedRing K] {f n : ℕ}

/-- **C97**: without custom profiles the simulator can be constructed exactly when there are at least two factors (or nothing to
generate). -/
theorem C97_factor_count (sel : Fin n → List (Fin f × K)) :
    (generateProfiles f n none sel).isSome ↔ (n = 0 ∨ 2 ≤ f) := by
  unfold generateProfiles randomProfiles
  simp only [Option.isSome_map]
  split <;> simp <;> omega

/-- **C97 refuted**: a simulator with a single factor cannot be constructed, because `rng.integers(1, 1)` has an empty range. -/
theorem C97_single_factor_refuted (sel : Fin (n + 1) → List (Fin 1 × K)) : generateProfiles 1 (n + 1) none sel = none := by
  unfold generateProfiles randomProfiles
  simp

theorem foldl_sel_notin (j : Fin f) : ∀ (l : List (Fin f × K)) (acc : K), j ∉ l.map Prod.fst →
    l.foldl (fun acc p => if p.1 = j then p.2 else acc) acc = acc := by
  intro l
  induction l with
  | nil => intros; rfl
  | cons a l ih =>
    intro acc h
    simp only [List.map_cons, List.mem_cons, not_or] at h
    rw [List.foldl_cons, if_neg (fun e => h.1 e.symm), ih _ h.2]

theorem foldl_sel_mem (p : Fin f × K) : ∀ (l : List (Fin f × K)) (acc : K), (l.map Prod.fst).Nodup → p ∈ l →
    l.foldl (fun acc q => if q.1 = p.1 then q.2 else acc) acc = p.2 := by
  intro l
  induction l with
  | nil => intro _ _ h; cases h
  | cons a l ih =>
    intro acc hn h
    simp only [List.map_cons, List.nodup_cons] at hn
    rcases List.mem_cons.mp h with rfl | h
    · rw [List.foldl_cons, if_pos rfl, foldl_sel_notin _ _ _ hn.1]
    · rw [List.foldl_cons, ih _ hn.2 h]

/-- **C97, what is generated**: with two or more factors, each feature has at least one factor which carries a drawn value and at
least one factor which carries only the placeholder `1e-12`; drawn values are used as drawn (zero becomes the placeholder), and
all entries are below one. -/
theorem C97_random_profiles (sel : Fin n → List (Fin f × K)) (hsel : SelContract sel) (hf : 2 ≤ f) (i : Fin n) :
    ∃ H, generateProfiles f n none sel = some H ∧
      (∀ p ∈ sel i, H p.1 i = if p.2 ≤ 0 then 1 / 10 ^ 12 else p.2) ∧
      (∀ j, j ∉ (sel i).map Prod.fst → H j i = 1 / 10 ^ 12) ∧
      (∃ j, j ∈ (sel i).map Prod.fst) ∧ (∃ j, j ∉ (sel i).map Prod.fst) ∧ ∀ j, H j i < 1 := by
  obtain ⟨h1, h2, h3, h4⟩ := hsel i
  have he : (1 / 10 ^ 12 : K) < 1 := by
    rw [div_lt_one (by positivity)]; norm_num
  have hsel' : ∀ p ∈ sel i, (sel i).foldl (fun acc q => if q.1 = p.1 then q.2 else acc) 0 = p.2 :=
    fun p hp => foldl_sel_mem p _ _ h3 hp
  refine ⟨_, by unfold generateProfiles randomProfiles; simp only; rw [if_neg (by omega)]; rfl, ?_, ?_, ?_, ?_, ?_⟩
  · intro p hp
    simp only [clipPos, hsel' p hp]
  · intro j hj
    simp only [clipPos, foldl_sel_notin j _ _ hj, le_refl, if_true]
  · obtain ⟨p, hp⟩ := List.exists_mem_of_length_pos (Nat.lt_of_lt_of_le Nat.zero_lt_one h1)
    exact ⟨p.1, List.mem_map_of_mem hp⟩
  · by_contra hc
    push Not at hc
    have : (Finset.univ : Finset (Fin f)) ⊆ ((sel i).map Prod.fst).toFinset := by
      intro j _; exact List.mem_toFinset.mpr (hc j)
    have := Finset.card_le_card this
    rw [List.toFinset_card_of_nodup h3, List.length_map, Finset.card_fin] at this
    omega
  · intro j
    by_cases hj : j ∈ (sel i).map Prod.fst
    · obtain ⟨p, hp, rfl⟩ := List.mem_map.mp hj
      simp only [clipPos, hsel' p hp]
      split
      · exact he
      · exact (h4 p hp).2
    · simp only [clipPos, foldl_sel_notin j _ _ hj, le_refl, if_true]
      exact he

/-- Draws which satisfy the contract: two factors, one feature, the first factor drawn with value 1/2. -/
theorem C97_random_profiles_case : SelContract (f := 2) (n := 1) (fun _ => [((0 : Fin 2), (1 / 2 : ℚ))]) := by
  intro i
  refine ⟨by simp, by simp, by simp, ?_⟩
  intro p hp
  rw [List.mem_singleton] at hp
  subst hp
  norm_num

/-- **C98**: custom profiles of the requested shape are used, with non-positive entries replaced; this also works for a single
factor. -/
theorem C98_custom_exact (P : ℕ → ℕ → K) (sel : Fin n → List (Fin f × K)) :
    generateProfiles f n (some (f, n, P)) sel =
      some fun j i => if P j.1 i.1 ≤ 0 then 1 / 10 ^ 12 else P j.1 i.1 := by
  unfold generateProfiles
  simp only [and_self, if_true, Option.map_some]
  rfl

/-- **C98, fewer rows**: custom profiles with fewer rows than factors fill the first rows, the others are random. -/
theorem C98_custom_fewer_rows (r : ℕ) (hr : r < f) (hf : 2 ≤ f) (P : ℕ → ℕ → K) (sel : Fin n → List (Fin f × K)) :
    ∃ H R, generateProfiles f n (some (r, n, P)) sel = some H ∧ generateProfiles f n none sel = some R ∧
      ∀ j i, H j i = if j.1 < r then (if P j.1 i.1 ≤ 0 then 1 / 10 ^ 12 else P j.1 i.1) else R j i := by
  have hR : randomProfiles f n sel = some (fun j i => (sel i).foldl (fun acc p => if p.1 = j then p.2 else acc) 0) := by
    unfold randomProfiles
    rw [if_neg (by omega)]
  generalize (fun (j : Fin f) (i : Fin n) => (sel i).foldl (fun acc p => if p.1 = j then p.2 else acc) 0) = R at hR
  have hO : overwriteRows R r n P = some (fun j i => if j.1 < r then P j.1 i.1 else R j i) := by
    unfold overwriteRows
    rcases Nat.eq_zero_or_pos r with rfl | h0
    · rw [if_pos rfl]
      simp
    · rw [if_neg (by omega), if_neg (by omega), if_pos rfl]
  have hG : generateProfiles f n (some (r, n, P)) sel =
      some (fun j i => clipPos (1 / 10 ^ 12) (if j.1 < r then P j.1 i.1 else R j i)) := by
    unfold generateProfiles
    simp only
    rw [if_neg (by omega), hR, Option.bind_some, hO]
    rfl
  have hN : generateProfiles f n none sel = some (fun j i => clipPos (1 / 10 ^ 12) (R j i)) := by
    unfold generateProfiles
    simp only
    rw [hR]
    rfl
  refine ⟨_, _, hG, hN, ?_⟩
  intro j i
  simp only [clipPos]
  by_cases hj : j.1 < r <;> simp [hj]

/-- **C98, more rows**: custom profiles with more rows than factors raise, as do those of another width. -/
theorem C98_custom_too_many_rows (r c : ℕ) (hr : f < r) (P : ℕ → ℕ → K) (sel : Fin n → List (Fin f × K)) :
    generateProfiles f n (some (r, c, P)) sel = none := by
  unfold generateProfiles overwriteRows
  simp only [show ¬ (r = f ∧ c = n) by omega, if_false, show r ≠ 0 by omega, hr, if_true]
  cases randomProfiles f n sel <;> rfl

/-- C98, exactly which custom matrices are accepted (at least two factors and one feature): at most as many rows as factors, and, unless it has no rows, as many columns as features or a single column. Missing: the single column, where the
statement is false. -/
theorem C98_accepted_iff_partial (r c : ℕ) (hf : 2 ≤ f) (P : ℕ → ℕ → K) (sel : Fin n → List (Fin f × K)) :
    (generateProfiles f n (some (r, c, P)) sel).isSome ↔ r ≤ f ∧ (r = 0 ∨ c = n ∨ c = 1) := by
  unfold generateProfiles randomProfiles overwriteRows
  simp only [Option.isSome_map, show ¬ (0 < n ∧ f ≤ 1) by omega, if_false, Option.bind_some]
  split_ifs <;> simp <;> omega

/-- C98, the single column: whatever the number of features, every row of a custom column is used for all of them. -/
theorem C98_column_refuted (r : ℕ) (hr : r ≤ f) (hf : 2 ≤ f) (hn : n ≠ 1) (hr0 : r ≠ 0) (P : ℕ → ℕ → K) (sel : Fin n → List (Fin f × K)) :
    ∃ H, generateProfiles f n (some (r, 1, P)) sel = some H ∧ ∀ j i, j.1 < r → H j i = if P j.1 0 ≤ 0 then 1 / 10 ^ 12 else P j.1 0 := by
  unfold generateProfiles randomProfiles overwriteRows
  simp only [show ¬ (0 < n ∧ f ≤ 1) by omega, if_false, Option.bind_some, hr0, show ¬ f < r by omega, show ¬ 1 = n by omega, and_false, if_true, Option.map_some]
  refine ⟨_, rfl, fun j i hj => ?_⟩
  simp only [hj, if_true]
  rfl

/-- Case for `C98_accepted_iff_partial`: of the matrices with two rows for three factors and four features those with one or four columns are accepted, those with two are not. -/
example (P : ℕ → ℕ → ℚ) (sel : Fin 4 → List (Fin 3 × ℚ)) : (generateProfiles 3 4 (some (2, 1, P)) sel).isSome ∧ (generateProfiles 3 4 (some (2, 4, P)) sel).isSome ∧
    ¬ (generateProfiles 3 4 (some (2, 2, P)) sel).isSome := by
  simp only [C98_accepted_iff_partial _ _ (show 2 ≤ 3 by decide)]
  decide

/-- **C98 refuted**: a matrix of the wrong width is not always rejected: a single column is copied to all features. -/
theorem C98_wrong_width_refuted : ∃ (P : ℕ → ℕ → ℚ) (sel : Fin 3 → List (Fin 2 × ℚ)) (H : Mat 2 3 ℚ),
    SelContract sel ∧ generateProfiles 2 3 (some (2, 1, P)) sel = some H ∧ ∀ j i, H j i = P j.1 0 ∧ 0 < P j.1 0 := by
  refine ⟨fun j _ => j + 1, fun _ => [(0, 1 / 2)], fun j _ => (j.1 : ℚ) + 1, ?_, ?_, ?_⟩
  · intro i
    refine ⟨by simp, by simp, by simp, ?_⟩
    intro p hp
    rw [List.mem_singleton] at hp
    subst hp
    norm_num
  · unfold generateProfiles
    simp only
    rw [if_neg (by decide)]
    unfold randomProfiles
    rw [if_neg (by decide), Option.bind_some]
    unfold overwriteRows
    rw [if_neg (by decide), if_neg (by decide), if_neg (by decide), if_pos rfl, Option.map_some, Option.some.injEq]
    funext j i
    have h : ¬ ((j.1 : ℚ) + 1 ≤ 0) := by
      have : (0 : ℚ) ≤ j.1 := Nat.cast_nonneg _
      linarith
    simp only [clipPos, j.2, if_true, h, if_false]
  · intro j i
    exact ⟨rfl, by positivity⟩

end shape

section curves
open Real

theorem linspace_length {a b : ℝ} {num : ℤ} {l : List ℝ} (h : linspace a b num = some l) : (l.length : ℤ) = num := by
  unfold linspace at h
  split at h
  · cases h
  · next hn =>
    cases h
    simp; omega

theorem linspace_nat (a b : ℝ) (N : ℕ) : ∃ l, linspace a b N = some l ∧ l.length = N := by
  unfold linspace
  rw [if_neg (by omega)]
  exact ⟨_, rfl, by simp⟩

theorem nPeriods_pos (freq : ℝ) : 1 ≤ nPeriods freq := by unfold nPeriods; omega

theorem nPeriods_ge_two {freq : ℝ} (h0 : 0 < freq) : 2 ≤ nPeriods freq ↔ freq ≤ 1 := by
  unfold nPeriods
  rw [show 2 ≤ ⌊1 / freq⌋₊ + 1 ↔ 1 ≤ ⌊1 / freq⌋₊ by omega, Nat.one_le_floor_iff, le_div_iff₀ h0, one_mul]

/-- Which results the column assignment accepts. -/
theorem assignCol_isSome {K : Type*} (N : ℕ) (y : List K) : (assignCol N y).isSome ↔ (y.length = N ∨ y.length = 1) := by
  unfold assignCol
  split
  · next h => simp [h]
  · next h =>
    rcases y with _ | ⟨a, _ | ⟨b, y⟩⟩
    · simpa using h
    · simp
    · simpa using h

theorem updateContribution_isSome (c : Curve) (N : ℕ) {scale : ℝ} (hs : 0 ≤ scale) (freq mn mx : ℝ) (draw z : ℕ → ℝ) :
    (updateContribution c N scale freq mn mx draw z).isSome ↔
      ∃ y, curveY c N freq mn mx draw = some y ∧ (y.length = N ∨ y.length = 1) := by
  unfold updateContribution
  cases h : curveY c N freq mn mx draw with
  | none => simp
  | some y => simp [not_lt.mpr hs, assignCol_isSome]

/-- **C65, straight and uniform curves**: these succeed for every sample count and all parameters. -/
theorem C65_simple_curves (c : Curve) (hc : c = .increasing ∨ c = .decreasing ∨ c = .uniform) (N : ℕ) {scale : ℝ}
    (hs : 0 ≤ scale) (freq mn mx : ℝ) (draw z : ℕ → ℝ) : (updateContribution c N scale freq mn mx draw z).isSome := by
  rw [updateContribution_isSome c N hs]
  rcases hc with rfl | rfl | rfl
  · obtain ⟨l, h, hl⟩ := linspace_nat (curveBounds mn mx).1 (curveBounds mn mx).2 N
    exact ⟨l.take N, by simp only [curveY, h, Option.map_some], Or.inl (by simp [hl])⟩
  · obtain ⟨l, h, hl⟩ := linspace_nat (curveBounds mn mx).2 (curveBounds mn mx).1 N
    exact ⟨l.take N, by simp only [curveY, h, Option.map_some], Or.inl (by simp [hl])⟩
  · exact ⟨_, rfl, Or.inl (by simp)⟩

theorem mapM_id_some {α : Type*} : ∀ (l : List (Option α)) (r : List α), l.mapM id = some r ↔ l = r.map some := by
  intro l
  induction l with
  | nil => intro r; cases r <;> simp
  | cons a l ih =>
    intro r
    cases a with
    | none => cases r <;> simp
    | some a =>
      cases hl : l.mapM id with
      | none =>
        have : ∀ r : List α, l ≠ r.map some := fun r h => by rw [← ih] at h; simp [hl] at h
        cases r with
        | nil => simp [List.mapM_cons, hl]
        | cons b r => simp [List.mapM_cons, hl, this]
      | some s =>
        have := (ih s).mp hl
        cases r with
        | nil => simp [List.mapM_cons, hl]
        | cons b r =>
          simp only [List.mapM_cons, hl, id, Option.bind_eq_bind, Option.bind_some, Option.pure_def, Option.some.injEq,
            List.cons.injEq, List.map_cons]
          rw [← ih, hl, Option.some.injEq]

/-- The logistic pieces exist, with a total length of `N + (p - 2) * (N / p)`, if there are two or more periods. -/
theorem logisticPieces_two {N p : ℕ} (hp : 2 ≤ p) :
    ∃ xs, (logisticPieces N p).mapM id = some xs ∧ N ≤ xs.flatten.length := by
  have hq : 2 * (N / p) ≤ N := le_trans (Nat.mul_le_mul_right _ hp) (Nat.mul_div_le N p)
  let st : ℕ → ℕ := fun i => if i = p then N - 2 * (N / p) else N / p
  have hst : ∀ i, (if i = p then (N : ℤ) - 2 * (N / p : ℕ) else (N / p : ℕ)) = (st i : ℤ) := by
    intro i
    simp only [st]
    split
    · rw [Nat.cast_sub hq]; norm_num
    · rfl
  have hpc : ∀ i : ℕ, ∃ l, (let steps : ℤ := if i = p then (N : ℤ) - 2 * (N / p : ℕ) else (N / p : ℕ)
      if i % 2 = 0 then linspace (-100) 100 steps else linspace 100 (-100) steps) = some l ∧ l.length = st i := by
    intro i
    simp only [hst]
    split
    · exact linspace_nat _ _ _
    · exact linspace_nat _ _ _
  choose g hg hgl using hpc
  refine ⟨(List.range (p + 1)).map g, ?_, ?_⟩
  · rw [mapM_id_some, List.map_map]
    exact List.map_congr_left fun i _ => hg i
  · rw [List.length_flatten, List.map_map, show (List.length ∘ g) = st from funext hgl, List.range_succ, List.map_append,
      List.sum_append]
    have h1 : (List.range p).map st = List.replicate p (N / p) := by
      rw [List.eq_replicate_iff]
      refine ⟨by simp, ?_⟩
      intro b hb
      obtain ⟨i, hi, rfl⟩ := List.mem_map.mp hb
      have : i ≠ p := by have := List.mem_range.mp hi; omega
      simp [st, this]
    rw [h1, List.sum_replicate, smul_eq_mul]
    simp only [List.map_cons, List.map_nil, List.sum_cons, List.sum_nil, st, if_true]
    have : 2 * (N / p) ≤ p * (N / p) := Nat.mul_le_mul_right _ hp
    omega

/-- With a single period the second piece has a negative number of points. -/
theorem logisticPieces_one {N : ℕ} : ((logisticPieces N 1).mapM id).isSome ↔ N = 0 := by
  have h : logisticPieces N 1 = [linspace (-100) 100 (N : ℤ), linspace 100 (-100) ((N : ℤ) - 2 * N)] := by
    unfold logisticPieces
    simp [List.range_succ]
  rw [h]
  obtain ⟨l, hl, -⟩ := linspace_nat (-100) 100 N
  rw [hl]
  constructor
  · intro h
    by_contra hN
    have : linspace 100 (-100) ((N : ℤ) - 2 * N) = none := by
      unfold linspace
      rw [if_pos (by omega)]
    rw [this] at h
    simp at h
  · rintro rfl
    have : linspace 100 (-100) (((0 : ℕ) : ℤ) - 2 * (0 : ℕ)) = some [] := by
      unfold linspace
      simp
    rw [this]
    simp

/-- **C65, logistic curves**: for a positive frequency these succeed exactly when the frequency is at most one (or there are no
samples). -/
theorem C65_logistic_iff (N : ℕ) {scale freq : ℝ} (hs : 0 ≤ scale) (hf : 0 < freq) (mn mx : ℝ) (draw z : ℕ → ℝ) :
    (updateContribution .logistic N scale freq mn mx draw z).isSome ↔ (freq ≤ 1 ∨ N = 0) := by
  rw [updateContribution_isSome _ N hs]
  simp only [curveY, not_le.mpr hf, if_false, logisticCurve]
  rcases Nat.lt_or_ge (nPeriods freq) 2 with h1 | h2
  · have hp1 : nPeriods freq = 1 := by have := nPeriods_pos freq; omega
    have hfr : ¬ freq ≤ 1 := by rw [← nPeriods_ge_two hf]; omega
    rw [hp1]
    simp only [hfr, false_or]
    rw [← logisticPieces_one]
    cases h : (logisticPieces N 1).mapM id with
    | none => simp
    | some xs =>
      have hN : N = 0 := logisticPieces_one.mp (by simp [h])
      subst hN
      simp
  · obtain ⟨xs, hx, hl⟩ := logisticPieces_two (N := N) h2
    simp only [hx, Option.map_some, Option.some.injEq, exists_eq_left', List.length_take, List.length_map,
      (nPeriods_ge_two hf).mp h2, true_or, iff_true]
    left
    omega

theorem npMin_isSome (l : List ℝ) : (npMin l).isSome ↔ 0 < l.length := by cases l <;> simp [npMin]

/-- **C65, periodic curves**: for a positive frequency with `p` periods these succeed exactly when
`N ≤ (p + 1) * (N / p - 1)` and there is a sample. -/
theorem C65_periodic_iff (N : ℕ) {scale freq : ℝ} (hs : 0 ≤ scale) (hf : 0 < freq) (mn mx : ℝ) (draw z : ℕ → ℝ) :
    (updateContribution .periodic N scale freq mn mx draw z).isSome ↔
      (0 < N ∧ N ≤ (nPeriods freq + 1) * (N / nPeriods freq - 1)) := by
  rw [updateContribution_isSome _ N hs]
  simp only [curveY, not_le.mpr hf, if_false, periodicCurve]
  have hp := nPeriods_pos freq
  generalize nPeriods freq = p at hp ⊢
  obtain ⟨a, ha, hal⟩ := linspace_nat (-π) π (N / p)
  simp only [ha, Option.bind_some]
  set x := ((List.replicate (p + 1) (a.take (a.length - 1))).flatten).take N with hx
  have hxl : x.length = min N ((p + 1) * (N / p - 1)) := by
    rw [hx, List.length_take, List.length_flatten, List.map_replicate, List.sum_replicate, smul_eq_mul, List.length_take, hal]
    congr 2
    omega
  have hne : (p + 1) * (N / p - 1) ≠ 1 := by
    intro h
    have := Nat.eq_one_of_mul_eq_one_right h
    omega
  constructor
  · rintro ⟨y, hy, hlen⟩
    cases hm : npMin (x.map fun t => sin t * (((curveBounds mn mx).2 - (curveBounds mn mx).1) / 2)) with
    | none => rw [hm] at hy; simp at hy
    | some lo =>
      have h0 : 0 < x.length := by
        have := (npMin_isSome _).mp (by rw [hm]; rfl)
        simpa using this
      rw [hm] at hy
      simp only [Option.map_some, Option.some.injEq] at hy
      rw [← hy] at hlen
      simp only [List.length_take, List.length_map] at hlen
      rw [hxl] at h0 hlen
      omega
  · rintro ⟨h0, hN⟩
    have hxN : x.length = N := by omega
    obtain ⟨lo, hlo⟩ := Option.isSome_iff_exists.mp ((npMin_isSome
      (x.map fun t => sin t * (((curveBounds mn mx).2 - (curveBounds mn mx).1) / 2))).mpr (by simp; omega))
    refine ⟨_, by rw [hlo]; rfl, Or.inl ?_⟩
    simp [hxN]

theorem nPeriods_half : nPeriods (1 / 2) = 3 := by
  unfold nPeriods
  rw [show (1 / (1 / 2) : ℝ) = ((2 : ℕ) : ℝ) by norm_num, Nat.floor_natCast]

/-- **C65 refuted**: with the default frequency 0.5 a periodic curve cannot be created for 17 samples. -/
theorem C65_periodic_refuted (mn mx : ℝ) (draw z : ℕ → ℝ) :
    updateContribution .periodic 17 (1 / 10) (1 / 2) mn mx draw z = none := by
  have h := C65_periodic_iff 17 (scale := 1 / 10) (freq := 1 / 2) (by norm_num) (by norm_num) mn mx draw z
  rw [nPeriods_half] at h
  rw [← Option.not_isSome_iff_eq_none, h]
  decide

/-- **C65 refuted, fine frequencies**: whatever the sample count, some frequency makes the periodic curve fail. -/
theorem C65_periodic_every_count_refuted (N : ℕ) (mn mx : ℝ) (draw z : ℕ → ℝ) :
    ∃ freq : ℝ, 0 < freq ∧ updateContribution .periodic N (1 / 10) freq mn mx draw z = none := by
  refine ⟨1 / (N + 1 : ℕ), by positivity, ?_⟩
  have h := C65_periodic_iff N (scale := 1 / 10) (freq := 1 / (N + 1 : ℕ)) (by norm_num) (by positivity) mn mx draw z
  have hp : nPeriods (1 / (N + 1 : ℕ)) = N + 2 := by
    unfold nPeriods
    rw [one_div_one_div, Nat.floor_natCast]
  rw [hp] at h
  rw [← Option.not_isSome_iff_eq_none, h, Nat.div_eq_of_lt (by omega)]
  omega

/-- **C65 refuted, logistic**: a frequency above one raises for every positive sample count. -/
theorem C65_logistic_refuted (N : ℕ) (mn mx : ℝ) (draw z : ℕ → ℝ) :
    updateContribution .logistic (N + 1) (1 / 10) 2 mn mx draw z = none := by
  have h := C65_logistic_iff (N + 1) (scale := 1 / 10) (freq := 2) (by norm_num) (by norm_num) mn mx draw z
  rw [← Option.not_isSome_iff_eq_none, h]
  norm_num

/-- **C65, enough samples**: with at least `p * (2 * p + 1)` samples, where `p` is the number of periods, the periodic curve
succeeds. -/
theorem C65_periodic_enough_partial (N : ℕ) {scale freq : ℝ} (hs : 0 ≤ scale) (hf : 0 < freq) (mn mx : ℝ) (draw z : ℕ → ℝ)
    (hN : nPeriods freq * (2 * nPeriods freq + 1) ≤ N) :
    (updateContribution .periodic N scale freq mn mx draw z).isSome := by
  rw [C65_periodic_iff N hs hf]
  have hp := nPeriods_pos freq
  generalize nPeriods freq = p at hp hN ⊢
  have h1 : 2 * p + 1 ≤ N / p := by
    rw [Nat.le_div_iff_mul_le (by omega), Nat.mul_comm]
    exact hN
  have h2 := Nat.div_add_mod N p
  have h3 := Nat.mod_lt N (show 0 < p by omega)
  obtain ⟨q, hq⟩ : ∃ q, N / p = q + 1 := ⟨N / p - 1, by omega⟩
  rw [hq] at h1 h2 ⊢
  rw [Nat.add_sub_cancel]
  constructor
  · have : 0 < p * (2 * p + 1) := by positivity
    omega
  · have e1 : p * (q + 1) = p * q + p := by ring
    have e2 : (p + 1) * q = p * q + q := by ring
    omega

/-- The default frequency with fifteen or more samples up to a bound is not enough in general, but from 21 samples on it is. -/
theorem C65_default_frequency (N : ℕ) (hN : 21 ≤ N) (mn mx : ℝ) (draw z : ℕ → ℝ) :
    (updateContribution .periodic N (1 / 10) (1 / 2) mn mx draw z).isSome :=
  C65_periodic_enough_partial N (by norm_num) (by norm_num) mn mx draw z (by rw [nPeriods_half]; omega)

/-- **C63, contributions**: every entry of an updated contribution column is positive. -/
theorem C63_contribution_positive (c : Curve) (N : ℕ) (scale freq mn mx : ℝ) (draw z : ℕ → ℝ) (w : Fin N → ℝ)
    (h : updateContribution c N scale freq mn mx draw z = some w) (i : Fin N) : 0 < w i := by
  unfold updateContribution at h
  rw [Option.bind_eq_some_iff] at h
  obtain ⟨y, -, h⟩ := h
  split at h
  · cases h
  · have hall : ∀ t ∈ y.mapIdx (fun i t => clipPos (1 / 10 ^ 12) (t + scale * z i)), 0 < t := by
      intro t ht
      obtain ⟨k, hk, rfl⟩ := List.mem_mapIdx.mp ht
      exact clipPos_pos (by positivity) _
    unfold assignCol at h
    split at h
    · cases h
      exact hall _ (List.getElem_mem _)
    · split at h
      · next a _ ha _ =>
        cases h
        exact hall a (by rw [ha]; simp)
      · cases h

/-! ### C99: range of the curves -/

theorem curveBounds_le {mn mx : ℝ} (h0 : 0 ≤ mn) (h1 : 0 ≤ mx) :
    0 ≤ (curveBounds mn mx).1 ∧ (curveBounds mn mx).1 ≤ (curveBounds mn mx).2 := by
  unfold curveBounds
  split
  · exact ⟨h1, by simpa using by linarith⟩
  · split
    · exact ⟨h0, by simp only; linarith⟩
    · exact ⟨h0, by simp only; linarith⟩

theorem linspace_mem {a b : ℝ} {N : ℕ} {l : List ℝ} (h : linspace a b N = some l) {t : ℝ} (ht : t ∈ l) :
    min a b ≤ t ∧ t ≤ max a b := by
  unfold linspace at h
  rw [if_neg (by omega)] at h
  cases h
  obtain ⟨i, hi, rfl⟩ := List.mem_map.mp ht
  have hi : i < N := by simpa using hi
  rcases Nat.eq_zero_or_pos i with rfl | hpos
  · simp
  · have hN1 : (0 : ℝ) < ((N : ℤ) : ℝ) - 1 := by
      have : (1 : ℝ) < N := by exact_mod_cast (show 1 < N by omega)
      push_cast; linarith
    have hq : (i : ℝ) / (((N : ℤ) : ℝ) - 1) ≤ 1 := by
      rw [div_le_one hN1]
      have : (i : ℝ) + 1 ≤ N := by exact_mod_cast hi
      push_cast; linarith
    have hq0 : 0 ≤ (i : ℝ) / (((N : ℤ) : ℝ) - 1) := by positivity
    have he : a + (i : ℝ) * ((b - a) / (((N : ℤ) : ℝ) - 1)) = a + ((i : ℝ) / (((N : ℤ) : ℝ) - 1)) * (b - a) := by ring
    rw [he]
    generalize (i : ℝ) / (((N : ℤ) : ℝ) - 1) = s at hq hq0
    rcases le_total a b with hab | hab
    · rw [min_eq_left hab, max_eq_right hab]
      constructor <;> nlinarith
    · rw [min_eq_right hab, max_eq_left hab]
      constructor <;> nlinarith

theorem npMin_spec {l : List ℝ} {lo : ℝ} (h : npMin l = some lo) : lo ∈ l ∧ ∀ t ∈ l, lo ≤ t := by
  cases l with
  | nil => simp [npMin] at h
  | cons a l =>
    simp only [npMin, Option.some.injEq] at h
    subst h
    induction l generalizing a with
    | nil => simp
    | cons b l ih =>
      rw [List.foldl_cons]
      obtain ⟨h1, h2⟩ := ih (min a b)
      constructor
      · rcases List.mem_cons.mp h1 with h | h
        · rw [h]
          rcases le_total a b with hab | hab
          · rw [min_eq_left hab]; simp
          · rw [min_eq_right hab]; simp
        · simp [h]
      · have hm := h2 (min a b) (by simp)
        intro t ht
        rcases List.mem_cons.mp ht with rfl | ht
        · exact le_trans hm (min_le_left _ _)
        · rcases List.mem_cons.mp ht with rfl | ht
          · exact le_trans hm (min_le_right _ _)
          · exact h2 t (by simp [ht])

/-- **C99**: before the noise, increasing, decreasing, logistic and periodic curves lie between the minimum and the maximum. -/
theorem C99_curve_range_partial (c : Curve) (hc : c ≠ .uniform) (N : ℕ) (freq mn mx : ℝ) (h0 : 0 ≤ mn) (h1 : mn < mx)
    (draw : ℕ → ℝ) (y : List ℝ) (h : curveY c N freq mn mx draw = some y) : ∀ t ∈ y, mn ≤ t ∧ t ≤ mx := by
  have hb : curveBounds mn mx = (mn, mx) := by
    unfold curveBounds
    rw [if_neg (by linarith), if_neg (by linarith)]
  intro t ht
  unfold curveY at h
  simp only [hb, Option.map_eq_some_iff] at h
  obtain ⟨y0, h, rfl⟩ := h
  have ht := List.mem_of_mem_take ht
  cases c with
  | uniform => exact absurd rfl hc
  | increasing =>
    have := linspace_mem h ht
    rwa [min_eq_left h1.le, max_eq_right h1.le] at this
  | decreasing =>
    have := linspace_mem h ht
    rwa [min_eq_right h1.le, max_eq_left h1.le] at this
  | logistic =>
    simp only at h
    split at h
    · cases h
    · unfold logisticCurve at h
      rw [Option.map_eq_some_iff] at h
      obtain ⟨xs, -, rfl⟩ := h
      obtain ⟨x, -, rfl⟩ := List.mem_map.mp ht
      have he := exp_pos (-x)
      have hd : 0 < mx - mn := by linarith
      constructor
      · have : 0 < (mx - mn) / (1 + exp (-x)) := by positivity
        linarith
      · have : (mx - mn) / (1 + exp (-x)) ≤ mx - mn := div_le_self hd.le (by linarith)
        linarith
  | periodic =>
    simp only at h
    split at h
    · cases h
    · unfold periodicCurve at h
      rw [Option.bind_eq_some_iff] at h
      obtain ⟨a, -, h⟩ := h
      simp only [Option.map_eq_some_iff] at h
      obtain ⟨lo, hlo, rfl⟩ := h
      obtain ⟨hm, hle⟩ := npMin_spec hlo
      obtain ⟨s, hs, rfl⟩ := List.mem_map.mp ht
      have hd : 0 ≤ (mx - mn) / 2 := by linarith
      obtain ⟨u, -, rfl⟩ := List.mem_map.mp hm
      have hls := hle s hs
      obtain ⟨v, -, rfl⟩ := List.mem_map.mp hs
      have a1 := neg_abs_le (sin u * ((mx - mn) / 2))
      have a2 : |sin u * ((mx - mn) / 2)| ≤ (mx - mn) / 2 := by
        rw [abs_mul, abs_of_nonneg hd]
        exact mul_le_of_le_one_left hd (abs_sin_le_one u)
      have a3 : sin v * ((mx - mn) / 2) ≤ (mx - mn) / 2 := mul_le_of_le_one_left hd (sin_le_one v)
      constructor <;> linarith

/-- **C99**: bounds given in the wrong order are exchanged, so that the values lie between them as well; equal bounds give values
between the bound and its double. -/
theorem C99_exchanged_bounds (c : Curve) (hc : c ≠ .uniform) (N : ℕ) (freq mn mx : ℝ) (h0 : 0 ≤ mx) (draw : ℕ → ℝ) (y : List ℝ)
    (h : curveY c N freq mn mx draw = some y) :
    (mx < mn → ∀ t ∈ y, mx ≤ t ∧ t ≤ mn) ∧ (mn = mx → 0 < mx → ∀ t ∈ y, mx ≤ t ∧ t ≤ 2 * mx) := by
  have red : ∀ mn' mx' : ℝ, curveBounds mn mx = curveBounds mn' mx' → curveY c N freq mn' mx' draw = some y := by
    intro mn' mx' hb
    unfold curveY at h ⊢
    rw [← hb]
    exact h
  refine ⟨fun hlt => ?_, fun he hp => ?_⟩
  · refine C99_curve_range_partial c hc N freq mx mn h0 hlt draw y (red mx mn ?_)
    unfold curveBounds
    rw [if_pos hlt, if_neg (by linarith), if_neg (by linarith)]
  · have := C99_curve_range_partial c hc N freq mx (mx * 2) h0 (by linarith) draw y (red mx (mx * 2) ?_)
    · intro t ht
      have := this t ht
      constructor <;> linarith
    · unfold curveBounds
      rw [if_neg (by linarith), if_pos he, if_neg (by linarith), if_neg (by linarith), he]

/-- A case: a logistic curve with frequency 1/2 exists for every sample count. -/
theorem C99_curve_range_case (N : ℕ) : ∃ y, curveY .logistic N (1 / 2) 1 2 (fun _ => 0) = some y ∧ y.length = N := by
  have h2 : 2 ≤ nPeriods (1 / 2) := by rw [nPeriods_half]; decide
  obtain ⟨xs, hx, hl⟩ := logisticPieces_two (N := N) h2
  refine ⟨_, by simp only [curveY, logisticCurve, hx]; rw [if_neg (by norm_num)]; rfl, ?_⟩
  rw [List.length_take, List.length_map]; omega

/-- **C99 refuted**: the documented "minimum value for all curves" has no effect on the uniform curve: the values before the
noise do not depend on it. -/
theorem C99_uniform_minimum_refuted (N : ℕ) (freq mx : ℝ) (draw : ℕ → ℝ) (mn mn' : ℝ) (h : mn < mx) (h' : mn' < mx) :
    curveY .uniform N freq mn mx draw = curveY .uniform N freq mn' mx draw ∧
      (∃ d : ℕ → ℝ, (∀ i, 0 ≤ d i ∧ d i < 1) ∧ ∀ y, 0 < mn → 0 < N → curveY .uniform N freq mn mx d = some y →
        ∃ t ∈ y, t < mn) := by
  have hb : ∀ a : ℝ, a < mx → curveBounds a mx = (a, mx) := by
    intro a ha
    unfold curveBounds
    rw [if_neg (by linarith), if_neg (by linarith)]
  refine ⟨by simp only [curveY, hb _ h, hb _ h'], fun _ => 0, by simp, ?_⟩
  intro y hmn hN hy
  simp only [curveY, hb _ h, Option.map_some, Option.some.injEq] at hy
  subst hy
  exact ⟨0, by simp; omega, hmn⟩

/-- C99, the uniform curve exactly: for a minimum below the maximum, its values lie between them for all draws iff the minimum is not positive and the maximum not negative. Missing: other minima and maxima, where they do not. -/
theorem C99_uniform_iff_partial (N : ℕ) (hN : 0 < N) (freq mn mx : ℝ) (h : mn < mx) :
    (∀ draw : ℕ → ℝ, (∀ i, 0 ≤ draw i ∧ draw i < 1) → ∀ y, curveY .uniform N freq mn mx draw = some y → ∀ t ∈ y, mn ≤ t ∧ t ≤ mx) ↔ mn ≤ 0 ∧ 0 ≤ mx := by
  have hb : curveBounds mn mx = (mn, mx) := by
    unfold curveBounds
    rw [if_neg (by linarith), if_neg (by linarith)]
  have hy : ∀ draw : ℕ → ℝ, curveY .uniform N freq mn mx draw = some ((List.range N).map fun i => draw i * mx) := fun draw => by
    simp only [curveY, hb, Option.map_some]
    rw [List.take_of_length_le (by simp)]
  constructor
  · intro hall
    have := hall (fun _ => 0) (fun _ => ⟨le_rfl, zero_lt_one⟩) _ (hy _) 0 (List.mem_map.2 ⟨0, List.mem_range.2 hN, by simp⟩)
    exact this
  · rintro ⟨h1, h2⟩ draw hd y e t ht
    rw [hy, Option.some.injEq] at e
    subst e
    obtain ⟨i, -, rfl⟩ := List.mem_map.1 ht
    obtain ⟨d1, d2⟩ := hd i
    constructor
    · have := mul_nonneg d1 h2
      linarith
    · nlinarith

/-- Case for `C99_uniform_iff_partial`: a minimum of zero is respected, a minimum of one is not. -/
example : (∀ draw : ℕ → ℝ, (∀ i, 0 ≤ draw i ∧ draw i < 1) → ∀ y, curveY .uniform 5 1 0 2 draw = some y → ∀ t ∈ y, 0 ≤ t ∧ t ≤ 2) ∧
    ¬ ∀ draw : ℕ → ℝ, (∀ i, 0 ≤ draw i ∧ draw i < 1) → ∀ y, curveY .uniform 5 1 1 2 draw = some y → ∀ t ∈ y, 1 ≤ t ∧ t ≤ 2 :=
  ⟨(C99_uniform_iff_partial 5 (by decide) 1 0 2 (by norm_num)).2 ⟨le_rfl, by norm_num⟩, fun h => by
    have := ((C99_uniform_iff_partial 5 (by decide) 1 1 2 (by norm_num)).1 h).1
    norm_num at this⟩

end curves

/-! ### The theorems applied to concrete settings -/

/-- Case for `C63_data_finite` and `C63_data_positive`: one sample, one feature, one factor. -/
example (d : DataDraws 1 1 ℚ) : ∃ v u, generateData ⟨true, 1 / 10, 2⟩ (fun _ _ => 3 : Mat 1 1 ℚ) (fun _ _ => 1) d 0 0 = some (v, u) ∧ 0 < v ∧ 0 < u :=
  C63_data_finite _ (fun _ => by norm_num) _ _ d 0 0

/-- Case for `C65_default_frequency`, `C65_simple_curves` and `C63_contribution_positive`: 30 samples. -/
example (draw z : ℕ → ℝ) : (∃ w : Fin 30 → ℝ, updateContribution .periodic 30 (1 / 10) (1 / 2) 1 2 draw z = some w ∧ ∀ i, 0 < w i) ∧
    (updateContribution .increasing 30 (1 / 10) (1 / 2) 1 2 draw z).isSome := by
  obtain ⟨w, hw⟩ := Option.isSome_iff_exists.1 (C65_default_frequency 30 (by decide) 1 2 draw z)
  exact ⟨⟨w, hw, C63_contribution_positive _ _ _ _ _ _ _ _ w hw⟩, C65_simple_curves _ (.inl rfl) _ (by norm_num) _ _ _ _ _⟩

/-- Case for `C98_custom_fewer_rows`, `C98_custom_too_many_rows` and `C63_profiles_positive`: two factors, one custom row with a
zero entry; and three custom rows. -/
example : (∃ H : Mat 2 1 ℚ, generateProfiles 2 1 (some (1, 1, fun _ _ => 0)) (fun _ => [(0, 1 / 2), (1, 1 / 4)]) = some H ∧ H 0 0 = 1 / 10 ^ 12 ∧
      0 < H 1 0) ∧
    generateProfiles (K := ℚ) 2 1 (some (3, 1, fun _ _ => 1)) (fun _ => [(0, 1 / 2)]) = none := by
  obtain ⟨H, R, h1, -, h3⟩ := C98_custom_fewer_rows (K := ℚ) (f := 2) (n := 1) 1 (by decide) le_rfl (fun _ _ => 0) (fun _ => [(0, 1 / 2), (1, 1 / 4)])
  exact ⟨⟨H, h1, by rw [h3]; norm_num, C63_profiles_positive _ _ H h1 1 0⟩, C98_custom_too_many_rows 3 1 (by decide) _ _⟩

/-- Case for `C99_curve_range_partial`: the logistic curve of any number of samples stays between one and two. -/
example (N : ℕ) : ∃ y, curveY .logistic N (1 / 2) 1 2 (fun _ => 0) = some y ∧ y.length = N ∧ ∀ t ∈ y, 1 ≤ t ∧ t ≤ 2 := by
  obtain ⟨y, h1, h2⟩ := C99_curve_range_case N
  exact ⟨y, h1, h2, C99_curve_range_partial .logistic (by simp) N (1 / 2) 1 2 (by norm_num) (by norm_num) _ y h1⟩

/-- Case for `C65_periodic_enough_partial`: frequency one half, 30 samples. -/
example (draw z : ℕ → ℝ) : (updateContribution .periodic 30 0 (1 / 2) 1 2 draw z).isSome :=
  C65_periodic_enough_partial 30 le_rfl (by norm_num) 1 2 draw z (by rw [nPeriods_half]; decide)

end Esat
