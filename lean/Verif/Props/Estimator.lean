import Verif.Model.Estimator
import Mathlib.Data.Rat.Defs
import Mathlib.Algebra.Order.Ring.Rat
import Mathlib.Algebra.Field.Rat
import Mathlib.Data.Fin.VecNotation
import Mathlib.Tactic.Linarith
import Mathlib.Tactic.NormNum
import Mathlib.Tactic.Positivity
import Mathlib.Tactic.Ring

/-!
# C55, C56, C96: the factor estimator
-/

namespace Esat

/-! ## C55 -/

section sample
variable {K : Type*} [Field K] [LinearOrder K] {m n : ℕ}

theorem testMask_ones (mask : Mat m n ℤ) (h : ∀ i j, mask i j = 0 ∨ mask i j = 1) : testMask mask = fun _ _ => 1 := by
  funext i j
  unfold testMask
  rcases h i j with h | h <;> simp [h]

theorem getMask_values (thr : K) (draw : Mat m n K) (i : Fin m) (j : Fin n) :
    getMask thr draw i j = 0 ∨ getMask thr draw i j = 1 := by
  unfold getMask
  split
  · exact .inr rfl
  · exact .inl rfl

/-- **Disagreement.** The test cells are all cells, whatever the mask: the training cells are always among them, and the sets are
complementary only for an empty training set. -/
theorem C55_refuted (thr : K) (draw : Mat m n K) :
    (∀ i j, testMask (getMask thr draw) i j ≠ 0) ∧
    ((∀ i j, testMask (getMask thr draw) i j ≠ 0 ↔ getMask thr draw i j = 0) ↔ ∀ i j, draw i j ≤ thr) := by
  have h1 := testMask_ones (getMask thr draw) (getMask_values thr draw)
  refine ⟨fun i j => by rw [h1]; simp, ?_⟩
  rw [h1]
  simp only [ne_eq, one_ne_zero, not_false_eq_true, true_iff]
  unfold getMask
  constructor
  · intro h i j
    have := h i j
    by_contra hc
    rw [if_pos (not_le.1 hc)] at this
    exact absurd this one_ne_zero
  · intro h i j
    rw [if_neg (not_lt.2 (h i j))]

/-- **Disagreement.** Hence the test error does not depend on the mask at all: it is the mean squared error over all cells, of a
model that was trained on all cells. -/
theorem C55_test_error_refuted (rnd : K → K) (train : Mat m n K → Mat m n K → ℕ → ℕ → Mat m n K) (V U : Mat m n K) (thr : K)
    (draw draw' : Mat m n K) (seed factors : ℕ) :
    (randomSample rnd train V U (getMask thr draw) seed factors).2 = (randomSample rnd train V U (getMask thr draw') seed factors).2 ∧
    (0 < m * n → (randomSample rnd train V U (getMask thr draw) seed factors).2 =
      some (rnd ((∑ i, ∑ j, (V i j - train V U seed factors i j) ^ 2) / ((m * n : ℕ) : K)))) := by
  unfold randomSample
  simp only
  rw [testMask_ones _ (getMask_values thr draw), testMask_ones _ (getMask_values thr draw')]
  refine ⟨rfl, fun hmn => ?_⟩
  have hc : countNZ (fun (_ : Fin m) (_ : Fin n) => (1 : ℤ)) = m * n := by
    unfold countNZ
    simp
  unfold maskedMse
  rw [hc, if_neg (by omega)]
  simp

/-- The training error is computed on the training cells: it is the mean of the squared residuals of the cells whose draw exceeds
the threshold. -/
theorem C55_train_partial (rnd : K → K) (V WH : Mat m n K) (thr : K) (draw : Mat m n K) (hne : ∃ i j, thr < draw i j) :
    maskedMse rnd (getMask thr draw) V WH =
      some (rnd ((∑ p ∈ (Finset.univ : Finset (Fin m × Fin n)).filter (fun p => thr < draw p.1 p.2), (V p.1 p.2 - WH p.1 p.2) ^ 2) /
        (((Finset.univ : Finset (Fin m × Fin n)).filter fun p => thr < draw p.1 p.2).card : K))) := by
  have hc : countNZ (getMask thr draw) = ((Finset.univ : Finset (Fin m × Fin n)).filter fun p => thr < draw p.1 p.2).card := by
    unfold countNZ getMask
    congr 1
    apply Finset.filter_congr
    intro p _
    split <;> simp_all
  have hpos : countNZ (getMask thr draw) ≠ 0 := by
    obtain ⟨i, j, hij⟩ := hne
    rw [hc, ← Nat.pos_iff_ne_zero, Finset.card_pos]
    exact ⟨(i, j), by simpa using hij⟩
  unfold maskedMse
  rw [if_neg hpos, hc, Finset.sum_filter, Fintype.sum_prod_type]
  congr 3
  apply Finset.sum_congr rfl
  intro i _
  apply Finset.sum_congr rfl
  intro j _
  unfold getMask
  split <;> simp

/-- The training error is undefined exactly when no cell is drawn for training. -/
theorem C55_train_none_partial (rnd : K → K) (V WH : Mat m n K) (thr : K) (draw : Mat m n K) :
    maskedMse rnd (getMask thr draw) V WH = none ↔ ∀ i j, draw i j ≤ thr := by
  constructor
  · intro h i j
    by_contra hc
    rw [C55_train_partial rnd V WH thr draw ⟨i, j, not_le.1 hc⟩] at h
    exact absurd h (by simp)
  · intro h
    have hc : countNZ (getMask thr draw) = 0 := by
      unfold countNZ getMask
      rw [Finset.card_eq_zero, Finset.filter_eq_empty_iff]
      intro p _
      rw [if_neg (not_lt.2 (h p.1 p.2))]
      simp
    unfold maskedMse
    rw [if_pos hc]

example : testMask (getMask (K := ℚ) (m := 1) (n := 2) 1 ![![0, 2]]) = ![![1, 1]] ∧
    getMask (K := ℚ) (m := 1) (n := 2) 1 ![![0, 2]] = ![![0, 1]] := by decide +kernel

end sample

/-! ## C56 -/

section aggregate
variable {K : Type*}

theorem collect_append (minF maxF : ℕ) (rs : List (Sample K)) (r : Sample K) :
    collect minF maxF (rs ++ [r]) = updatePbar minF (collect minF maxF rs) r := by
  unfold collect
  rw [List.foldl_append]
  rfl

/-- Every list holds exactly the values of the samples with its factor number, in the order of completion. -/
theorem collect_spec (minF maxF : ℕ) (rs : List (Sample K)) (hk : ∀ r ∈ rs, minF ≤ r.k) :
    (collect minF maxF rs).test =
      (List.range (maxF + 1 - minF)).map (fun i => (rs.filter fun r => r.k = i + minF).map (·.test)) ∧
    (collect minF maxF rs).train =
      (List.range (maxF + 1 - minF)).map (fun i => (rs.filter fun r => r.k = i + minF).map (·.train)) ∧
    (collect minF maxF rs).qtrue =
      (List.range (maxF + 1 - minF)).map (fun i => (rs.filter fun r => r.k = i + minF).map (·.qtrue)) ∧
    (collect minF maxF rs).qrobust =
      (List.range (maxF + 1 - minF)).map (fun i => (rs.filter fun r => r.k = i + minF).map (·.qrobust)) := by
  have hmod : ∀ (f : Sample K → K) (rs : List (Sample K)) (r : Sample K), minF ≤ r.k →
      ((List.range (maxF + 1 - minF)).map (fun i => (rs.filter fun r => r.k = i + minF).map f)).modify (r.k - minF) (· ++ [f r]) =
      (List.range (maxF + 1 - minF)).map (fun i => ((rs ++ [r]).filter fun r => r.k = i + minF).map f) := by
    intro f rs r hr
    apply List.ext_getElem?
    intro i
    rw [List.getElem?_modify, List.getElem?_map, List.getElem?_map]
    by_cases hi : i < maxF + 1 - minF
    · rw [List.getElem?_range hi]
      simp only [Option.map_some, Option.some.injEq, List.filter_append, List.map_append, List.filter_cons, List.filter_nil]
      by_cases he : r.k - minF = i
      · have hd : decide (r.k = i + minF) = true := by simp; omega
        simp [he, hd]
      · have hd : decide (r.k = i + minF) = false := by simp; omega
        simp [he, hd]
    · rw [List.getElem?_eq_none (by simp; omega)]
      rfl
  induction rs using List.reverseRecOn with
  | nil =>
    have : ∀ f : Sample K → K, (List.range (maxF + 1 - minF)).map (fun i => (([] : List (Sample K)).filter fun r => r.k = i + minF).map f) =
        List.replicate (maxF + 1 - minF) [] := by
      intro f
      simp
    refine ⟨?_, ?_, ?_, ?_⟩ <;> rw [this] <;> rfl
  | append_singleton rs r ih =>
    obtain ⟨h1, h2, h3, h4⟩ := ih fun r hr => hk r (List.mem_append_left _ hr)
    have hr := hk r (by simp)
    rw [collect_append]
    unfold updatePbar
    simp only [h1, h2, h3, h4]
    exact ⟨hmod _ rs r hr, hmod _ rs r hr, hmod _ rs r hr, hmod _ rs r hr⟩

end aggregate

section results
variable {K : Type*} [Field K] [LinearOrder K]

theorem meanOpt_perm {l l' : List K} (h : l.Perm l') : meanOpt l = meanOpt l' := by
  by_cases h0 : l = []
  · subst h0
    rw [← h.nil_eq]
  · unfold meanOpt
    rw [h.sum_eq, h.length_eq, if_neg h0, if_neg]
    rintro rfl
    exact h0 h.eq_nil

/-- The averaged errors and losses per factor number, and the estimate, do not depend on the order in which the samples
finish. -/
theorem C56_schedule (minF maxF : ℕ) (pw : ℕ → K) (rs rs' : List (Sample K)) (hk : ∀ r ∈ rs, minF ≤ r.k) (hp : rs.Perm rs') :
    (collect minF maxF rs).test.map meanOpt = (collect minF maxF rs').test.map meanOpt ∧
    (collect minF maxF rs).train.map meanOpt = (collect minF maxF rs').train.map meanOpt ∧
    (collect minF maxF rs).qtrue.map meanOpt = (collect minF maxF rs').qtrue.map meanOpt ∧
    (collect minF maxF rs).qrobust.map meanOpt = (collect minF maxF rs').qrobust.map meanOpt ∧
    runEstimate minF maxF pw rs = runEstimate minF maxF pw rs' := by
  have hk' : ∀ r ∈ rs', minF ≤ r.k := fun r hr => hk r (hp.mem_iff.2 hr)
  obtain ⟨a1, a2, a3, a4⟩ := collect_spec minF maxF rs hk
  obtain ⟨b1, b2, b3, b4⟩ := collect_spec minF maxF rs' hk'
  have key : ∀ f : Sample K → K,
      ((List.range (maxF + 1 - minF)).map (fun i => (rs.filter fun r => r.k = i + minF).map f)).map meanOpt =
      ((List.range (maxF + 1 - minF)).map (fun i => (rs'.filter fun r => r.k = i + minF).map f)).map meanOpt := by
    intro f
    rw [List.map_map, List.map_map]
    apply List.map_congr_left
    intro i _
    exact meanOpt_perm ((hp.filter _).map f)
  have ht : (collect minF maxF rs).test.map meanOpt = (collect minF maxF rs').test.map meanOpt := by rw [a1, b1, key]
  refine ⟨ht, by rw [a2, b2, key], by rw [a3, b3, key], by rw [a4, b4, key], ?_⟩
  unfold runEstimate
  rw [ht]

theorem nanArgmax_spec (l : List (Option K)) : ∀ (i : ℕ) (best : Option (ℕ × K)),
    (nanArgmax l i best = none ↔ best = none ∧ ∀ x ∈ l, x = none) ∧
    ∀ (b : ℕ) (y : K), nanArgmax l i best = some (b, y) →
      (best = some (b, y) ∨ ∃ j : ℕ, b = i + j ∧ l[j]? = some (some y) ∧
        (∀ (j' : ℕ) (y' : K), j' < j → l[j']? = some (some y') → y' < y) ∧ ∀ b' y', best = some (b', y') → y' < y) ∧
      (∀ (j : ℕ) (y' : K), l[j]? = some (some y') → y' ≤ y) ∧ (∀ b' y', best = some (b', y') → y' ≤ y) := by
  induction l with
  | nil =>
    intro i best
    refine ⟨by simp [nanArgmax], fun b y h => ?_⟩
    rw [nanArgmax] at h
    refine ⟨.inl h, by simp, ?_⟩
    intro b' y' h'
    rw [h] at h'
    simp only [Option.some.injEq, Prod.mk.injEq] at h'
    exact h'.2.ge
  | cons a l ih =>
    intro i best
    cases a with
    | none =>
      rw [nanArgmax]
      obtain ⟨h1, h2⟩ := ih (i + 1) best
      refine ⟨by rw [h1]; simp, fun b y h => ?_⟩
      obtain ⟨c1, c2, c3⟩ := h2 b y h
      refine ⟨?_, ?_, c3⟩
      · rcases c1 with c1 | ⟨j, hj, hl, hlt, hb⟩
        · exact .inl c1
        · refine .inr ⟨j + 1, by omega, by simpa using hl, ?_, hb⟩
          intro j' y' hj' hy'
          cases j' with
          | zero => simp at hy'
          | succ j' => exact hlt j' y' (by omega) (by simpa using hy')
      · intro j y' hj
        cases j with
        | zero => simp at hj
        | succ j => exact c2 j y' (by simpa using hj)
    | some x =>
      cases best with
      | none =>
        rw [nanArgmax]
        obtain ⟨h1, h2⟩ := ih (i + 1) (some (i, x))
        refine ⟨by rw [h1]; simp, fun b y h => ?_⟩
        obtain ⟨c1, c2, c3⟩ := h2 b y h
        have hx := c3 i x rfl
        refine ⟨?_, ?_, by simp⟩
        · right
          rcases c1 with c1 | ⟨j, hj, hl, hlt, hb⟩
          · simp only [Option.some.injEq, Prod.mk.injEq] at c1
            exact ⟨0, by omega, by simp [c1.2], by simp, by simp⟩
          · refine ⟨j + 1, by omega, by simpa using hl, ?_, by simp⟩
            intro j' y' hj' hy'
            cases j' with
            | zero =>
              simp only [List.getElem?_cons_zero, Option.some.injEq] at hy'
              rw [← hy']
              exact hb i x rfl
            | succ j' => exact hlt j' y' (by omega) (by simpa using hy')
        · intro j y' hj
          cases j with
          | zero =>
            simp only [List.getElem?_cons_zero, Option.some.injEq] at hj
            rw [← hj]
            exact hx
          | succ j => exact c2 j y' (by simpa using hj)
      | some p =>
        obtain ⟨b0, y0⟩ := p
        rw [nanArgmax]
        by_cases hlt0 : y0 < x
        · rw [if_pos hlt0]
          obtain ⟨h1, h2⟩ := ih (i + 1) (some (i, x))
          refine ⟨by rw [h1]; simp, fun b y h => ?_⟩
          obtain ⟨c1, c2, c3⟩ := h2 b y h
          have hx := c3 i x rfl
          refine ⟨?_, ?_, ?_⟩
          · right
            rcases c1 with c1 | ⟨j, hj, hl, hlt, hb⟩
            · simp only [Option.some.injEq, Prod.mk.injEq] at c1
              refine ⟨0, by omega, by simp [c1.2], by simp, ?_⟩
              intro b' y' h'
              simp only [Option.some.injEq, Prod.mk.injEq] at h'
              rw [← h'.2, ← c1.2]
              exact hlt0
            · refine ⟨j + 1, by omega, by simpa using hl, ?_, ?_⟩
              · intro j' y' hj' hy'
                cases j' with
                | zero =>
                  simp only [List.getElem?_cons_zero, Option.some.injEq] at hy'
                  rw [← hy']
                  exact hb i x rfl
                | succ j' => exact hlt j' y' (by omega) (by simpa using hy')
              · intro b' y' h'
                simp only [Option.some.injEq, Prod.mk.injEq] at h'
                rw [← h'.2]
                exact hlt0.trans (hb i x rfl)
          · intro j y' hj
            cases j with
            | zero =>
              simp only [List.getElem?_cons_zero, Option.some.injEq] at hj
              rw [← hj]
              exact hx
            | succ j => exact c2 j y' (by simpa using hj)
          · intro b' y' h'
            simp only [Option.some.injEq, Prod.mk.injEq] at h'
            rw [← h'.2]
            exact hlt0.le.trans hx
        · rw [if_neg hlt0]
          obtain ⟨h1, h2⟩ := ih (i + 1) (some (b0, y0))
          refine ⟨by rw [h1]; simp, fun b y h => ?_⟩
          obtain ⟨c1, c2, c3⟩ := h2 b y h
          have hy0 := c3 b0 y0 rfl
          have hx : x ≤ y := (not_lt.1 hlt0).trans hy0
          refine ⟨?_, ?_, c3⟩
          · rcases c1 with c1 | ⟨j, hj, hl, hlt, hb⟩
            · exact .inl c1
            · refine .inr ⟨j + 1, by omega, by simpa using hl, ?_, hb⟩
              intro j' y' hj' hy'
              cases j' with
              | zero =>
                simp only [List.getElem?_cons_zero, Option.some.injEq] at hy'
                rw [← hy']
                exact lt_of_le_of_lt (not_lt.1 hlt0) (hb b0 y0 rfl)
              | succ j' => exact hlt j' y' (by omega) (by simpa using hy')
          · intro j y' hj
            cases j with
            | zero =>
              simp only [List.getElem?_cons_zero, Option.some.injEq] at hj
              rw [← hj]
              exact hx
            | succ j => exact c2 j y' (by simpa using hj)

theorem minOpt_spec (l : List (Option K)) (hne : l ≠ []) (hs : ∀ x ∈ l, x ≠ none) :
    ∃ mn, minOpt l = some mn ∧ some mn ∈ l ∧ ∀ e, some e ∈ l → mn ≤ e := by
  have hall : l.all Option.isSome = true := by
    rw [List.all_eq_true]
    intro x hx
    exact Option.isSome_iff_ne_none.2 (hs x hx)
  unfold minOpt
  rw [if_pos hall]
  cases h : (l.filterMap id).min? with
  | none =>
    rw [List.min?_eq_none_iff] at h
    obtain ⟨x, l', rfl⟩ := List.exists_cons_of_ne_nil hne
    cases x with
    | none => exact absurd rfl (hs none List.mem_cons_self)
    | some x => simp at h
  | some mn =>
    rw [List.min?_eq_some_iff] at h
    refine ⟨mn, rfl, ?_, ?_⟩
    · have := h.1
      rw [List.mem_filterMap] at this
      obtain ⟨a, ha, he⟩ := this
      rw [id] at he
      rw [← he]
      exact ha
    · intro e he
      exact h.2 e (List.mem_filterMap.2 ⟨some e, he, rfl⟩)

theorem kEst_getElem (minF : ℕ) (pw : ℕ → K) (mse : List (Option K)) (i : ℕ) :
    (kEst minF pw mse)[i]? = mse[i]?.map fun o => (minOpt mse).bind fun mn => o.bind fun e =>
      if e * pw (i + minF) = 0 then none else some (mn / (e * pw (i + minF))) := by
  unfold kEst
  rw [List.getElem?_map, List.getElem?_zipIdx]
  cases mse[i]? <;> simp

/-- If some factor number got no sample, the result is -1. -/
theorem C56_missing (minF maxF : ℕ) (hF : minF < maxF) (pw : ℕ → K) (rs : List (Sample K)) (hk : ∀ r ∈ rs, minF ≤ r.k)
    (k : ℕ) (hk1 : minF ≤ k) (hk2 : k ≤ maxF) (hno : ∀ r ∈ rs, r.k ≠ k) : runEstimate minF maxF pw rs = some (-1) := by
  unfold runEstimate
  rw [(collect_spec minF maxF rs hk).1]
  set mse := ((List.range (maxF + 1 - minF)).map (fun i => (rs.filter fun r => r.k = i + minF).map (·.test))).map meanOpt with hm
  have hmin : minOpt mse = none := by
    unfold minOpt
    rw [if_neg]
    intro hc
    have hmem : none ∈ mse := by
      rw [hm, List.map_map, List.mem_map]
      refine ⟨k - minF, by rw [List.mem_range]; omega, ?_⟩
      have : (rs.filter fun r => decide (r.k = k - minF + minF)) = [] := by
        rw [List.filter_eq_nil_iff]
        intro r hr
        have := hno r hr
        simp only [decide_eq_true_eq]
        omega
      simp [Function.comp, this, meanOpt]
    exact absurd (List.all_eq_true.1 hc none hmem) (by simp)
  unfold estimate
  rw [if_neg (by rw [hm]; simp; omega)]
  have : nanArgmax (kEst minF pw mse) 0 none = none := by
    rw [(nanArgmax_spec _ 0 none).1]
    refine ⟨rfl, fun x hx => ?_⟩
    unfold kEst at hx
    obtain ⟨p, _, rfl⟩ := List.mem_map.1 hx
    rw [hmin]
    rfl
  rw [this]

end results

section estimate
variable {K : Type*} [Field K] [LinearOrder K] [IsStrictOrderedRing K]

/-- With errors that are numbers, not negative and not all zero, at least two factor numbers and positive powers, the estimate is
one of the factor numbers; among the factor numbers with a positive error it minimises error times power when all errors are
positive. -/
theorem estimate_spec (minF : ℕ) (pw : ℕ → K) (hpw : ∀ k, 0 < pw k) (mse : List (Option K)) (hlen : 2 ≤ mse.length)
    (hs : ∀ x ∈ mse, x ≠ none) (hnn : ∀ e, some e ∈ mse → 0 ≤ e) (hpos : ∃ e, some e ∈ mse ∧ 0 < e) :
    ∃ (i : ℕ) (e : K), estimate minF pw mse = some ((i : ℤ) + minF) ∧ mse[i]? = some (some e) ∧ 0 < e ∧
      ((∀ e', some e' ∈ mse → 0 < e') → ∀ (j : ℕ) (e' : K), mse[j]? = some (some e') → e * pw (i + minF) ≤ e' * pw (j + minF)) ∧
      ((∀ (j : ℕ) (e' : K), j < i → mse[j]? = some (some e') → 0 < e' → (some 0 : Option K) ∈ mse → False)) := by
  obtain ⟨mn, hmn, hmem, hle⟩ := minOpt_spec mse (by rintro rfl; simp at hlen) hs
  have hk : ∀ (i : ℕ) (e : K), mse[i]? = some (some e) → (kEst minF pw mse)[i]? =
      some (if e = 0 then none else some (mn / (e * pw (i + minF)))) := by
    intro i e he
    rw [kEst_getElem, he, hmn]
    simp only [Option.map_some, Option.bind_some, Option.some.injEq, mul_eq_zero, (hpw (i + minF)).ne', or_false]
  unfold estimate
  rw [if_neg (by omega)]
  cases ha : nanArgmax (kEst minF pw mse) 0 none with
  | none =>
    exfalso
    rw [(nanArgmax_spec _ 0 none).1] at ha
    obtain ⟨e, he, hep⟩ := hpos
    obtain ⟨i, hi⟩ := List.mem_iff_getElem?.1 he
    have h1 := hk i e hi
    rw [if_neg hep.ne'] at h1
    have := ha.2 _ (List.mem_of_getElem? h1)
    simp at this
  | some p =>
    obtain ⟨b, y⟩ := p
    obtain ⟨c1, c2, _⟩ := (nanArgmax_spec _ 0 none).2 b y ha
    rcases c1 with c1 | ⟨i, hb, hy, hfirst, _⟩
    · simp at c1
    · rw [zero_add] at hb
      subst hb
      have hget : ∃ o, mse[b]? = some o := by
        rw [kEst_getElem] at hy
        cases hm : mse[b]? with
        | none => rw [hm] at hy; simp at hy
        | some o => exact ⟨o, rfl⟩
      obtain ⟨o, ho⟩ := hget
      cases o with
      | none => exact absurd rfl (hs none (List.mem_of_getElem? ho))
      | some e =>
        have h1 := hk b e ho
        rw [hy] at h1
        by_cases he0 : e = 0
        · rw [if_pos he0] at h1
          simp at h1
        · rw [if_neg he0] at h1
          simp only [Option.some.injEq] at h1
          have hep : 0 < e := lt_of_le_of_ne (hnn e (List.mem_of_getElem? ho)) (Ne.symm he0)
          refine ⟨b, e, rfl, ho, hep, ?_, ?_⟩
          · intro hallpos j e' hj
            have hmp : 0 < mn := hallpos mn hmem
            have he'p : 0 < e' := hallpos e' (List.mem_of_getElem? hj)
            have h2 := hk j e' hj
            rw [if_neg he'p.ne'] at h2
            have h3 := c2 j _ h2
            rw [h1] at h3
            have hA : 0 < e * pw (b + minF) := mul_pos hep (hpw _)
            have hB : 0 < e' * pw (j + minF) := mul_pos he'p (hpw _)
            rw [div_le_div_iff₀ hB hA] at h3
            exact le_of_mul_le_mul_left h3 hmp
          · intro j e' hj hj' he' h0
            have hmn0 : mn = 0 := le_antisymm (hle 0 h0) (hnn mn hmem)
            have h2 := hk j e' hj'
            rw [if_neg he'.ne'] at h2
            have h3 := hfirst j _ hj h2
            rw [h1, hmn0, zero_div, zero_div] at h3
            exact lt_irrefl _ h3

/-- If every factor number got a sample, there are at least two factor numbers, and the test errors are not negative and not all
zero, the estimate lies between the smallest and the largest factor number. What is missing: the two cases of
`C56_range_refuted`. -/
theorem C56_range_partial (minF maxF : ℕ) (hF : minF < maxF) (pw : ℕ → K) (hpw : ∀ k, 0 < pw k) (rs : List (Sample K))
    (hk : ∀ r ∈ rs, minF ≤ r.k ∧ r.k ≤ maxF) (hall : ∀ k, minF ≤ k → k ≤ maxF → ∃ r ∈ rs, r.k = k) (hnn : ∀ r ∈ rs, 0 ≤ r.test)
    (hpos : ∃ r ∈ rs, 0 < r.test) :
    ∃ k : ℕ, runEstimate minF maxF pw rs = some (k : ℤ) ∧ minF ≤ k ∧ k ≤ maxF := by
  have hkm : ∀ r ∈ rs, minF ≤ r.k := fun r hr => (hk r hr).1
  have hmean : ∀ k, minF ≤ k → k ≤ maxF → ∃ e, meanOpt ((rs.filter fun r => decide (r.k = k)).map (·.test)) = some e ∧ 0 ≤ e ∧
      ((∃ r ∈ rs, r.k = k ∧ 0 < r.test) → 0 < e) := by
    intro k h1 h2
    obtain ⟨r, hr, hrk⟩ := hall k h1 h2
    have hne : (rs.filter fun r => decide (r.k = k)).map (·.test) ≠ [] := by
      intro hc
      rw [List.map_eq_nil_iff, List.filter_eq_nil_iff] at hc
      exact hc r hr (by simpa using hrk)
    have hlen : (0 : K) < (((rs.filter fun r => decide (r.k = k)).map (·.test)).length : K) := by
      exact_mod_cast List.length_pos_of_ne_nil hne
    have hnn' : ∀ x ∈ (rs.filter fun r => decide (r.k = k)).map (·.test), 0 ≤ x := by
      intro x hx
      obtain ⟨r', hr', rfl⟩ := List.mem_map.1 hx
      exact hnn r' (List.mem_filter.1 hr').1
    unfold meanOpt
    rw [if_neg hne]
    refine ⟨_, rfl, div_nonneg (List.sum_nonneg hnn') hlen.le, ?_⟩
    rintro ⟨r', hr', hrk', hp⟩
    refine div_pos ?_ hlen
    have hmem : r'.test ∈ (rs.filter fun r => decide (r.k = k)).map (·.test) :=
      List.mem_map.2 ⟨r', List.mem_filter.2 ⟨hr', by simpa using hrk'⟩, rfl⟩
    exact lt_of_lt_of_le hp (List.single_le_sum hnn' _ hmem)
  unfold runEstimate
  rw [(collect_spec minF maxF rs hkm).1, List.map_map]
  set mse := (List.range (maxF + 1 - minF)).map (meanOpt ∘ fun i => (rs.filter fun r => decide (r.k = i + minF)).map (·.test)) with hm
  have hml : mse.length = maxF + 1 - minF := by rw [hm]; simp
  have hin : ∀ o ∈ mse, ∃ e, o = some e ∧ 0 ≤ e := by
    intro o ho
    rw [hm] at ho
    obtain ⟨i, hi, rfl⟩ := List.mem_map.1 ho
    rw [List.mem_range] at hi
    obtain ⟨e, he, he0, _⟩ := hmean (i + minF) (by omega) (by omega)
    exact ⟨e, he, he0⟩
  obtain ⟨i, e, h1, h2, _⟩ := estimate_spec minF pw hpw mse (by omega) (fun x hx h0 => by
      obtain ⟨e, he, _⟩ := hin x hx
      rw [h0] at he
      simp at he) (fun e he => by
      obtain ⟨e', he', h0⟩ := hin _ he
      rw [Option.some.injEq] at he'
      rw [he']
      exact h0) (by
      obtain ⟨r, hr, hp⟩ := hpos
      obtain ⟨hr1, hr2⟩ := hk r hr
      obtain ⟨e, he, _, hep⟩ := hmean r.k hr1 hr2
      refine ⟨e, ?_, hep ⟨r, hr, rfl, hp⟩⟩
      rw [hm, List.mem_map]
      refine ⟨r.k - minF, by rw [List.mem_range]; omega, ?_⟩
      simp only [Function.comp]
      rw [show r.k - minF + minF = r.k by omega]
      exact he)
  have hi : i < mse.length := by
    rw [List.getElem?_eq_some_iff] at h2
    exact h2.1
  exact ⟨i + minF, by rw [h1]; push_cast; rfl, by omega, by omega⟩

/-- **Disagreement.** Although every factor number got a sample, the result is -1 when all test errors are zero, and the search
raises an exception for a single factor number. -/
theorem C56_range_refuted (minF maxF : ℕ) (pw : ℕ → K) (rs : List (Sample K)) (hk : ∀ r ∈ rs, minF ≤ r.k ∧ r.k ≤ maxF) :
    (minF < maxF → (∀ k, minF ≤ k → k ≤ maxF → ∃ r ∈ rs, r.k = k) → (∀ r ∈ rs, r.test = 0) → runEstimate minF maxF pw rs = some (-1)) ∧
    (minF = maxF → runEstimate minF maxF pw rs = none) := by
  have hkm : ∀ r ∈ rs, minF ≤ r.k := fun r hr => (hk r hr).1
  unfold runEstimate
  rw [(collect_spec minF maxF rs hkm).1, List.map_map]
  constructor
  · intro hF hall h0
    unfold estimate
    rw [if_neg (by simp; omega)]
    have : ∀ o ∈ (List.range (maxF + 1 - minF)).map (meanOpt ∘ fun i => (rs.filter fun r => decide (r.k = i + minF)).map (·.test)),
        o = some 0 ∨ o = none := by
      intro o ho
      obtain ⟨i, _, rfl⟩ := List.mem_map.1 ho
      simp only [Function.comp, meanOpt]
      split
      · exact .inr rfl
      · left
        have : ((rs.filter fun r => decide (r.k = i + minF)).map (·.test)).sum = 0 :=
          List.sum_eq_zero (by
            intro x hx
            obtain ⟨r, hr, rfl⟩ := List.mem_map.1 hx
            exact h0 r (List.mem_filter.1 hr).1)
        rw [this, zero_div]
    set mse := (List.range (maxF + 1 - minF)).map (meanOpt ∘ fun i => (rs.filter fun r => decide (r.k = i + minF)).map (·.test))
    have hn : nanArgmax (kEst minF pw mse) 0 none = none := by
      rw [(nanArgmax_spec _ 0 none).1]
      refine ⟨rfl, fun x hx => ?_⟩
      obtain ⟨i, hi⟩ := List.mem_iff_getElem?.1 hx
      rw [kEst_getElem] at hi
      cases hm : mse[i]? with
      | none => rw [hm] at hi; simp at hi
      | some o =>
        rw [hm] at hi
        rcases this o (List.mem_of_getElem? hm) with rfl | rfl
        · cases hmn : minOpt mse <;> rw [hmn] at hi <;> simp at hi <;> exact hi.symm
        · cases hmn : minOpt mse <;> rw [hmn] at hi <;> simp at hi <;> exact hi.symm
    rw [hn]
  · intro hF
    unfold estimate
    rw [if_pos (by simp; omega)]

/-- **C56, the exact condition.** If every factor number got a sample and the test errors are not negative, the estimate is one of the factor numbers exactly if there are at least two of them and some test error is not zero. -/
theorem C56_iff_partial (minF maxF : ℕ) (hF : minF ≤ maxF) (pw : ℕ → K) (hpw : ∀ k, 0 < pw k) (rs : List (Sample K)) (hk : ∀ r ∈ rs, minF ≤ r.k ∧ r.k ≤ maxF)
    (hall : ∀ k, minF ≤ k → k ≤ maxF → ∃ r ∈ rs, r.k = k) (hnn : ∀ r ∈ rs, 0 ≤ r.test) :
    (∃ k : ℕ, runEstimate minF maxF pw rs = some (k : ℤ) ∧ minF ≤ k ∧ k ≤ maxF) ↔ minF ≠ maxF ∧ ∃ r ∈ rs, r.test ≠ 0 := by
  constructor
  · rintro ⟨k, h, -⟩
    obtain ⟨h1, h2⟩ := C56_range_refuted minF maxF pw rs hk
    refine ⟨fun e => ?_, ?_⟩
    · rw [h2 e] at h
      cases h
    by_contra h0
    push Not at h0
    rcases hF.lt_or_eq with hlt | e
    · rw [h1 hlt hall h0] at h
      simp only [Option.some.injEq] at h
      omega
    · rw [h2 e] at h
      cases h
  · rintro ⟨h1, r, hr, h2⟩
    exact C56_range_partial minF maxF (by omega) pw hpw rs hk hall hnn ⟨r, hr, lt_of_le_of_ne (hnn r hr) (Ne.symm h2)⟩

example : runEstimate (K := ℚ) 2 4 (fun k => k)
    [⟨1, 6, 3, 0, 0⟩, ⟨1, 9, 2, 0, 0⟩, ⟨1, 2, 3, 0, 0⟩, ⟨1, 7, 4, 0, 0⟩] = some 3 := by decide +kernel

/-! ## C96 -/

/-- With positive mean test errors the estimate minimises error times power of the factor number. -/
theorem C96_partial (minF : ℕ) (pw : ℕ → K) (hpw : ∀ k, 0 < pw k) (mse : List K) (hlen : 2 ≤ mse.length) (hpos : ∀ e ∈ mse, 0 < e) :
    ∃ (i : ℕ) (e : K), estimate minF pw (mse.map some) = some ((i : ℤ) + minF) ∧ mse[i]? = some e ∧
      ∀ (j : ℕ) (e' : K), mse[j]? = some e' → e * pw (i + minF) ≤ e' * pw (j + minF) := by
  have hmem : ∀ e, some e ∈ mse.map some → e ∈ mse := by
    intro e he
    obtain ⟨x, hx, h⟩ := List.mem_map.1 he
    rw [Option.some.injEq] at h
    rwa [← h]
  obtain ⟨i, e, h1, h2, _, h3, _⟩ := estimate_spec minF pw hpw (mse.map some) (by simpa using hlen)
    (fun x hx => by obtain ⟨y, _, rfl⟩ := List.mem_map.1 hx; simp) (fun e he => (hpos e (hmem e he)).le) (by
      obtain ⟨e, l, rfl⟩ := List.exists_cons_of_ne_nil (l := mse) (by rintro rfl; simp at hlen)
      exact ⟨e, by simp, hpos e List.mem_cons_self⟩)
  refine ⟨i, e, h1, ?_, ?_⟩
  · rw [List.getElem?_map, Option.map_eq_some_iff] at h2
    obtain ⟨x, hx, he⟩ := h2
    rw [Option.some.injEq] at he
    rwa [he] at hx
  · intro j e' hj
    exact h3 (fun e' he' => hpos e' (hmem e' he')) j e' (by rw [List.getElem?_map, hj]; rfl)

/-- **Disagreement.** A factor number with zero test error (a perfect fit) is never chosen while another one has a positive error;
the estimate is then the first factor number with a positive error. -/
theorem C96_refuted (minF : ℕ) (pw : ℕ → K) (hpw : ∀ k, 0 < pw k) (mse : List (Option K)) (hlen : 2 ≤ mse.length)
    (hs : ∀ x ∈ mse, x ≠ none) (hnn : ∀ e, some e ∈ mse → 0 ≤ e) (hpos : ∃ e, some e ∈ mse ∧ 0 < e) (h0 : some 0 ∈ mse) :
    ∃ (i : ℕ) (e : K), estimate minF pw mse = some ((i : ℤ) + minF) ∧ mse[i]? = some (some e) ∧ 0 < e ∧
      ∀ j : ℕ, j < i → mse[j]? = some (some 0) := by
  obtain ⟨i, e, h1, h2, h3, _, h4⟩ := estimate_spec minF pw hpw mse hlen hs hnn hpos
  refine ⟨i, e, h1, h2, h3, fun j hj => ?_⟩
  have hi : i < mse.length := by
    rw [List.getElem?_eq_some_iff] at h2
    exact h2.1
  obtain ⟨o, ho⟩ : ∃ o, mse[j]? = some o := ⟨_, List.getElem?_eq_getElem (by omega : j < mse.length)⟩
  cases o with
  | none => exact absurd rfl (hs none (List.mem_of_getElem? ho))
  | some e' =>
    rcases (hnn e' (List.mem_of_getElem? ho)).eq_or_lt with h | h
    · rw [ho, ← h]
    · exact absurd h0 (fun h0 => h4 j e' hj ho h h0)

/-- The exact condition: the estimate minimises error times power exactly if no mean test error is zero. -/
theorem C96_iff_partial (minF : ℕ) (pw : ℕ → K) (hpw : ∀ k, 0 < pw k) (mse : List K) (hlen : 2 ≤ mse.length) (hnn : ∀ e ∈ mse, 0 ≤ e) :
    (∃ (i : ℕ) (e : K), estimate minF pw (mse.map some) = some ((i : ℤ) + minF) ∧ mse[i]? = some e ∧
      ∀ (j : ℕ) (e' : K), mse[j]? = some e' → e * pw (i + minF) ≤ e' * pw (j + minF)) ↔ 0 ∉ mse := by
  constructor
  · rintro ⟨i, e, h1, h2, h3⟩ h0
    obtain ⟨j, hj, hj0⟩ := List.mem_iff_getElem.1 h0
    have hle := h3 j 0 (by rw [List.getElem?_eq_getElem hj, hj0])
    rw [zero_mul] at hle
    have he : e ≤ 0 := by
      by_contra hc
      exact absurd hle (not_le.2 (mul_pos (not_le.1 hc) (hpw _)))
    have he0 : e = 0 := le_antisymm he (hnn e (List.mem_of_getElem? h2))
    by_cases hp : ∃ e ∈ mse, 0 < e
    · obtain ⟨a, ha, ha0⟩ := hp
      obtain ⟨i', e', g1, g2, g3, -⟩ := C96_refuted minF pw hpw (mse.map some) (by simpa using hlen)
        (fun x hx => by obtain ⟨y, _, rfl⟩ := List.mem_map.1 hx; simp)
        (fun e he => by obtain ⟨y, hy, h⟩ := List.mem_map.1 he; cases h; exact hnn _ hy)
        ⟨a, List.mem_map.2 ⟨a, ha, rfl⟩, ha0⟩ (List.mem_map.2 ⟨0, h0, rfl⟩)
      rw [g1, Option.some.injEq] at h1
      have : i' = i := by omega
      subst this
      rw [List.getElem?_map, h2, Option.map_some, Option.some.injEq, Option.some.injEq] at g2
      rw [← g2, he0] at g3
      exact lt_irrefl _ g3
    · have hz : ∀ e ∈ mse, e = 0 := fun e he => le_antisymm (not_lt.1 fun h => hp ⟨e, he, h⟩) (hnn e he)
      have hk : ∀ o ∈ kEst minF pw (mse.map some), o = none := by
        intro o ho
        unfold kEst at ho
        obtain ⟨p, hpm, rfl⟩ := List.mem_map.1 ho
        have hp1 := List.fst_mem_of_mem_zipIdx hpm
        obtain ⟨y, hy, hy'⟩ := List.mem_map.1 hp1
        rw [← hy', hz y hy]
        simp
      have hna : nanArgmax (kEst minF pw (mse.map some)) 0 none = none := by
        rw [(nanArgmax_spec _ 0 none).1]
        exact ⟨rfl, hk⟩
      unfold estimate at h1
      rw [if_neg (by simpa using hlen), hna] at h1
      simp at h1
      omega
  · intro h0
    exact C96_partial minF pw hpw mse hlen fun e he => lt_of_le_of_ne (hnn e he) fun h => h0 (h ▸ he)

example : estimate (K := ℚ) 2 (fun k => k) [some 5, some 0, some 9] = some 2 := by decide +kernel

end estimate

/-! ### The theorems applied to four samples -/

/-- Case for `C56_range_partial`, `C56_schedule` and `C96_partial`. -/
example :
    (∃ k : ℕ, runEstimate (K := ℚ) 2 4 (fun k => k + 1) [⟨1, 6, 3, 0, 0⟩, ⟨1, 9, 2, 0, 0⟩, ⟨1, 2, 3, 0, 0⟩, ⟨1, 7, 4, 0, 0⟩] = some (k : ℤ) ∧
      2 ≤ k ∧ k ≤ 4) ∧
    runEstimate (K := ℚ) 2 4 (fun k => k + 1) [⟨1, 6, 3, 0, 0⟩, ⟨1, 9, 2, 0, 0⟩, ⟨1, 2, 3, 0, 0⟩, ⟨1, 7, 4, 0, 0⟩]
      = runEstimate (K := ℚ) 2 4 (fun k => (k : ℚ) + 1) [⟨1, 9, 2, 0, 0⟩, ⟨1, 6, 3, 0, 0⟩, ⟨1, 7, 4, 0, 0⟩, ⟨1, 2, 3, 0, 0⟩] ∧
    ∃ (i : ℕ) (e : ℚ), estimate 2 (fun k => (k : ℚ) + 1) [some 5, some 1, some 9] = some ((i : ℤ) + 2) ∧ ([5, 1, 9] : List ℚ)[i]? = some e := by
  refine ⟨C56_range_partial 2 4 (by decide) _ (fun k => by positivity) _ (by decide +kernel) (fun k h1 h2 => ?_) (by decide +kernel)
    ⟨⟨1, 6, 3, 0, 0⟩, by simp, by norm_num⟩, (C56_schedule (K := ℚ) 2 4 (fun k => (k : ℚ) + 1) [⟨1, 6, 3, 0, 0⟩, ⟨1, 9, 2, 0, 0⟩, ⟨1, 2, 3, 0, 0⟩, ⟨1, 7, 4, 0, 0⟩]
      [⟨1, 9, 2, 0, 0⟩, ⟨1, 6, 3, 0, 0⟩, ⟨1, 7, 4, 0, 0⟩, ⟨1, 2, 3, 0, 0⟩] (by decide +kernel) ?_).2.2.2.2, ?_⟩
  · obtain rfl | rfl | rfl : k = 2 ∨ k = 3 ∨ k = 4 := by omega
    · exact ⟨⟨1, 9, 2, 0, 0⟩, by simp, rfl⟩
    · exact ⟨⟨1, 6, 3, 0, 0⟩, by simp, rfl⟩
    · exact ⟨⟨1, 7, 4, 0, 0⟩, by simp, rfl⟩
  · exact (List.Perm.swap _ _ _).trans (.cons _ (.cons _ (List.Perm.swap _ _ _)))
  · obtain ⟨i, e, h1, h2, -⟩ := C96_partial 2 (fun k => (k : ℚ) + 1) (fun k => by positivity) [5, 1, 9] (by decide) (by decide +kernel)
    exact ⟨i, e, h1, h2⟩

/-- Case for `C56_missing`: no sample with four factors. -/
example : runEstimate (K := ℚ) 2 4 (fun k => k) [⟨1, 6, 3, 0, 0⟩, ⟨1, 9, 2, 0, 0⟩] = some (-1) :=
  C56_missing 2 4 (by decide) _ _ (by decide +kernel) 4 (by decide) (by decide) (by decide +kernel)

end Esat
