import Verif.Lemmas.Bootstrap
import Mathlib.Data.Rat.Defs
import Mathlib.Algebra.BigOperators.Fin
import Mathlib.Algebra.Order.Ring.Rat
import Mathlib.Algebra.Field.Rat
import Mathlib.Tactic.NormNum
import Mathlib.Tactic.FinCases

/-!
# C29-C32, C78: bootstrap
-/

namespace Esat

/-! ## C29 -/

/-- What a resample should be: as many rows as before, rows drawn with one common index list of existing rows, and each
run of `bs` drawn rows consecutive in the original. -/
structure IsBlockResample {ρ τ : Type*} (bs : ℕ) (data unc : List ρ) (W : List τ) (d u : List ρ) (w : List τ)
    (idx : List ℕ) : Prop where
  /-- the index list covers all rows -/
  len : idx.length = data.length
  /-- all indices exist -/
  range : ∀ i ∈ idx, i < data.length
  /-- data rows -/
  data_row : d.length = data.length ∧ ∀ p i : ℕ, idx[p]? = some i → d[p]? = data[i]? ∧ (d[p]?).isSome
  /-- uncertainty rows, same indices -/
  unc_row : u.length = data.length ∧ ∀ p i : ℕ, idx[p]? = some i → u[p]? = unc[i]? ∧ (u[p]?).isSome
  /-- contribution rows, same indices -/
  w_row : w.length = data.length ∧ ∀ p i : ℕ, idx[p]? = some i → w[p]? = W[i]? ∧ (w[p]?).isSome
  /-- consecutive inside a block -/
  block : ∀ p i : ℕ, idx[p]? = some i → (p + 1) % bs ≠ 0 → p + 1 < idx.length → idx[p + 1]? = some (i + 1)

theorem blockStart_bound (N bs : ℕ) (ov : Bool) (r : ℕ → ℕ) (hbs : 0 < bs) (hN : 2 * bs ≤ N) (hov : ov = true → bs + 1 < N)
    (t : ℕ) : blockStart N bs ov r t + bs ≤ if ov then N - 2 else (blockCount N bs - 1) * bs := by
  obtain ⟨hM, hM1, hM2⟩ := blockCount_spec N bs hbs hN
  unfold blockStart
  cases ov with
  | true =>
    have hov := hov rfl
    have := Nat.mod_lt (r t) (show 0 < N - bs - 1 by omega)
    simp only [if_true]
    omega
  | false =>
    have := Nat.mod_lt (r t) (show 0 < blockCount N bs - 1 by omega)
    have h2 : (r t % (blockCount N bs - 1) + 1) * bs ≤ (blockCount N bs - 1) * bs := Nat.mul_le_mul_right _ this
    rw [Nat.add_mul, Nat.one_mul] at h2
    simpa using h2

theorem rows_of {ρ : Type*} (A : List ρ) (idx : List ℕ) (hlen : idx.length = A.length) (hr : ∀ i ∈ idx, i < A.length) :
    ∃ sel, takeRows A idx = some sel ∧ sel.length = A.length ∧
      ∀ p i : ℕ, idx[p]? = some i → sel[p]? = A[i]? ∧ (sel[p]?).isSome := by
  obtain ⟨sel, h1, h2, h3⟩ := takeRows_spec A idx hr
  refine ⟨sel, h1, by omega, fun p i hp => ?_⟩
  have hpl : p < idx.length := (List.getElem?_eq_some_iff.1 hp).1
  have := h3 p hpl
  rw [hp] at this
  simp only [Option.bind_some] at this
  refine ⟨this, ?_⟩
  rw [this, List.getElem?_eq_getElem (hr i (List.mem_of_getElem? hp))]
  rfl

/-- For every data size, every block size up to half of it, every sequence of draws, with or without overlap, block
resampling succeeds (except for two rows with overlap) and yields a proper block resample.

What is missing: block sizes above half the number of rows, where the code raises (`C29_large_block_refuted`), although
its documentation says that the block size is then reduced. -/
theorem C29_partial {ρ τ : Type*} (data unc : List ρ) (W : List τ) (bs : ℕ) (ov : Bool) (r : ℕ → ℕ)
    (hu : unc.length = data.length) (hW : W.length = data.length)
    (hbs : 0 < bs) (hN : 2 * bs ≤ data.length) (hov : ov = true → 2 < data.length) :
    ∃ d u w idx, blockResample data unc W bs ov r = some (d, u, w, idx) ∧ IsBlockResample bs data unc W d u w idx := by
  have hov' : ov = true → bs + 1 < data.length := fun h => by have := hov h; omega
  obtain ⟨idx, h1, h2, h3⟩ := blockIndex_spec data.length bs ov r hbs hN hov'
  have hb := blockStart_bound data.length bs ov r hbs hN hov'
  have hr : ∀ i ∈ idx, i < data.length := by
    intro i hi
    obtain ⟨p, hp⟩ := List.mem_iff_getElem?.1 hi
    have hpl : p < data.length := by have := (List.getElem?_eq_some_iff.1 hp).1; omega
    rw [h3 p hpl, Option.some.injEq] at hp
    have := hb (p / bs)
    have hm := Nat.mod_lt p hbs
    obtain ⟨hM, hM1, hM2⟩ := blockCount_spec data.length bs hbs hN
    split at this <;> omega
  obtain ⟨d, d1, d2, d3⟩ := rows_of data idx h2 hr
  obtain ⟨u, u1, u2, u3⟩ := rows_of unc idx (by omega) (by rw [hu]; exact hr)
  obtain ⟨w, w1, w2, w3⟩ := rows_of W idx (by omega) (by rw [hW]; exact hr)
  refine ⟨d, u, w, idx, ?_, ?_⟩
  · simp [blockResample, h1, d1, u1, w1, writeBack_eq data d d2, writeBack_eq unc u u2, writeBack_eq W w w2]
  · refine ⟨h2, hr, ⟨d2, d3⟩, ⟨by omega, u3⟩, ⟨by omega, w3⟩, fun p i hp hmod hlt => ?_⟩
    rw [h2] at hlt
    rw [h3 p (by omega), Option.some.injEq] at hp
    rw [h3 (p + 1) hlt]
    have hdm : (p + 1) / bs = p / bs ∧ (p + 1) % bs = p % bs + 1 := by
      have h5 := Nat.mod_lt p hbs
      have h6 := Nat.div_add_mod p bs
      have hne : p % bs + 1 ≠ bs := by
        intro h
        apply hmod
        have : p + 1 = bs * (p / bs) + bs := by omega
        rw [this]
        simp
      constructor
      · apply Nat.div_eq_of_lt_le
        · rw [Nat.mul_comm]; omega
        · rw [Nat.add_mul, Nat.one_mul, Nat.mul_comm]; omega
      · rw [Nat.add_mod]
        have h1' : 1 % bs = 1 := Nat.mod_eq_of_lt (by omega)
        rw [h1', Nat.mod_eq_of_lt (by omega)]
    rw [hdm.1, hdm.2, ← hp, Nat.add_assoc]

/-- Non-trivial case: seven rows, blocks of three, draws 5, 2, 4 (the last block is cut). -/
example : blockResample [10, 11, 12, 13, 14, 15, 16] [20, 21, 22, 23, 24, 25, 26] [0, 1, 2, 3, 4, 5, 6] 3 false
    (fun i => [5, 2, 4].getD i 0) =
    some ([13, 14, 15, 10, 11, 12, 10], [23, 24, 25, 20, 21, 22, 20], [3, 4, 5, 0, 1, 2, 0], [3, 4, 5, 0, 1, 2, 0]) := by
  decide +kernel

/-- The same with overlapping blocks. -/
example : (blockResample [10, 11, 12, 13, 14, 15, 16] [20, 21, 22, 23, 24, 25, 26] [0, 1, 2, 3, 4, 5, 6] 3 true
    (fun i => [5, 1, 4].getD i 0)).map (·.2.2.2) = some [2, 3, 4, 1, 2, 3, 1] := by decide +kernel

/-- **Disagreement.** The documentation says the block size is reduced to fit the data; the code sets it to the float
`N/2` and then raises for every block size above half the number of rows. -/
theorem C29_large_block_refuted {ρ τ : Type*} (data unc : List ρ) (W : List τ) (bs : ℕ) (ov : Bool) (r : ℕ → ℕ)
    (h : data.length < 2 * bs) : blockResample data unc W bs ov r = none := by
  have : blockIndex data.length bs ov r = none := by
    unfold blockIndex
    simp [h]
  simp [blockResample, this]

example : blockResample [1, 2, 3, 4, 5] [1, 2, 3, 4, 5] [1, 2, 3, 4, 5] 3 false (fun _ => 0) = none := by decide +kernel

/-- **C29, the exact condition.** Block resampling succeeds exactly for block sizes from one to half the number of rows, with overlap only for more than two rows; whether it does never depends on the draws. What is missing is the behaviour
documented for larger blocks. -/
theorem C29_iff_partial {ρ τ : Type*} (data unc : List ρ) (W : List τ) (bs : ℕ) (ov : Bool) (r : ℕ → ℕ) (hu : unc.length = data.length) (hW : W.length = data.length) :
    (blockResample data unc W bs ov r).isSome ↔ 1 ≤ bs ∧ 2 * bs ≤ data.length ∧ (ov = true → 3 ≤ data.length) := by
  constructor
  · intro h
    have hi : (blockIndex data.length bs ov r).isSome := by
      unfold blockResample at h
      cases hb : blockIndex data.length bs ov r
      · rw [hb] at h; cases h
      · rfl
    unfold blockIndex at hi
    split_ifs at hi with h1 h2 h3
    · cases hi
    · cases hi
    · refine ⟨by omega, by omega, fun _ => ?_⟩
      by_contra hN
      have e1 : bs = 1 := by omega
      have e2 : data.length = 2 := by omega
      rw [e1, e2] at hi
      have hM : blockCount 2 1 = 2 := rfl
      rw [hM] at hi
      have h0 : ∀ x s, overlapStep 2 1 x s = none := fun x s => rfl
      simp only [loopM, h0, Option.bind_some, Option.bind_none, Option.map_none] at hi
      cases hi
    · exact ⟨by omega, by omega, fun h => absurd h h3⟩
  · rintro ⟨h1, h2, h3⟩
    obtain ⟨d, u, w, idx, h, -⟩ := C29_partial data unc W bs ov r hu hW h1 h2 h3
    rw [h]
    rfl

/-- Case: two rows, blocks of one row. -/
example : (blockResample [1, 2] [3, 4] [5, 6] 1 false (fun _ => 0)).isSome ∧ blockResample [1, 2] [3, 4] [5, 6] 1 true (fun _ => 0) = none := by
  refine ⟨(C29_iff_partial [1, 2] [3, 4] [5, 6] 1 false (fun _ => 0) rfl rfl).2 (by decide), ?_⟩
  have := (C29_iff_partial [1, 2] [3, 4] [5, 6] 1 true (fun _ => 0) rfl rfl).not.2 (by decide)
  simpa using this

/-- Resampling by single rows also keeps the number of rows and the pairing, for every non-empty dataset. -/
theorem C29_plain {ρ τ : Type*} (data unc : List ρ) (W : List τ) (r : ℕ → ℕ)
    (hu : unc.length = data.length) (hW : W.length = data.length) (hne : data ≠ []) :
    ∃ d u w idx, plainResample data unc W r = some (d, u, w, idx) ∧ IsBlockResample 1 data unc W d u w idx := by
  have hpos : 0 < data.length := List.length_pos_iff.2 hne
  obtain ⟨idx, hidx⟩ : ∃ idx, idx = (List.range data.length).map fun i => r i % data.length := ⟨_, rfl⟩
  have h2 : idx.length = data.length := by simp [hidx]
  have hr : ∀ i ∈ idx, i < data.length := by
    intro i hi
    rw [hidx] at hi
    obtain ⟨t, _, rfl⟩ := List.mem_map.1 hi
    exact Nat.mod_lt _ hpos
  obtain ⟨d, d1, d2, d3⟩ := rows_of data idx h2 hr
  obtain ⟨u, u1, u2, u3⟩ := rows_of unc idx (by omega) (by rw [hu]; exact hr)
  obtain ⟨w, w1, w2, w3⟩ := rows_of W idx (by omega) (by rw [hW]; exact hr)
  refine ⟨d, u, w, idx, ?_, ⟨h2, hr, ⟨d2, d3⟩, ⟨by omega, u3⟩, ⟨by omega, w3⟩, fun p i _ hmod _ => ?_⟩⟩
  · simp only [plainResample, if_neg (show ¬data.length = 0 by omega), ← hidx, d1, u1, w1, Option.bind_some]
  · exact absurd (Nat.mod_one _) hmod

/-! ## C30 -/

/-- **Disagreement.** The last row of the dataset is never part of a block resample, whatever the random draws, the number
of rows and the block size: the last block is excluded from the draw (`high=int(M) - 1` is exclusive), and with overlap
the last two rows are excluded. -/
theorem C30_refuted {ρ τ : Type*} (data unc : List ρ) (W : List τ) (bs : ℕ) (ov : Bool) (r : ℕ → ℕ)
    (d u : List ρ) (w : List τ) (idx : List ℕ) (h : blockResample data unc W bs ov r = some (d, u, w, idx)) :
    data.length - 1 ∉ idx := by
  have hi : blockIndex data.length bs ov r = some idx := by
    simp only [blockResample, Option.bind_eq_some_iff, Option.some.injEq, Prod.mk.injEq] at h
    obtain ⟨i, h1, _, _, _, _, _, _, _, _, _, h2⟩ := h
    rw [h1, h2]
  by_cases hbs : bs = 0
  · simp [blockIndex, hbs] at hi
  by_cases hN : data.length < 2 * bs
  · simp [blockIndex, hbs, hN] at hi
  have hov' : ov = true → bs + 1 < data.length := by
    intro hov
    by_contra hc
    have hM := (blockCount_spec data.length bs (by omega) (by omega)).1
    obtain ⟨M, hM'⟩ : ∃ M, blockCount data.length bs = M + 1 := ⟨_, (Nat.succ_pred_eq_of_pos (by omega)).symm⟩
    have hnone : ∀ n, loopM (fun i => overlapStep data.length bs (r i)) (n + 1) ⟨[], 0, []⟩ = none := by
      intro n
      induction n with
      | zero => simp [loopM, overlapStep, show data.length - bs - 1 = 0 by omega]
      | succ n ih => rw [loopM, ih]; rfl
    simp [blockIndex, hbs, hN, hov, hM', hnone] at hi
  obtain ⟨idx', h1, h2, h3⟩ := blockIndex_spec data.length bs ov r (by omega) (by omega) hov'
  rw [hi, Option.some.injEq] at h1
  subst h1
  intro hmem
  obtain ⟨p, hp⟩ := List.mem_iff_getElem?.1 hmem
  have hpl : p < data.length := by have := (List.getElem?_eq_some_iff.1 hp).1; omega
  rw [h3 p hpl, Option.some.injEq] at hp
  have hb := blockStart_bound data.length bs ov r (by omega) (by omega) hov' (p / bs)
  have hm := Nat.mod_lt p (show 0 < bs by omega)
  obtain ⟨hM, hM1, hM2⟩ := blockCount_spec data.length bs (by omega) (by omega)
  split at hb <;> omega

/-- Exactly the rows before the last block (without overlap), or all but the last two rows (with overlap), can be drawn.
What is missing is what `C30_refuted` excludes. -/
theorem C30_reachable_partial (N bs : ℕ) (ov : Bool) (hbs : 0 < bs) (hN : 2 * bs ≤ N) (hov : ov = true → 2 < N) (j : ℕ) :
    (∃ r idx, blockIndex N bs ov r = some idx ∧ j ∈ idx) ↔ j < if ov then N - 2 else bs * ((N - 1) / bs) := by
  have hov' : ov = true → bs + 1 < N := fun h => by have := hov h; omega
  obtain ⟨hM, hM1, hM2⟩ := blockCount_spec N bs hbs hN
  have hcnt : (N - 1) / bs = blockCount N bs - 1 := by
    unfold blockCount
    rw [show N + bs - 1 = (N - 1) + bs by omega, Nat.add_div_right _ hbs]
    rfl
  rw [hcnt, Nat.mul_comm bs]
  constructor
  · rintro ⟨r, idx, h1, hmem⟩
    obtain ⟨idx', h1', h2, h3⟩ := blockIndex_spec N bs ov r hbs hN hov'
    rw [h1, Option.some.injEq] at h1'
    subst h1'
    obtain ⟨p, hp⟩ := List.mem_iff_getElem?.1 hmem
    have hpl : p < N := by have := (List.getElem?_eq_some_iff.1 hp).1; omega
    rw [h3 p hpl, Option.some.injEq] at hp
    have hb := blockStart_bound N bs ov r hbs hN hov' (p / bs)
    have hm := Nat.mod_lt p hbs
    omega
  · intro hj
    cases ov with
    | false =>
      simp only [Bool.false_eq_true, if_false] at hj
      obtain ⟨idx, h1, h2, h3⟩ := blockIndex_spec N bs false (fun _ => j / bs) hbs hN (by simp)
      refine ⟨_, idx, h1, ?_⟩
      have hmod := Nat.mod_lt j hbs
      have := h3 (j % bs) (by omega)
      rw [Nat.mod_mod] at this
      have hdiv : j / bs < blockCount N bs - 1 := by rw [Nat.div_lt_iff_lt_mul hbs]; exact hj
      simp only [blockStart, Bool.false_eq_true, if_false, Nat.mod_eq_of_lt hdiv] at this
      rw [Nat.mul_comm, Nat.div_add_mod] at this
      exact List.mem_of_getElem? this
    | true =>
      simp only [if_true] at hj
      have hov'' := hov' rfl
      obtain ⟨idx, h1, h2, h3⟩ := blockIndex_spec N bs true (fun _ => min j (N - bs - 2)) hbs hN hov'
      refine ⟨_, idx, h1, ?_⟩
      have := h3 (j - min j (N - bs - 2)) (by omega)
      have hlt : j - min j (N - bs - 2) < bs := by omega
      rw [Nat.mod_eq_of_lt hlt, Nat.div_eq_of_lt hlt] at this
      have hmin : min j (N - bs - 2) < N - bs - 1 := by omega
      simp only [blockStart, if_true, Nat.mod_eq_of_lt hmin] at this
      rw [show min j (N - bs - 2) + (j - min j (N - bs - 2)) = j by omega] at this
      exact List.mem_of_getElem? this

/-- Non-trivial case: of seven rows in blocks of three, row 5 can be drawn and row 6 cannot. -/
example : (∃ r idx, blockIndex 7 3 false r = some idx ∧ 5 ∈ idx) ∧ ¬∃ r idx, blockIndex 7 3 false r = some idx ∧ 6 ∈ idx := by
  rw [C30_reachable_partial 7 3 false (by omega) (by omega) (by simp), C30_reachable_partial 7 3 false (by omega) (by omega) (by simp)]
  decide

/-- With resampling by single rows every row can be drawn. -/
theorem C30_plain {ρ τ : Type*} (data unc : List ρ) (W : List τ) (hu : unc.length = data.length)
    (hW : W.length = data.length) (j : ℕ) (hj : j < data.length) :
    ∃ r d u w idx, plainResample data unc W r = some (d, u, w, idx) ∧ j ∈ idx := by
  have hne : data ≠ [] := by rintro rfl; simp at hj
  obtain ⟨d, u, w, idx, h, _⟩ := C29_plain data unc W (fun _ => j) hu hW hne
  refine ⟨_, d, u, w, idx, h, ?_⟩
  unfold plainResample at h
  rw [if_neg (by omega)] at h
  simp only [Option.bind_eq_some_iff, Option.some.injEq, Prod.mk.injEq] at h
  obtain ⟨_, _, _, _, _, _, _, _, _, h⟩ := h
  rw [← h]
  exact List.mem_map.2 ⟨0, List.mem_range.2 (by omega), Nat.mod_eq_of_lt hj⟩

/-! ## C31 -/

section
variable {K : Type*} [LinearOrder K] {k : ℕ}

/-- If the correlation of the bootstrap factor with the base factor of the same number is defined, the factor is mapped to
a base factor of maximal correlation; it counts as mapped exactly when that correlation reaches the threshold; the factor
of the same number is kept on a tie.

What is missing: an undefined correlation with the factor of the same number (`C31_nan_refuted`). -/
theorem C31_partial (r : Fin k → Fin k → Option K) (thr : K) (i : Fin k) (x0 : K) (h0 : r i i = some x0) :
    ∃ x, r i (mapFactor r thr i).mtch = some x ∧ (mapFactor r thr i).r = some x ∧
      (∀ j y, r i j = some y → y ≤ x) ∧ ((mapFactor r thr i).mapped = true ↔ thr ≤ x) ∧
      (x0 = x → (mapFactor r thr i).mtch = i) := by
  obtain ⟨b', y, q1, q2, q3, q4, q5⟩ := mapFold_spec (r i) i x0 (List.finRange k) i x0 h0 le_rfl (.inl rfl)
  have hm : mapFactor r thr i = ⟨b', some y, decide (thr ≤ y)⟩ := by
    simp only [mapFactor, h0, q1]
  rw [hm]
  refine ⟨y, q2, rfl, fun j z hz => q5 j (List.mem_finRange j) z hz, by simp, fun h => ?_⟩
  rcases q4 with h' | h'
  · exact h'
  · exact absurd h (ne_of_lt h')

/-- **Disagreement.** When the correlation with the base factor of the same number is undefined (a constant profile), the
bootstrap factor is reported as unmapped, even if another base factor correlates perfectly. -/
theorem C31_nan_refuted (r : Fin k → Fin k → Option K) (thr : K) (i : Fin k) (h0 : r i i = none) :
    (mapFactor r thr i).mapped = false := by
  have := mapFold_nan (r i) i (List.finRange k)
  simp only [mapFactor, h0, this]

/-- **C31, the exact condition.** A bootstrap factor is reported as mapped exactly if the correlation with the base factor of the same number is defined and some base factor reaches the threshold. Without the first condition this would be what
is documented. -/
theorem C31_iff_partial (r : Fin k → Fin k → Option K) (thr : K) (i : Fin k) :
    (mapFactor r thr i).mapped = true ↔ (r i i).isSome ∧ ∃ j y, r i j = some y ∧ thr ≤ y := by
  cases h0 : r i i with
  | none => simp [C31_nan_refuted r thr i h0]
  | some x0 =>
    obtain ⟨x, h1, -, h2, h3, -⟩ := C31_partial r thr i x0 h0
    rw [h3]
    exact ⟨fun h => ⟨rfl, _, x, h1, h⟩, fun ⟨_, j, y, hy, h⟩ => h.trans (h2 j y hy)⟩

/-- Case: the first factor fits the second base factor but has no correlation with the first one. -/
example : (mapFactor (K := ℚ) ![![none, some 1], ![some 0, some 1]] (1 / 2) 0).mapped = false ∧ (mapFactor (K := ℚ) ![![some 0, some 1], ![some 0, some 1]] (1 / 2) 0).mapped = true := by
  refine ⟨?_, (C31_iff_partial _ _ _).2 ⟨rfl, 1, 1, rfl, by norm_num⟩⟩
  have := (C31_iff_partial (K := ℚ) ![![none, some 1], ![some 0, some 1]] (1 / 2) 0).not.2 (fun h => by simp at h)
  simpa using this

end

section
variable {K : Type*} [Field K] [LinearOrder K] [IsStrictOrderedRing K] {k m n : ℕ}

theorem scov_self_eq_zero (x : Fin n → K) : scov x x = 0 ↔ ∃ c, ∀ i, x i = c := by
  unfold scov
  rw [Finset.sum_eq_zero_iff_of_nonneg fun i _ => mul_self_nonneg _]
  constructor
  · intro h
    refine ⟨vmean x, fun i => ?_⟩
    have := mul_self_eq_zero.1 (h i (Finset.mem_univ i))
    exact sub_eq_zero.1 this
  · rintro ⟨c, hc⟩ i _
    have hn : (n : K) ≠ 0 := Nat.cast_ne_zero.2 fun h => by subst h; exact i.elim0
    have hm : vmean x = c := by
      unfold vmean
      rw [Finset.sum_congr rfl fun i _ => hc i, Finset.sum_const, Finset.card_univ, Fintype.card_fin, nsmul_eq_mul]
      field_simp
    rw [hm, hc, sub_self, mul_zero]

/-- What the correlation used for the mapping means: it is undefined exactly for constant vectors, and 1 exactly if one of two
non-constant vectors is a linear function of the other. -/
theorem C31_correlation (x y : Fin n → K) :
    (r2 x y = none ↔ (∃ c, ∀ i, x i = c) ∨ ∃ c, ∀ i, y i = c) ∧
    (r2 x y = some 1 ↔ (¬∃ c, ∀ i, x i = c) ∧ (¬∃ c, ∀ i, y i = c) ∧ ∃ a b, ∀ i, y i = a * x i + b) := by
  rw [← scov_self_eq_zero, ← scov_self_eq_zero]
  unfold r2
  by_cases h : scov x x = 0 ∨ scov y y = 0
  · rw [if_pos h]
    refine ⟨by simp [h], ?_⟩
    simp only [reduceCtorEq, false_iff]
    rintro ⟨h1, h2, -⟩
    exact h.elim h1 h2
  · rw [if_neg h]
    push Not at h
    obtain ⟨hx, hy⟩ := h
    refine ⟨by simp [hx, hy], ?_⟩
    simp only [Option.some.injEq, ne_eq, hx, hy, not_false_eq_true, true_and]
    rw [div_eq_one_iff_eq (mul_ne_zero hx hy)]
    have hexp : ∀ a : K, ∑ i, ((y i - vmean y) - a * (x i - vmean x)) * ((y i - vmean y) - a * (x i - vmean x)) =
        scov y y - 2 * a * scov x y + a ^ 2 * scov x x := by
      intro a
      unfold scov
      rw [Finset.mul_sum, Finset.mul_sum, ← Finset.sum_sub_distrib, ← Finset.sum_add_distrib]
      exact Finset.sum_congr rfl fun i _ => by ring
    constructor
    · intro he
      have h0 := hexp (scov x y / scov x x)
      have : scov y y - 2 * (scov x y / scov x x) * scov x y + (scov x y / scov x x) ^ 2 * scov x x = 0 := by
        field_simp
        linear_combination -he
      rw [this, Finset.sum_eq_zero_iff_of_nonneg fun i _ => mul_self_nonneg _] at h0
      refine ⟨scov x y / scov x x, vmean y - scov x y / scov x x * vmean x, fun i => ?_⟩
      have := mul_self_eq_zero.1 (h0 i (Finset.mem_univ i))
      linear_combination this
    · rintro ⟨a, b, hab⟩
      have hn : n ≠ 0 := by
        rintro rfl
        exact hx (by simp [scov])
      have hn' : (n : K) ≠ 0 := Nat.cast_ne_zero.2 hn
      have hm : vmean y = a * vmean x + b := by
        unfold vmean
        rw [Finset.sum_congr rfl fun i _ => hab i, Finset.sum_add_distrib, ← Finset.mul_sum, Finset.sum_const,
          Finset.card_univ, Fintype.card_fin, nsmul_eq_mul]
        field_simp
      have hd : ∀ i, y i - vmean y = a * (x i - vmean x) := fun i => by rw [hab, hm]; ring
      have e1 : scov x y = a * scov x x := by
        unfold scov
        rw [Finset.mul_sum]
        exact Finset.sum_congr rfl fun i _ => by rw [hd]; ring
      have e2 : scov y y = a ^ 2 * scov x x := by
        unfold scov
        rw [Finset.mul_sum]
        exact Finset.sum_congr rfl fun i _ => by rw [hd]; ring
      rw [e1, e2]
      ring

example : r2 (K := ℚ) ![1, 2, 4] ![3, 5, 9] = some 1 ∧ r2 (K := ℚ) ![1, 2, 4] ![3, 3, 3] = none ∧
    r2 (K := ℚ) ![1, 2, 3] ![1, 3, 2] = some (1 / 4) := by decide +kernel

/-- The mapping by contributions and the mapping by profiles agree whenever no factor has zero total contribution: the
matrix product summed over samples is the profile times the total contribution, and the correlation does not see the
scale. -/
theorem C31_contributions_eq_profiles (W1 W2 : Mat m k K) (H1 H2 : Mat k n K) (thr : K)
    (h1 : ∀ i, ∑ s, W1 s i ≠ 0) (h2 : ∀ i, ∑ s, W2 s i ≠ 0) :
    mapContributions W1 H1 W2 H2 thr = mapFactors H1 H2 thr := by
  have hc : ∀ (W : Mat m k K) (H : Mat k n K) i, concentration W H i = fun j => (∑ s, W s i) * H i j := by
    intro W H i
    funext j
    rw [concentration, Finset.sum_mul]
  unfold mapContributions mapFactors
  congr 1
  funext i j
  rw [hc, hc, r2_smul_left _ (h1 i), r2_smul_right _ (h2 j)]

/-- The mapping of the bootstrap, over the real correlations: the recorded `r2` is between 0 and 1 and maximal. -/
theorem C31_contributions_partial (W1 W2 : Mat m k K) (H1 H2 : Mat k n K) (thr : K) (i : Fin k)
    (hd : (r2 (concentration W1 H1 i) (concentration W2 H2 i)).isSome) :
    ∃ x, (mapContributions W1 H1 W2 H2 thr i).r = some x ∧ 0 ≤ x ∧ x ≤ 1 ∧
      r2 (concentration W1 H1 i) (concentration W2 H2 (mapContributions W1 H1 W2 H2 thr i).mtch) = some x ∧
      (∀ j y, r2 (concentration W1 H1 i) (concentration W2 H2 j) = some y → y ≤ x) ∧
      ((mapContributions W1 H1 W2 H2 thr i).mapped = true ↔ thr ≤ x) := by
  obtain ⟨x0, h0⟩ := Option.isSome_iff_exists.1 hd
  obtain ⟨x, p1, p2, p3, p4, _⟩ := C31_partial (fun i j => r2 (concentration W1 H1 i) (concentration W2 H2 j)) thr i x0 h0
  have hb := r2_bounds _ _ _ p1
  exact ⟨x, p2, hb.1, hb.2, p1, p3, p4⟩

/-- Non-trivial cases: two swapped profiles are mapped to each other; a flat profile spoils the mapping. -/
example : ((mapFactors (K := ℚ) ![![1, 2, 4], ![3, 1, 0]] ![![6, 2, 1], ![2, 4, 9]] (6/10) 0).mtch = 1) ∧
    (mapFactors (K := ℚ) ![![1, 2, 4], ![3, 1, 0]] ![![6, 2, 1], ![2, 4, 9]] (6/10) 0).mapped = true := by
  decide +kernel

example : (mapFactors (K := ℚ) ![![1, 2, 4], ![3, 1, 0]] ![![5, 5, 5], ![1, 2, 4]] (6/10) 0).mapped = false ∧
    r2 (K := ℚ) ![1, 2, 4] ![1, 2, 4] = some 1 := by decide +kernel

end

/-! ## C32 -/

section
variable {L : Type*} {k : ℕ}

/-- The table counts, for each bootstrap factor and base factor, the runs that mapped one to the other. -/
theorem C32_counts (runs : List (Fin k → MapEntry k L)) (a b : Fin k) :
    (buildTable runs).counts a b = runs.countP (fun mp => (mp a).mapped && decide ((mp a).mtch = b)) ∧
    (buildTable runs).unmapped a = runs.countP (fun mp => !(mp a).mapped) := by
  obtain ⟨h1, h2⟩ := buildTable_aux runs ⟨fun _ _ => 0, fun _ => 0⟩
  exact ⟨by simpa [buildTable] using h1 a b, by simpa [buildTable] using h2 a⟩

/-- Every row of the table (mapped plus unmapped) sums to the number of runs. -/
theorem C32_row (runs : List (Fin k → MapEntry k L)) (a : Fin k) :
    ∑ b, (buildTable runs).counts a b + (buildTable runs).unmapped a = runs.length := by
  simp only [C32_counts runs a, (C32_counts runs a a).2]
  induction runs with
  | nil => simp
  | cons mp runs ih =>
    simp only [List.countP_cons, Finset.sum_add_distrib, List.length_cons]
    cases hm : (mp a).mapped with
    | false => simp; omega
    | true => simp; omega

/-- The whole table sums to runs times factors. -/
theorem C32_total (runs : List (Fin k → MapEntry k L)) :
    ∑ a, (∑ b, (buildTable runs).counts a b + (buildTable runs).unmapped a) = runs.length * k := by
  simp only [C32_row, Finset.sum_const, Finset.card_univ, Fintype.card_fin, smul_eq_mul, mul_comm]

/-- The table does not depend on the order in which the runs finish. -/
theorem C32_order (runs runs' : List (Fin k → MapEntry k L)) (h : runs.Perm runs') :
    buildTable runs = buildTable runs' := by
  have e : ∀ t t' : MapTable k, (∀ a b, t.counts a b = t'.counts a b) → (∀ a, t.unmapped a = t'.unmapped a) → t = t' := by
    intro t t' h1 h2
    cases t; cases t'
    simp only [MapTable.mk.injEq]
    exact ⟨funext fun a => funext fun b => h1 a b, funext fun a => h2 a⟩
  apply e
  · intro a b
    rw [(C32_counts runs a b).1, (C32_counts runs' a b).1, h.countP_eq]
  · intro a
    rw [(C32_counts runs a a).2, (C32_counts runs' a a).2, h.countP_eq]

/-- Non-trivial case: three runs of two factors. -/
example : let e (m : Fin 2) (b : Bool) : MapEntry 2 ℕ := ⟨m, none, b⟩
    let t := buildTable [![e 0 true, e 0 true], ![e 1 true, e 1 false], ![e 0 true, e 1 true]]
    t.counts 0 0 = 2 ∧ t.counts 0 1 = 1 ∧ t.unmapped 0 = 0 ∧ t.counts 1 0 = 1 ∧ t.counts 1 1 = 1 ∧ t.unmapped 1 = 1 := by
  decide +kernel

end

/-! ## C78 -/

section
variable {K : Type*} [Field K] [LinearOrder K] [IsStrictOrderedRing K] {k n : ℕ}

/-- Compiling the results changes the profile matrices of the trained models only at entries below the cut-off, which
become zero. -/
theorem C78_bounded_partial (eps : K) (H : Mat k n K) (hH : ∀ i j, 0 ≤ H i j) (i : Fin k) (j : Fin n) :
    0 ≤ truncateProfiles eps H i j ∧ |truncateProfiles eps H i j - H i j| ≤ max eps 0 ∧
      (eps ≤ H i j → truncateProfiles eps H i j = H i j) := by
  unfold truncateProfiles
  split
  · rename_i h
    refine ⟨le_rfl, ?_, fun h' => absurd h (not_lt.2 h')⟩
    rw [zero_sub, abs_neg, abs_of_nonneg (hH i j)]
    exact le_max_of_le_left h.le
  · exact ⟨hH i j, by simp, fun _ => rfl⟩

/-- **Disagreement.** The profile matrix of a trained bootstrap model is changed whenever it has an entry strictly between
0 and the cut-off, so the stored model no longer is the trained one. -/
theorem C78_refuted (eps : K) (H : Mat k n K) (i : Fin k) (j : Fin n) (h0 : 0 < H i j) (h1 : H i j < eps) :
    truncateProfiles eps H ≠ H := by
  intro h
  have := congrFun (congrFun h i) j
  rw [truncateProfiles, if_pos h1] at this
  exact absurd this.symm h0.ne'

/-- Exactly which profile matrices are left as they were, for entries of any sign: those whose entries are zero or at least the
cut-off. -/
theorem C78_iff_partial (eps : K) (H : Mat k n K) :
    truncateProfiles eps H = H ↔ ∀ i j, H i j = 0 ∨ eps ≤ H i j := by
  constructor
  · intro h i j
    have h1 := congrFun (congrFun h i) j
    unfold truncateProfiles at h1
    split at h1
    · exact .inl h1.symm
    · rename_i hc
      exact .inr (not_lt.1 hc)
  · intro h
    funext i j
    unfold truncateProfiles
    rcases h i j with h0 | h0
    · rw [h0]
      simp
    · rw [if_neg (not_lt.2 h0)]

example : truncateProfiles (K := ℚ) (1/100000000) ![![1/1000000000, 3]] = ![![0, 3]] := by decide +kernel

end

/-- Case for `C29_plain` and `C30_plain`: three rows. -/
example : (∃ d u w idx, plainResample [10, 11, 12] [20, 21, 22] [0, 1, 2] (fun i => 2 * i + 1) = some (d, u, w, idx) ∧
      IsBlockResample 1 [10, 11, 12] [20, 21, 22] [0, 1, 2] d u w idx) ∧
    ∃ r d u w idx, plainResample [10, 11, 12] [20, 21, 22] [0, 1, 2] r = some (d, u, w, idx) ∧ 2 ∈ idx :=
  ⟨C29_plain _ _ _ _ rfl rfl (by simp), C30_plain [10, 11, 12] [20, 21, 22] [0, 1, 2] rfl rfl 2 (by decide)⟩

/-- Case for `C31_contributions_eq_profiles`: the contributions of the second model are twice those of the first one. -/
example : mapContributions (K := ℚ) (m := 2) (k := 2) (n := 2) ![![1, 2], ![3, 4]] ![![1, 0], ![0, 1]] ![![2, 4], ![6, 8]] ![![1, 1], ![0, 1]] (1 / 2)
    = mapFactors ![![1, 0], ![0, 1]] ![![1, 1], ![0, 1]] (1 / 2) :=
  C31_contributions_eq_profiles _ _ _ _ _ (by intro i; fin_cases i <;> decide +kernel) (by intro i; fin_cases i <;> decide +kernel)

end Esat
