import Verif.Props.Recombinator
import Verif.Lemmas.Correlation

/-!
# C209: the rule of Politis and White

What the block length is in terms of auto-correlations and auto-covariances written out (`esat/model/recombinator.py`).
-/

namespace Esat

/-! ### The number of lags -/

theorem blockKn_eq (n : ℕ) (hn : n < 10 ^ 36) : blockKn n = 5 := by
  unfold blockKn
  have h : Real.sqrt (Real.logb 10 n) < 6 := by
    rw [Real.sqrt_lt' (by norm_num)]
    rcases Nat.eq_zero_or_pos n with rfl | h0
    · simp
    · rw [Real.logb_lt_iff_lt_rpow (by norm_num) (by exact_mod_cast h0)]
      have : ((6 : ℝ) ^ 2) = ((36 : ℕ) : ℝ) := by norm_num
      rw [this, Real.rpow_natCast]
      exact_mod_cast hn
  rw [Nat.floor_eq_iff (by positivity)]
  exact ⟨by exact_mod_cast le_max_left _ _, by push_cast; exact max_lt (by norm_num) (by linarith)⟩

theorem blockMMax_eq (n : ℕ) (hn : n < 10 ^ 36) : blockMMax n = ⌈Real.sqrt n⌉₊ + 5 := by
  unfold blockMMax
  rw [blockKn_eq n hn]

/-- **C209.** Series with at most ten values have no block length: fewer than two rows are left for the correlations. -/
theorem C209_short (n : ℕ) (hn : n ≤ 10) (data : ℕ → ℝ) : blockLength n data = none := by
  cases h : mHat (blockThr n) (acorr n data) (blockKn n) (blockMMax n) with
  | none => unfold blockLength; rw [h]; rfl
  | some mh =>
    exfalso
    have h2 := mHat_rows n data mh h
    rw [blockMMax_eq n (by omega)] at h2
    have h7 : 7 ≤ n := by omega
    have h3 : 2 < ⌈Real.sqrt n⌉₊ := by
      rw [Nat.lt_ceil]
      push_cast
      rw [Real.lt_sqrt (by norm_num)]
      have : (7 : ℝ) ≤ n := by exact_mod_cast h7
      linarith
    have h10 : n = 10 := by omega
    subst h10
    have h4 : 3 < ⌈Real.sqrt (10 : ℕ)⌉₊ := by
      rw [Nat.lt_ceil]
      push_cast
      rw [Real.lt_sqrt (by norm_num)]
      norm_num
    omega

/-- With at most ten samples the block size of the data handler is a fifth of the number of features, whatever the data are. -/
theorem C209_short_block (n : ℕ) (h0 : 0 < n) (hn : n ≤ 10) (cols : List (ℕ → ℝ)) (hne : cols ≠ []) :
    optimalBlock n cols = ((cols.length / 5 : ℕ) : ℤ) := by
  obtain ⟨c, hc⟩ := List.exists_mem_of_ne_nil _ hne
  exact (C93_partial n h0 cols).2.2 ⟨c, hc, fun sb b h => by rw [C209_short n hn] at h; simp at h⟩

/-! ### Correlations and covariances written out -/

/-- Mean of `x[M - p], …, x[n - 1 - p]`. -/
noncomputable def serMean (x : ℕ → ℝ) (M n p : ℕ) : ℝ := (∑ t ∈ Finset.Ico M n, x (t - p)) / (n - M : ℕ)

/-- Sum of the products of the deviations of the series and of the series shifted by `p`. -/
noncomputable def serProd (x : ℕ → ℝ) (M n p q : ℕ) : ℝ :=
  ∑ t ∈ Finset.Ico M n, (x (t - p) - serMean x M n p) * (x (t - q) - serMean x M n q)

theorem sum_Ico_fin (f : ℕ → ℝ) (M n : ℕ) : ∑ t ∈ Finset.Ico M n, f t = ∑ i : Fin (n - M), f (M + i) := by
  rw [Finset.sum_Ico_eq_sum_range, Finset.sum_range]

theorem lagCol_eq (n : ℕ) (x : ℕ → ℝ) (M j : ℕ) (hj : j < M) (t : Fin (n - M)) : lagCol n x M j t = x (M + t - (j + 1)) := by
  unfold lagCol
  rw [C58_series n x M 0 (M + t) j (by omega) hj, if_pos (by omega)]

theorem scov_shift (x : ℕ → ℝ) (M n p q : ℕ) (u v : Fin (n - M) → ℝ) (hu : ∀ t : Fin (n - M), u t = x (M + t - p)) (hv : ∀ t : Fin (n - M), v t = x (M + t - q)) :
    scov u v = serProd x M n p q := by
  unfold scov serProd
  rw [sum_Ico_fin]
  have m1 : vmean u = serMean x M n p := by
    unfold vmean serMean
    rw [sum_Ico_fin fun t => x (t - p)]
    simp [hu]
  have m2 : vmean v = serMean x M n q := by
    unfold vmean serMean
    rw [sum_Ico_fin fun t => x (t - q)]
    simp [hv]
  simp only [m1, m2, hu, hv]

/-- `r` is the correlation of the series with the series `L` steps before, both without the first `M` times. -/
def IsAutoCorr (x : ℕ → ℝ) (M n L : ℕ) (r : ℝ) : Prop :=
  0 < serProd x M n 0 0 ∧ 0 < serProd x M n L L ∧ r * Real.sqrt (serProd x M n 0 0 * serProd x M n L L) = serProd x M n 0 L

theorem serProd_self_nonneg (x : ℕ → ℝ) (M n p : ℕ) : 0 ≤ serProd x M n p p :=
  Finset.sum_nonneg fun _ _ => mul_self_nonneg _

theorem acorr_iff (n : ℕ) (x : ℕ → ℝ) (j : ℕ) (hj : j < blockMMax n) (r : ℝ) :
    acorr n x j = some r ↔ IsAutoCorr x (blockMMax n) n (j + 1) r := by
  unfold acorr corr IsAutoCorr
  have e1 := scov_shift x (blockMMax n) n 0 0 (dataCol n x (blockMMax n)) (dataCol n x (blockMMax n)) (fun t => rfl) (fun t => rfl)
  have e2 := scov_shift x (blockMMax n) n 0 (j + 1) (dataCol n x (blockMMax n)) (lagCol n x (blockMMax n) j) (fun t => rfl)
    (lagCol_eq n x _ j hj)
  have e3 := scov_shift x (blockMMax n) n (j + 1) (j + 1) (lagCol n x (blockMMax n) j) (lagCol n x (blockMMax n) j)
    (lagCol_eq n x _ j hj) (lagCol_eq n x _ j hj)
  rw [e1, e2, e3]
  have p0 := serProd_self_nonneg x (blockMMax n) n 0
  have p1 := serProd_self_nonneg x (blockMMax n) n (j + 1)
  by_cases h : serProd x (blockMMax n) n 0 0 = 0 ∨ serProd x (blockMMax n) n (j + 1) (j + 1) = 0
  · rw [if_pos h]
    constructor
    · intro h'; simp at h'
    · rintro ⟨h1, h2, -⟩
      rcases h with h | h
      · exact absurd h h1.ne'
      · exact absurd h h2.ne'
  · rw [if_neg h]
    push Not at h
    have h1 := lt_of_le_of_ne p0 (Ne.symm h.1)
    have h2 := lt_of_le_of_ne p1 (Ne.symm h.2)
    have hs : 0 < Real.sqrt (serProd x (blockMMax n) n 0 0 * serProd x (blockMMax n) n (j + 1) (j + 1)) := Real.sqrt_pos.2 (mul_pos h1 h2)
    rw [Option.some.injEq, div_eq_iff hs.ne']
    exact ⟨fun e => ⟨h1, h2, e.symm⟩, fun e => e.2.2.symm⟩

/-- Auto-covariance at lag `L` from the times `m, …, n - 1`. -/
noncomputable def serCov (x : ℕ → ℝ) (m n L : ℕ) : ℝ := serProd x m n 0 L / ((n : ℝ) - m - 1)

theorem acov_eq (n : ℕ) (x : ℕ → ℝ) (m L : ℕ) (hmn : m ≤ n) (hL : L ≤ m) : acov n x m L = serCov x m n L := by
  unfold serCov
  cases L with
  | zero =>
    show scov (dataCol n x m) (dataCol n x m) / _ = _
    rw [scov_shift x m n 0 0 (dataCol n x m) (dataCol n x m) (fun t => rfl) (fun t => rfl), Nat.cast_sub hmn]
  | succ j =>
    show scov (dataCol n x m) (lagCol n x m j) / _ = _
    rw [scov_shift x m n 0 (j + 1) (dataCol n x m) (lagCol n x m j) (fun t => rfl) (lagCol_eq n x m j (by omega)), Nat.cast_sub hmn]

theorem sum_lagsAll (m : ℕ) (f : ℤ → ℝ) : ((lagsAll m).map f).sum = ∑ k ∈ Finset.Icc (-(m : ℤ)) m, f k := by
  have hnd : (lagsAll m).Nodup := by
    unfold lagsAll
    refine List.Nodup.map ?_ List.nodup_range
    intro a b hab
    simp only at hab
    omega
  rw [← List.sum_toFinset _ hnd]
  refine Finset.sum_congr ?_ fun _ _ => rfl
  ext k
  simp only [lagsAll, List.mem_toFinset, List.mem_map, List.mem_range, Finset.mem_Icc]
  constructor
  · rintro ⟨i, hi, rfl⟩
    omega
  · intro hk
    exact ⟨(k + m).toNat, by omega, by omega⟩

/-- The kernel: one up to one half, then the straight line to zero at one. -/
noncomputable def flatTop (k : ℝ) : ℝ := min 1 (max 0 (2 * (1 - |k|)))

theorem lam_flatTop (k : ℝ) : lam k = flatTop k := by
  unfold flatTop
  rw [lam_eq]
  split_ifs with h1 h2
  · rw [min_eq_left (le_max_of_le_right (by linarith))]
  · rw [max_eq_right (by linarith), min_eq_right (by push Not at h1; linarith)]
  · rw [max_eq_left (by push Not at h2; linarith), min_eq_right (by norm_num)]

theorem zipWith_lags (n : ℕ) (x : ℕ → ℝ) (m : ℕ) (hmn : m ≤ n) (w : ℤ → ℝ) :
    (List.zipWith (fun (k : ℤ) c => w k * c) (lagsAll m) (acvAll n x m)).sum = ∑ k ∈ Finset.Icc (-(m : ℤ)) m, w k * serCov x m n k.natAbs := by
  rw [(C92_aligned n x m).2, List.zipWith_map_right, List.zipWith_self, ← sum_lagsAll]
  congr 1
  refine List.map_congr_left ?_
  intro k hk
  have : k.natAbs ≤ m := by
    unfold lagsAll at hk
    obtain ⟨i, hi, rfl⟩ := List.mem_map.1 hk
    rw [List.mem_range] at hi
    omega
  rw [acov_eq n x m _ hmn this]

/-- `Σ λ(k / m) |k| R(k)` over the lags from `-m` to `m`. -/
noncomputable def pwG (x : ℕ → ℝ) (n m : ℕ) : ℝ := ∑ k ∈ Finset.Icc (-(m : ℤ)) m, flatTop ((k : ℝ) / m) * |(k : ℝ)| * serCov x m n k.natAbs

/-- `Σ λ(k / m) R(k)` over the lags from `-m` to `m`. -/
noncomputable def pwS (x : ℕ → ℝ) (n m : ℕ) : ℝ := ∑ k ∈ Finset.Icc (-(m : ℤ)) m, flatTop ((k : ℝ) / m) * serCov x m n k.natAbs

/-- `(c g² / s²)^(1/3) n^(1/3)`, at most `⌈min (3 √n) (n / 3)⌉`. -/
noncomputable def pwLen (n : ℕ) (c g s : ℝ) : ℝ :=
  min ((c * g ^ 2 / s ^ 2) ^ (1 / 3 : ℝ) * (n : ℝ) ^ (1 / 3 : ℝ)) ⌈min (3 * Real.sqrt n) ((n : ℝ) / 3)⌉

theorem blockFrom_eq (n : ℕ) (g s q c : ℝ) (hq : 0 < q) (hc : c * q = 2) (hs : s ≠ 0) : blockFrom n g (q * s ^ 2) = some (pwLen n c g s) := by
  have h2 : q * s ^ 2 ≠ 0 := mul_ne_zero hq.ne' (pow_ne_zero _ hs)
  unfold blockFrom pwLen
  rw [if_neg h2]
  simp only
  have e : 2 * g ^ 2 / (q * s ^ 2) = c * g ^ 2 / s ^ 2 := by
    rw [← hc]
    field_simp
  rw [e]
  congr 1
  show (if (⌈min (3 * Real.sqrt n) ((n : ℝ) / 3)⌉ : ℝ) < _ then _ else _) = _
  split_ifs with hlt
  · rw [min_eq_right hlt.le]; rfl
  · rw [min_eq_left (not_lt.1 hlt)]

theorem blockLength_of_mHat (n : ℕ) (x : ℕ → ℝ) (mh : ℕ) (h1 : 1 ≤ mh) (a1 : mHat (blockThr n) (acorr n x) (blockKn n) (blockMMax n) = some mh)
    (m : ℕ) (hm : m = min (blockMMax n) (2 * mh)) (hs : pwS x n m ≠ 0) :
    blockLength n x = some (some (pwLen n 1 (pwG x n m) (pwS x n m)), some (pwLen n (3 / 2) (pwG x n m) (pwS x n m))) := by
  have hrows := mHat_rows n x mh a1
  have h5 := blockKn_ge n
  have hM : blockKn n ≤ blockMMax n := by unfold blockMMax; omega
  have hmpos : 0 < m := by omega
  have hmn : m ≤ n := by omega
  have hg : gHat n x m = pwG x n m := by
    unfold gHat pwG
    rw [zipWith_lags n x m hmn fun k => lam ((k : ℝ) / m) * |(k : ℝ)|]
    simp only [lam_flatTop]
  have hsx : sHat n x m = pwS x n m := by
    unfold sHat pwS
    rw [zipWith_lags n x m hmn fun k => lam ((k : ℝ) / m)]
    simp only [lam_flatTop]
  unfold blockLength
  rw [a1, Option.map_some]
  simp only [C92_bandwidth, ← hm]
  rw [if_pos hmpos, hg, hsx, blockFrom_eq n _ _ 2 1 (by norm_num) (by norm_num) hs, blockFrom_eq n _ _ (4 / 3) (3 / 2) (by norm_num) (by norm_num) hs]

/-- **C209.** Let `M = ⌈√n⌉ + 5` and let `m₁` be the first lag such that at it and at the next four lags the auto-correlations are below
`2 √(log₁₀ n / n)` in absolute value. Then the bandwidth is `m = min M (2 m₁)` and the lengths for the stationary and the circular bootstrap are
`(g² n / s²)^(1/3)` and `(3/2 g² n / s²)^(1/3)` up to the bound, if `s` is not zero. -/
theorem C209_rule (n : ℕ) (hn : n < 10 ^ 36) (x : ℕ → ℝ) (M : ℕ) (hM : M = ⌈Real.sqrt n⌉₊ + 5) (r : ℕ → ℝ)
    (hr : ∀ L, 1 ≤ L → L ≤ M → IsAutoCorr x M n L (r L)) (m1 : ℕ) (h1 : 1 ≤ m1) (h1M : m1 + 4 ≤ M)
    (hrun : ∀ i < 5, |r (m1 + i)| < 2 * Real.sqrt (Real.logb 10 n / n))
    (hfirst : ∀ m', 1 ≤ m' → m' < m1 → ∃ i < 5, 2 * Real.sqrt (Real.logb 10 n / n) ≤ |r (m' + i)|)
    (m : ℕ) (hm : m = min M (2 * m1)) (hs : pwS x n m ≠ 0) :
    blockLength n x = some (some (pwLen n 1 (pwG x n m) (pwS x n m)), some (pwLen n (3 / 2) (pwG x n m) (pwS x n m))) := by
  have hMM : blockMMax n = M := by rw [blockMMax_eq n hn, hM]
  have hkn := blockKn_eq n hn
  have hac : ∀ j < M, acorr n x j = some (r (j + 1)) := by
    intro j hj
    rw [acorr_iff n x j (by omega), hMM]
    exact hr (j + 1) (by omega) (by omega)
  have hins : ∀ j < M, (insig (blockThr n) (acorr n x j) = true ↔ |r (j + 1)| < 2 * Real.sqrt (Real.logb 10 n / n)) := by
    intro j hj
    rw [hac j hj]
    simp [insig, blockThr]
  obtain ⟨mh, a1, a2, a3, a4, a5⟩ := C92_run (blockThr n) (acorr n x) 5 M (by omega) (m1 - 1) (by omega) (by
    intro i hi
    rw [hins _ (by omega), show m1 - 1 + i + 1 = m1 + i by omega]
    exact hrun i hi)
  have hmh : mh = m1 := by
    by_contra hne
    obtain ⟨i, hi, hle⟩ := hfirst mh a2 (by omega)
    have := a4 i hi
    rw [hins _ (by omega), show mh - 1 + i + 1 = mh + i by omega] at this
    exact absurd this (not_lt.2 hle)
  subst hmh
  exact blockLength_of_mHat n x mh h1 (by rw [hkn, hMM]; exact a1) m (by rw [hMM, hm]) hs

/-- **C209.** If there is no such run, let `L` be the last lag with an auto-correlation above `2 √(log₁₀ n / n)` in absolute value. **Disagreement** with the
comment in the code ("pick largest significant lag"): the bandwidth comes from `L - 1`. -/
theorem C209_no_run (n : ℕ) (hn : n < 10 ^ 36) (x : ℕ → ℝ) (M : ℕ) (hM : M = ⌈Real.sqrt n⌉₊ + 5) (r : ℕ → ℝ)
    (hr : ∀ L, 1 ≤ L → L ≤ M → IsAutoCorr x M n L (r L))
    (hno : ∀ m', 1 ≤ m' → m' + 4 ≤ M → ∃ i < 5, 2 * Real.sqrt (Real.logb 10 n / n) ≤ |r (m' + i)|)
    (L : ℕ) (hL : 2 ≤ L) (hLM : L ≤ M) (hsig : 2 * Real.sqrt (Real.logb 10 n / n) < |r L|)
    (hlast : ∀ L', L < L' → L' ≤ M → |r L'| ≤ 2 * Real.sqrt (Real.logb 10 n / n))
    (m : ℕ) (hm : m = min M (2 * (L - 1))) (hs : pwS x n m ≠ 0) :
    blockLength n x = some (some (pwLen n 1 (pwG x n m) (pwS x n m)), some (pwLen n (3 / 2) (pwG x n m) (pwS x n m))) := by
  have hMM : blockMMax n = M := by rw [blockMMax_eq n hn, hM]
  have hkn := blockKn_eq n hn
  have hac : ∀ j < M, acorr n x j = some (r (j + 1)) := by
    intro j hj
    rw [acorr_iff n x j (by omega), hMM]
    exact hr (j + 1) (by omega) (by omega)
  refine blockLength_of_mHat n x (L - 1) (by omega) ?_ m (by rw [hMM, hm]) hs
  rw [hkn, hMM]
  refine C92_largest_refuted (blockThr n) (acorr n x) 5 M (by omega) ?_ L (by omega) hLM ?_ ?_
  · intro s hs'
    obtain ⟨i, hi, hle⟩ := hno (s + 1) (by omega) (by omega)
    refine ⟨i, hi, ?_⟩
    rw [hac _ (by omega), show s + i + 1 = s + 1 + i by omega]
    simpa [insig, blockThr] using hle
  · rw [hac _ (by omega), show L - 1 + 1 = L by omega]
    simpa [signif, blockThr] using hsig
  · intro L' h1 h2
    rw [hac _ (by omega), show L' - 1 + 1 = L' by omega]
    simpa [signif, blockThr] using hlast L' h1 h2

/-! ### The two lengths -/

theorem pwLen_mono (n : ℕ) (g s c c' : ℝ) (hc : 0 ≤ c) (h : c ≤ c') : pwLen n c g s ≤ pwLen n c' g s := by
  unfold pwLen
  refine min_le_min_right _ (mul_le_mul_of_nonneg_right ?_ (by positivity))
  refine Real.rpow_le_rpow (by positivity) ?_ (by norm_num)
  rw [mul_div_assoc, mul_div_assoc]
  exact mul_le_mul_of_nonneg_right h (by positivity)

/-- **C209.** The two lengths are NaN together, and the one for the stationary bootstrap is never the larger one. -/
theorem C209_order (n : ℕ) (x : ℕ → ℝ) (sb cb : Option ℝ) (h : blockLength n x = some (sb, cb)) :
    (sb = none ↔ cb = none) ∧ ∀ a b, sb = some a → cb = some b → a ≤ b := by
  unfold blockLength at h
  obtain ⟨mh, -, h⟩ := Option.map_eq_some_iff.1 h
  simp only at h
  split at h
  · obtain ⟨rfl, rfl⟩ := Prod.mk.inj h
    by_cases hs : sHat n x (bandwidth (blockMMax n) mh) = 0
    · rw [hs]
      unfold blockFrom
      simp only [ne_eq, OfNat.ofNat_ne_zero, not_false_eq_true, zero_pow, mul_zero, if_true]
      split_ifs
      · simp
      · refine ⟨by simp, ?_⟩
        intro a b ha hb
        rw [Option.some.injEq] at ha hb
        exact (ha.symm.trans hb).le
    · rw [blockFrom_eq n _ _ 2 1 (by norm_num) (by norm_num) hs, blockFrom_eq n _ _ (4 / 3) (3 / 2) (by norm_num) (by norm_num) hs]
      refine ⟨by simp, ?_⟩
      intro a b ha hb
      rw [Option.some.injEq] at ha hb
      rw [← ha, ← hb]
      exact pwLen_mono n _ _ _ _ (by norm_num) (by norm_num)
  · obtain ⟨rfl, rfl⟩ := Prod.mk.inj h
    refine ⟨by simp, ?_⟩
    intro a b ha hb
    rw [Option.some.injEq] at ha hb
    exact (ha.symm.trans hb).le

/-! ### Change of units -/

theorem serProd_affine (x : ℕ → ℝ) (a b : ℝ) (M n p q : ℕ) : serProd (fun t => a * x t + b) M n p q = a ^ 2 * serProd x M n p q := by
  rcases Nat.lt_or_ge M n with h | h
  · have hN : ((n - M : ℕ) : ℝ) ≠ 0 := by exact_mod_cast (by omega : n - M ≠ 0)
    have hm : ∀ p, serMean (fun t => a * x t + b) M n p = a * serMean x M n p + b := by
      intro p
      unfold serMean
      rw [Finset.sum_add_distrib, ← Finset.mul_sum, Finset.sum_const, Nat.card_Ico, nsmul_eq_mul]
      field_simp
    unfold serProd
    rw [hm, hm, Finset.mul_sum]
    exact Finset.sum_congr rfl fun t _ => by ring
  · unfold serProd
    rw [Finset.Ico_eq_empty (by omega)]
    simp

theorem isAutoCorr_affine (x : ℕ → ℝ) (a b : ℝ) (ha : a ≠ 0) (M n L : ℕ) (r : ℝ) :
    IsAutoCorr (fun t => a * x t + b) M n L r ↔ IsAutoCorr x M n L r := by
  have h2 : 0 < a ^ 2 := by positivity
  unfold IsAutoCorr
  simp only [serProd_affine]
  rw [mul_pos_iff_of_pos_left h2, mul_pos_iff_of_pos_left h2]
  refine and_congr_right fun _ => and_congr_right fun _ => ?_
  rw [show a ^ 2 * serProd x M n 0 0 * (a ^ 2 * serProd x M n L L) = (a ^ 2) ^ 2 * (serProd x M n 0 0 * serProd x M n L L) by ring,
    Real.sqrt_mul (by positivity), Real.sqrt_sq h2.le, mul_left_comm]
  exact mul_right_inj' h2.ne'

theorem mHat_congr (thr : ℝ) (ρ ρ' : ℕ → Option ℝ) (kn mMax : ℕ) (hk : kn ≤ mMax) (h : ∀ j < mMax, ρ j = ρ' j) :
    mHat thr ρ kn mMax = mHat thr ρ' kn mMax := by
  have h1 : ((List.range (mMax - kn + 1)).filter fun s => decide (winCount thr ρ kn mMax s = kn)) =
      (List.range (mMax - kn + 1)).filter fun s => decide (winCount thr ρ' kn mMax s = kn) := by
    refine List.filter_congr ?_
    intro s hs
    rw [List.mem_range] at hs
    rw [decide_eq_decide, winCount_eq thr ρ kn mMax s (by omega) hk, winCount_eq thr ρ' kn mMax s (by omega) hk]
    exact forall₂_congr fun i hi => by rw [h (s + i) (by omega)]
  have h2 : ((List.range mMax).filter fun i => signif thr (ρ i)) = (List.range mMax).filter fun i => signif thr (ρ' i) :=
    List.filter_congr fun i hi => by rw [h i (List.mem_range.1 hi)]
  unfold mHat
  rw [h1, h2]

theorem blockFrom_scale (n : ℕ) (g s q e : ℝ) (he : e ≠ 0) : blockFrom n (e * g) (q * (e * s) ^ 2) = blockFrom n g (q * s ^ 2) := by
  unfold blockFrom
  have e1 : q * (e * s) ^ 2 = e ^ 2 * (q * s ^ 2) := by ring
  have e2 : 2 * (e * g) ^ 2 = e ^ 2 * (2 * g ^ 2) := by ring
  rw [e1, e2, mul_div_mul_left _ _ (pow_ne_zero 2 he)]
  simp [he]

/-- **C209.** The block length does not depend on the unit and the zero point of the values. -/
theorem C209_units (n : ℕ) (x : ℕ → ℝ) (a b : ℝ) (ha : a ≠ 0) : blockLength n (fun t => a * x t + b) = blockLength n x := by
  have hac : ∀ j < blockMMax n, acorr n (fun t => a * x t + b) j = acorr n x j := by
    intro j hj
    ext r
    rw [acorr_iff n _ j hj, acorr_iff n x j hj]
    exact isAutoCorr_affine x a b ha _ _ _ _
  have hk : blockKn n ≤ blockMMax n := by unfold blockMMax; omega
  unfold blockLength
  rw [mHat_congr _ _ _ _ _ hk hac]
  cases hmh : mHat (blockThr n) (acorr n x) (blockKn n) (blockMMax n) with
  | none => rfl
  | some mh =>
    have hrows := mHat_rows n x mh hmh
    have hb : bandwidth (blockMMax n) mh ≤ n := by rw [C92_bandwidth]; omega
    have hcov : ∀ L, serCov (fun t => a * x t + b) (bandwidth (blockMMax n) mh) n L = a ^ 2 * serCov x (bandwidth (blockMMax n) mh) n L := by
      intro L
      unfold serCov
      rw [serProd_affine, mul_div_assoc]
    have hg : gHat n (fun t => a * x t + b) (bandwidth (blockMMax n) mh) = a ^ 2 * gHat n x (bandwidth (blockMMax n) mh) := by
      unfold gHat
      rw [zipWith_lags n _ _ hb fun k => lam ((k : ℝ) / (bandwidth (blockMMax n) mh)) * |(k : ℝ)|,
        zipWith_lags n _ _ hb fun k => lam ((k : ℝ) / (bandwidth (blockMMax n) mh)) * |(k : ℝ)|, Finset.mul_sum]
      exact Finset.sum_congr rfl fun k _ => by rw [hcov]; ring
    have hs : sHat n (fun t => a * x t + b) (bandwidth (blockMMax n) mh) = a ^ 2 * sHat n x (bandwidth (blockMMax n) mh) := by
      unfold sHat
      rw [zipWith_lags n _ _ hb fun k => lam ((k : ℝ) / (bandwidth (blockMMax n) mh)),
        zipWith_lags n _ _ hb fun k => lam ((k : ℝ) / (bandwidth (blockMMax n) mh)), Finset.mul_sum]
      exact Finset.sum_congr rfl fun k _ => by rw [hcov]; ring
    have h2 : a ^ 2 ≠ 0 := pow_ne_zero 2 ha
    rw [Option.map_some, Option.map_some]
    simp only [hg, hs, blockFrom_scale n _ _ _ _ h2]

/-- So each feature can be given in its own unit without changing the block size. -/
theorem C209_units_block (n : ℕ) (cols : List (ℕ → ℝ)) (a b : (ℕ → ℝ) → ℝ) (ha : ∀ c ∈ cols, a c ≠ 0) :
    optimalBlock n (cols.map fun c t => a c * c t + b c) = optimalBlock n cols := by
  have : (cols.map fun c t => a c * c t + b c).mapM (fun c => (blockLength n c).bind (·.2)) = cols.mapM fun c => (blockLength n c).bind (·.2) := by
    induction cols with
    | nil => rfl
    | cons c cs ih =>
      rw [List.map_cons, List.mapM_cons, List.mapM_cons, ih fun c' h => ha c' (List.mem_cons_of_mem _ h), C209_units n c _ _ (ha c List.mem_cons_self)]
  unfold optimalBlock
  rw [this, List.length_map]

/-! ### A concrete series -/

/-- A single peak at time 50. -/
noncomputable def peak : ℕ → ℝ := fun t => if t = 50 then 1 else 0

theorem peak_prod (M n p q : ℕ) (h1 : M ≤ 50) (hp : 50 + p < n) (hq : 50 + q < n) :
    serProd peak M n p q = (if p = q then 1 else 0) - 1 / (n - M : ℕ) := by
  have hN : ((n - M : ℕ) : ℝ) ≠ 0 := by exact_mod_cast (by omega : n - M ≠ 0)
  have hsum : ∀ p, 50 + p < n → ∑ t ∈ Finset.Ico M n, peak (t - p) = 1 := by
    intro p hp
    rw [Finset.sum_eq_single (50 + p)]
    · unfold peak; rw [if_pos (by omega)]
    · intro t _ ht; unfold peak; rw [if_neg (by omega)]
    · intro h; exact absurd (Finset.mem_Ico.2 ⟨by omega, by omega⟩) h
  have hm : ∀ p, 50 + p < n → serMean peak M n p = 1 / (n - M : ℕ) := by
    intro p hp
    unfold serMean
    rw [hsum p hp]
  have hpp : ∑ t ∈ Finset.Ico M n, peak (t - p) * peak (t - q) = if p = q then 1 else 0 := by
    split_ifs with h
    · subst h
      rw [← hsum p hp]
      refine Finset.sum_congr rfl fun t _ => ?_
      unfold peak
      split_ifs <;> simp
    · refine Finset.sum_eq_zero fun t _ => ?_
      unfold peak
      by_cases h3 : t - p = 50
      · rw [if_neg (show ¬ t - q = 50 by omega), mul_zero]
      · rw [if_neg h3, zero_mul]
  unfold serProd
  rw [hm p hp, hm q hq]
  have : ∀ t, (peak (t - p) - 1 / (n - M : ℕ)) * (peak (t - q) - 1 / (n - M : ℕ)) =
      peak (t - p) * peak (t - q) - 1 / (n - M : ℕ) * peak (t - p) - 1 / (n - M : ℕ) * peak (t - q) + 1 / (n - M : ℕ) * (1 / (n - M : ℕ)) := by
    intro t; ring
  simp only [this]
  rw [Finset.sum_add_distrib, Finset.sum_sub_distrib, Finset.sum_sub_distrib, ← Finset.mul_sum, ← Finset.mul_sum, hpp, hsum p hp, hsum q hq,
    Finset.sum_const, Nat.card_Ico, nsmul_eq_mul]
  field_simp
  ring

/-- Non-trivial case: 100 values with a single peak. All auto-correlations are `-1/84`, so the bandwidth is two. -/
example : blockLength 100 peak = some (some (pwLen 100 1 (pwG peak 100 2) (pwS peak 100 2)), some (pwLen 100 (3 / 2) (pwG peak 100 2) (pwS peak 100 2))) := by
  have h10 : ⌈Real.sqrt (100 : ℕ)⌉₊ = 10 := by
    rw [show ((100 : ℕ) : ℝ) = 10 ^ 2 by norm_num, Real.sqrt_sq (by norm_num)]
    exact_mod_cast Nat.ceil_natCast (R := ℝ) 10
  have hlog : Real.logb 10 ((100 : ℕ) : ℝ) = 2 := by
    rw [show ((100 : ℕ) : ℝ) = (10 : ℝ) ^ (2 : ℝ) by norm_num, Real.logb_rpow (by norm_num) (by norm_num)]
  refine C209_rule 100 (by norm_num) peak 15 (by rw [h10]) (fun _ => -1 / 84) ?_ 1 (by norm_num) (by norm_num) ?_ ?_ 2 (by norm_num) ?_
  · intro L h1 h2
    unfold IsAutoCorr
    rw [peak_prod 15 100 0 0 (by norm_num) (by norm_num) (by norm_num), peak_prod 15 100 L L (by norm_num) (by omega) (by omega),
      peak_prod 15 100 0 L (by norm_num) (by norm_num) (by omega), if_pos rfl, if_pos rfl, if_neg (by omega)]
    refine ⟨by norm_num, by norm_num, ?_⟩
    rw [Real.sqrt_mul_self (by norm_num)]
    norm_num
  · intro i _
    rw [hlog]
    have : (1 / 84 : ℝ) < Real.sqrt (2 / ((100 : ℕ) : ℝ)) := by
      rw [Real.lt_sqrt (by norm_num)]
      norm_num
    rw [show |(-1 / 84 : ℝ)| = 1 / 84 by rw [abs_of_neg] <;> norm_num]
    linarith
  · intro m' h1 h2
    omega
  · unfold pwS
    have hI : Finset.Icc (-((2 : ℕ) : ℤ)) ((2 : ℕ) : ℤ) = {-2, -1, 0, 1, 2} := by decide
    rw [hI]
    have c0 : serCov peak 2 100 0 = 1 / 98 := by
      unfold serCov
      rw [peak_prod 2 100 0 0 (by norm_num) (by norm_num) (by norm_num), if_pos rfl]
      norm_num
    have c1 : serCov peak 2 100 1 = -1 / 98 / 97 := by
      unfold serCov
      rw [peak_prod 2 100 0 1 (by norm_num) (by norm_num) (by norm_num), if_neg (by norm_num)]
      norm_num
    have c2 : serCov peak 2 100 2 = -1 / 98 / 97 := by
      unfold serCov
      rw [peak_prod 2 100 0 2 (by norm_num) (by norm_num) (by norm_num), if_neg (by norm_num)]
      norm_num
    simp [c0, c1, c2, flatTop]
    norm_num

/-- The values increase by one. -/
def trend : ℕ → ℝ := fun t => t

theorem trend_prod (p q : ℕ) (hp : p ≤ 15) (hq : q ≤ 15) : serProd trend 15 100 p q = serProd trend 15 100 0 0 := by
  have hm : ∀ p ≤ 15, serMean trend 15 100 p = serMean trend 15 100 0 - p := by
    intro p hp
    unfold serMean
    have : ∑ t ∈ Finset.Ico 15 100, trend (t - p) = ∑ t ∈ Finset.Ico 15 100, (trend (t - 0) - p) := by
      refine Finset.sum_congr rfl fun t ht => ?_
      rw [Finset.mem_Ico] at ht
      unfold trend
      rw [Nat.cast_sub (by omega), Nat.sub_zero]
    rw [this, Finset.sum_sub_distrib, Finset.sum_const, Nat.card_Ico, nsmul_eq_mul]
    norm_num
    ring
  unfold serProd
  refine Finset.sum_congr rfl fun t ht => ?_
  rw [Finset.mem_Ico] at ht
  rw [hm p hp, hm q hq]
  have : ∀ p ≤ 15, trend (t - p) = trend (t - 0) - p := by
    intro p hp
    unfold trend
    rw [Nat.cast_sub (by omega), Nat.sub_zero]
  rw [this p hp, this q hq]
  ring

theorem trend_pos : 0 < serProd trend 15 100 0 0 := by
  refine lt_of_le_of_ne (serProd_self_nonneg _ _ _ _) ?_
  intro h
  unfold serProd at h
  have h' := (Finset.sum_eq_zero_iff_of_nonneg fun t _ => mul_self_nonneg _).1 h.symm
  have h1 := h' 15 (by simp)
  have h2 := h' 16 (by simp)
  rw [mul_self_eq_zero] at h1 h2
  unfold trend at h1 h2
  norm_num at h1 h2
  linarith

/-- Non-trivial case: 100 increasing values. All auto-correlations are one; the last significant lag is `15 = M`, the bandwidth is 15. -/
example : blockLength 100 trend =
    some (some (pwLen 100 1 (pwG trend 100 15) (pwS trend 100 15)), some (pwLen 100 (3 / 2) (pwG trend 100 15) (pwS trend 100 15))) := by
  have h10 : ⌈Real.sqrt (100 : ℕ)⌉₊ = 10 := by
    rw [show ((100 : ℕ) : ℝ) = 10 ^ 2 by norm_num, Real.sqrt_sq (by norm_num)]
    exact_mod_cast Nat.ceil_natCast (R := ℝ) 10
  have hlog : Real.logb 10 ((100 : ℕ) : ℝ) = 2 := by
    rw [show ((100 : ℕ) : ℝ) = (10 : ℝ) ^ (2 : ℝ) by norm_num, Real.logb_rpow (by norm_num) (by norm_num)]
  have hthr : 2 * Real.sqrt (2 / ((100 : ℕ) : ℝ)) < 1 := by
    have : Real.sqrt (2 / ((100 : ℕ) : ℝ)) < 1 / 2 := by
      rw [Real.sqrt_lt' (by norm_num)]
      norm_num
    linarith
  refine C209_no_run 100 (by norm_num) trend 15 (by rw [h10]) (fun _ => 1) ?_ ?_ 15 (by norm_num) (by norm_num) ?_ ?_ 15 (by norm_num) ?_
  · intro L h1 h2
    unfold IsAutoCorr
    rw [trend_prod L L h2 h2, trend_prod 0 L (by norm_num) h2, Real.sqrt_mul_self trend_pos.le]
    exact ⟨trend_pos, trend_pos, one_mul _⟩
  · intro m' _ _
    exact ⟨0, by norm_num, by rw [hlog, abs_one]; exact hthr.le⟩
  · rw [hlog, abs_one]
    exact hthr
  · intro L' h1 h2
    omega
  · unfold pwS
    have hcov : ∀ L ≤ 15, serCov trend 15 100 L = serCov trend 15 100 0 := by
      intro L hL
      unfold serCov
      rw [trend_prod 0 L (by norm_num) hL]
    have h0 : 0 < serCov trend 15 100 0 := by
      unfold serCov
      exact div_pos trend_pos (by norm_num)
    refine ne_of_gt (Finset.sum_pos' ?_ ⟨0, by simp, ?_⟩)
    · intro k hk
      rw [Finset.mem_Icc] at hk
      rw [hcov _ (by omega)]
      exact mul_nonneg (le_min zero_le_one (le_max_left _ _)) h0.le
    · rw [Int.natAbs_zero]
      refine mul_pos ?_ h0
      simp [flatTop]

end Esat
