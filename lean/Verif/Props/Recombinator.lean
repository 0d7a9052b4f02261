import Verif.Model.Recombinator
import Mathlib.Data.Rat.Defs
import Mathlib.Algebra.Order.Ring.Rat
import Mathlib.Algebra.Field.Rat
import Mathlib.Tactic.Linarith
import Mathlib.Tactic.NormNum
import Mathlib.Tactic.Positivity

/-!
# C57-C59, C92, C93: lag matrix, kernel and optimal block length
-/

namespace Esat

/-! ## C58 -/

section mlag
variable {K : Type*}

theorem lagInner (nobs : ℕ) (x : ℕ → ℕ → K) (i base : ℕ) (a : ℕ → ℕ → K) (n t c : ℕ) :
    (List.range n).foldl (fun a j => lagAssign nobs x i j (base + j) a) a t c =
      if base ≤ c ∧ c < base + n ∧ c - base + 1 ≤ t ∧ t < nobs then x (t - (c - base + 1)) i else a t c := by
  induction n with
  | zero =>
    rw [if_neg (by omega)]
    rfl
  | succ n ih =>
    rw [List.range_succ, List.foldl_append, List.foldl_cons, List.foldl_nil, lagAssign]
    by_cases hc : c = base + n
    · subst hc
      rw [show base + n - base = n by omega]
      by_cases ht : n + 1 ≤ t ∧ t < nobs
      · rw [if_pos ⟨rfl, ht⟩, if_pos ⟨by omega, by omega, ht⟩]
      · rw [if_neg (by tauto), if_neg (by tauto), ih, if_neg (by omega)]
    · rw [if_neg (by tauto), ih]
      by_cases h : base ≤ c ∧ c < base + n ∧ c - base + 1 ≤ t ∧ t < nobs
      · rw [if_pos h, if_pos ⟨h.1, by omega, h.2.2⟩]
      · rw [if_neg h, if_neg (by omega)]

theorem lagOuter (nobs : ℕ) (x : ℕ → ℕ → K) (n : ℕ) (init : K) (nvar : ℕ) :
    let s := (List.range nvar).foldl (fun (s : (ℕ → ℕ → K) × ℕ) i =>
      ((List.range n).foldl (fun a j => lagAssign nobs x i j (s.2 + j) a) s.1, s.2 + n)) (fun _ _ => init, 0)
    s.2 = nvar * n ∧ ∀ t < nobs, (∀ i < nvar, ∀ j < n, s.1 t (i * n + j) = if j + 1 ≤ t then x (t - (j + 1)) i else init) ∧
      ∀ c, nvar * n ≤ c → s.1 t c = init := by
  induction nvar with
  | zero => exact ⟨by simp, fun t _ => ⟨fun i hi => absurd hi (by omega), fun c _ => rfl⟩⟩
  | succ nvar ih =>
    obtain ⟨h1, h2⟩ := ih
    rw [List.range_succ, List.foldl_append, List.foldl_cons, List.foldl_nil]
    refine ⟨by simp only [h1]; ring, fun t ht => ⟨fun i hi j hj => ?_, fun c hc => ?_⟩⟩
    · simp only [lagInner, h1]
      by_cases hin : i = nvar
      · subst hin
        rw [show i * n + j - i * n = j by omega]
        by_cases hjt : j + 1 ≤ t
        · rw [if_pos ⟨by omega, by omega, hjt, ht⟩, if_pos hjt]
        · rw [if_neg (by omega), if_neg hjt, (h2 t ht).2 _ (by omega)]
      · have hlt : i * n + j < nvar * n := by
          have : (i + 1) * n ≤ nvar * n := Nat.mul_le_mul_right n (by omega)
          rw [Nat.add_mul, one_mul] at this
          omega
        rw [if_neg (by omega)]
        exact (h2 t ht).1 i (by omega) j hj
    · rw [Nat.add_mul, one_mul] at hc
      simp only [lagInner, h1]
      rw [if_neg (by omega)]
      exact (h2 t ht).2 c (by omega)

/-- Entry `(t, i * n + j)` of the lag matrix is `x[t - j - 1, i]` when that index exists and the fill value otherwise. -/
theorem C58_mlag (nobs nvar : ℕ) (x : ℕ → ℕ → K) (n : ℕ) (init : K) (t i j : ℕ) (ht : t < nobs) (hi : i < nvar) (hj : j < n) :
    mlag nobs nvar x n init t (i * n + j) = if j + 1 ≤ t then x (t - (j + 1)) i else init :=
  ((lagOuter nobs x n init nvar).2 t ht).1 i hi j hj

/-- The case of one series. -/
theorem C58_series (nobs : ℕ) (x : ℕ → K) (n : ℕ) (init : K) (t j : ℕ) (ht : t < nobs) (hj : j < n) :
    mlag nobs 1 (fun s _ => x s) n init t j = if j + 1 ≤ t then x (t - (j + 1)) else init := by
  have := C58_mlag nobs 1 (fun s _ => x s) n init t 0 j ht (by omega) hj
  rwa [zero_mul, zero_add] at this

example : (List.range 3).map (fun t => (List.range 2).map fun j => mlag 3 1 (fun s _ => 10 + s) 2 0 t j) =
    [[0, 0], [10, 0], [11, 10]] := by decide

end mlag

/-! ## C59 -/

section kernel
variable {K : Type*} [Field K] [LinearOrder K] [IsStrictOrderedRing K]

theorem lam_eq (k : K) : lam k = if |k| ≤ 1 / 2 then 1 else if |k| ≤ 1 then 2 * (1 - |k|) else 0 := by
  unfold lam
  rw [if_pos (abs_nonneg k)]
  rcases lt_trichotomy |k| (1 / 2) with h | h | h
  · rw [if_pos h, if_neg (not_le.2 h), if_pos h.le]
    ring
  · rw [if_neg (by rw [h]; exact lt_irrefl _), if_pos h.ge, if_pos (by rw [h]; norm_num), if_pos h.le, h]
    norm_num
  · rw [if_neg (not_lt.2 h.le), if_pos h.le, if_neg (not_le.2 h)]
    split <;> ring

/-- Even, one on `[-1/2, 1/2]`, zero outside `[-1, 1]`, in `[0, 1]`, non-increasing in the absolute value. -/
theorem C59_kernel :
    (∀ k : K, lam (-k) = lam k) ∧ (∀ k : K, |k| ≤ 1 / 2 → lam k = 1) ∧ (∀ k : K, 1 ≤ |k| → lam k = 0) ∧
    (∀ k : K, 0 ≤ lam k ∧ lam k ≤ 1) ∧ ∀ k l : K, |k| ≤ |l| → lam l ≤ lam k := by
  refine ⟨fun k => ?_, fun k h => ?_, fun k h => ?_, fun k => ?_, fun k l h => ?_⟩
  · unfold lam
    rw [abs_neg]
  · rw [lam_eq, if_pos h]
  · rw [lam_eq, if_neg (by linarith)]
    split
    · have : |k| = 1 := by linarith
      rw [this]
      ring
    · rfl
  · rw [lam_eq]
    split
    · exact ⟨zero_le_one, le_rfl⟩
    · split
      · constructor <;> linarith
      · exact ⟨le_rfl, zero_le_one⟩
  · rw [lam_eq, lam_eq]
    split <;> split <;> (try split) <;> (try split) <;> linarith

/-- Between one half and one the kernel is the straight line from one to zero. -/
theorem C59_slope (k : K) (h1 : 1 / 2 ≤ |k|) (h2 : |k| ≤ 1) : lam k = 2 * (1 - |k|) := by
  rw [lam_eq]
  split
  · have : |k| = 1 / 2 := by linarith
    rw [this]
    norm_num
  · simp only [h2, if_true]

example : lam (3 / 4 : ℚ) = 1 / 2 := by rw [C59_slope] <;> norm_num [abs_of_pos]

end kernel

/-! ## C92: choice of the bandwidth -/

section bandwidth

theorem blockKn_ge (n : ℕ) : 5 ≤ blockKn n := by
  unfold blockKn
  rw [Nat.le_floor_iff (by positivity)]
  exact_mod_cast le_max_left _ _

/-- All entries of a collection are insignificant exactly when the `kn` auto-correlations starting at its index are. -/
theorem winCount_eq (thr : ℝ) (ρ : ℕ → Option ℝ) (kn mMax s : ℕ) (hs : s ≤ mMax - kn) (hk : kn ≤ mMax) :
    winCount thr ρ kn mMax s = kn ↔ ∀ i < kn, insig thr (ρ (s + i)) = true := by
  have h1 : winCount thr ρ kn mMax s = kn ↔ ∀ j < kn, insig thr (winEntry ρ kn mMax j s) = true := by
    unfold winCount
    conv_lhs => rhs; rw [← List.length_range (n := kn)]
    rw [List.length_filter_eq_length_iff]
    simp
  rw [h1]
  unfold winEntry
  by_cases h : s + kn < mMax
  · simp only [if_pos h]
    constructor
    · intro hj i hi
      have := hj (kn - (i + 1)) (by omega)
      rw [C58_series mMax ρ kn (some 0) (s + kn) _ h (by omega), if_pos (by omega)] at this
      rwa [show s + kn - (kn - (i + 1) + 1) = s + i by omega] at this
    · intro hi j hj
      rw [C58_series mMax ρ kn (some 0) (s + kn) j h hj, if_pos (by omega),
        show s + kn - (j + 1) = s + (kn - (j + 1)) by omega]
      exact hi _ (by omega)
  · simp only [if_neg h]
    rw [show mMax - kn = s by omega]

/-- If some `kn` consecutive auto-correlations are insignificant, `m_hat` is the smallest lag (counted from one) at which such a
run starts. -/
theorem C92_run (thr : ℝ) (ρ : ℕ → Option ℝ) (kn mMax : ℕ) (hk : kn ≤ mMax) (s : ℕ) (hs : s ≤ mMax - kn)
    (hrun : ∀ i < kn, insig thr (ρ (s + i)) = true) :
    ∃ m, mHat thr ρ kn mMax = some m ∧ 1 ≤ m ∧ m ≤ s + 1 ∧ (∀ i < kn, insig thr (ρ (m - 1 + i)) = true) ∧
      ∀ m', 1 ≤ m' → m' < m → ∃ i < kn, insig thr (ρ (m' - 1 + i)) = false := by
  have hmem : s ∈ (List.range (mMax - kn + 1)).filter fun s => decide (winCount thr ρ kn mMax s = kn) := by
    rw [List.mem_filter, List.mem_range]
    exact ⟨by omega, by simpa using (winCount_eq thr ρ kn mMax s hs hk).2 hrun⟩
  have hsorted : ((List.range (mMax - kn + 1)).filter fun s => decide (winCount thr ρ kn mMax s = kn)).Pairwise (· < ·) :=
    List.Pairwise.filter _ List.pairwise_lt_range
  unfold mHat
  cases hl : (List.range (mMax - kn + 1)).filter fun s => decide (winCount thr ρ kn mMax s = kn) with
  | nil => rw [hl] at hmem; simp at hmem
  | cons s0 l =>
    rw [hl] at hmem hsorted
    rw [List.pairwise_cons] at hsorted
    have h0 : s0 ∈ (List.range (mMax - kn + 1)).filter fun s => decide (winCount thr ρ kn mMax s = kn) := by
      rw [hl]; exact List.mem_cons_self
    rw [List.mem_filter, List.mem_range] at h0
    have hle : ∀ a ∈ s0 :: l, s0 ≤ a := by
      intro a ha
      rcases List.mem_cons.1 ha with rfl | ha
      · exact le_rfl
      · exact (hsorted.1 a ha).le
    have h0le : s0 ≤ s := hle s hmem
    refine ⟨s0 + 1, rfl, by omega, by omega, ?_, ?_⟩
    · rw [Nat.add_sub_cancel]
      exact (winCount_eq thr ρ kn mMax s0 (by omega) hk).1 (by simpa using h0.2)
    · intro m' h1 h2
      by_contra hc
      push Not at hc
      have hc' : ∀ i < kn, insig thr (ρ (m' - 1 + i)) = true := by
        intro i hi
        have := hc i hi
        simpa using this
      have hm : m' - 1 ∈ s0 :: l := by
        rw [← hl, List.mem_filter, List.mem_range]
        exact ⟨by omega, by simpa using (winCount_eq thr ρ kn mMax (m' - 1) (by omega) hk).2 hc'⟩
      have := hle _ hm
      omega

/-- **Disagreement.** If no such run exists, the comment in the code promises the largest significant lag; the code returns the
position of that lag in the array, which is one less. -/
theorem C92_largest_refuted (thr : ℝ) (ρ : ℕ → Option ℝ) (kn mMax : ℕ) (hk : kn ≤ mMax)
    (hno : ∀ s ≤ mMax - kn, ∃ i < kn, insig thr (ρ (s + i)) = false) (L : ℕ) (hL1 : 1 ≤ L) (hLm : L ≤ mMax)
    (hL : signif thr (ρ (L - 1)) = true) (hlast : ∀ L', L < L' → L' ≤ mMax → signif thr (ρ (L' - 1)) = false) :
    mHat thr ρ kn mMax = some (L - 1) := by
  unfold mHat
  have hnil : ((List.range (mMax - kn + 1)).filter fun s => decide (winCount thr ρ kn mMax s = kn)) = [] := by
    rw [List.filter_eq_nil_iff]
    intro s hs
    rw [List.mem_range] at hs
    simp only [decide_eq_true_eq]
    intro hc
    obtain ⟨i, hi, hf⟩ := hno s (by omega)
    rw [(winCount_eq thr ρ kn mMax s (by omega) hk).1 hc i hi] at hf
    simp at hf
  rw [hnil]
  simp only [List.head?_nil]
  obtain ⟨d, hd⟩ : ∃ d, mMax = L + d := ⟨mMax - L, by omega⟩
  have hsplit : (List.range mMax).filter (fun i => signif thr (ρ i)) = (List.range L).filter fun i => signif thr (ρ i) := by
    rw [hd, List.range_add, List.filter_append]
    rw [show ((List.range d).map (L + ·)).filter (fun i => signif thr (ρ i)) = [] from ?_, List.append_nil]
    rw [List.filter_eq_nil_iff]
    intro i hi
    obtain ⟨e, he, rfl⟩ := List.mem_map.1 hi
    rw [List.mem_range] at he
    have := hlast (L + e + 1) (by omega) (by omega)
    rw [show L + e + 1 - 1 = L + e by omega] at this
    rw [this]
    simp
  rw [hsplit]
  obtain ⟨L0, rfl⟩ : ∃ L0, L = L0 + 1 := ⟨L - 1, by omega⟩
  rw [Nat.add_sub_cancel] at hL ⊢
  rw [List.range_succ, List.filter_append, List.filter_cons, if_pos hL, List.filter_nil, List.getLast?_append]
  simp

/-- The off-by-one has no effect on the bandwidth for long series: with at least six values per square root the bandwidth is
`m_max` for both values. -/
theorem C92_harmless (kn mMax r L : ℕ) (hm : mMax = r + kn) (hkn : kn ≤ 5) (hr : 6 ≤ r) (hL : r + 1 ≤ L) :
    bandwidth mMax (L - 1) = mMax ∧ bandwidth mMax L = mMax := by
  unfold bandwidth
  constructor <;> rw [if_pos (by omega)]

example : mHat 1 (fun i => if i % 2 = 0 then some 2 else some 0) 2 4 = some 2 := by
  refine C92_largest_refuted 1 _ 2 4 (by norm_num) ?_ 3 (by norm_num) (by norm_num) ?_ ?_
  · intro s hs
    rcases Nat.even_or_odd s with h | h
    · refine ⟨0, by norm_num, ?_⟩
      rw [Nat.even_iff] at h
      rw [add_zero, if_pos h]
      norm_num [insig]
    · refine ⟨1, by norm_num, ?_⟩
      rw [Nat.odd_iff] at h
      rw [if_pos (by omega)]
      norm_num [insig]
  · norm_num [signif]
  · intro L' h1 h2
    have : L' = 4 := by omega
    subst this
    norm_num [signif]

/-- The bandwidth never exceeds `m_max` and never twice `m_hat`. -/
theorem C92_bandwidth (mMax mh : ℕ) : bandwidth mMax mh = min mMax (2 * mh) := by
  unfold bandwidth
  split <;> omega

/-- Lags and auto-covariances are aligned: the value at lag `k` (from `-m` to `m`) is the auto-covariance for `|k|`. -/
theorem C92_aligned (n : ℕ) (data : ℕ → ℝ) (m : ℕ) :
    (acvAll n data m).length = (lagsAll m).length ∧ acvAll n data m = (lagsAll m).map fun k => acov n data m k.natAbs := by
  have h : acvAll n data m = (lagsAll m).map fun k => acov n data m k.natAbs := by
    apply List.ext_getElem?
    intro i
    unfold acvAll lagsAll
    rw [List.map_map, List.getElem?_map]
    by_cases h1 : i < m
    · rw [List.getElem?_append_left (by simpa using h1), List.getElem?_reverse (by simpa using h1), List.getElem?_map,
        List.getElem?_range (by simp; omega), List.getElem?_range (by omega)]
      simp only [List.length_map, List.length_range, Option.map_some, Function.comp, Option.some.injEq]
      congr 1
      omega
    · rw [List.getElem?_append_right (by simpa using h1), List.getElem?_map]
      simp only [List.length_reverse, List.length_map, List.length_range]
      by_cases h2 : i < 2 * m + 1
      · rw [List.getElem?_range (by omega), List.getElem?_range h2]
        simp only [Option.map_some, Function.comp, Option.some.injEq]
        congr 1
        omega
      · rw [List.getElem?_eq_none (by simp; omega), List.getElem?_eq_none (by simp; omega)]
        rfl
  exact ⟨by rw [h, List.length_map], h⟩

end bandwidth

/-! ## C57 -/

section block

theorem blockFrom_spec (n : ℕ) (hn : 0 < n) (g s q : ℝ) (hq : 0 < q) (b : ℝ) (h : blockFrom n g (q * s ^ 2) = some b) :
    0 ≤ b ∧ b ≤ blockBMax n ∧ (0 < b ↔ g ≠ 0) := by
  have hB : 0 < blockBMax n := by
    unfold blockBMax
    have : (0 : ℝ) < min (3 * Real.sqrt n) (n / 3) := by
      have : (0 : ℝ) < n := by exact_mod_cast hn
      apply lt_min <;> positivity
    exact_mod_cast Int.ceil_pos.2 this
  have hn' : (0 : ℝ) < n := by exact_mod_cast hn
  unfold blockFrom at h
  by_cases hd : q * s ^ 2 = 0
  · rw [if_pos hd] at h
    by_cases hg : g = 0
    · rw [if_pos hg] at h
      simp at h
    · rw [if_neg hg, Option.some.injEq] at h
      subst h
      exact ⟨hB.le, le_rfl, ⟨fun _ => hg, fun _ => hB⟩⟩
  · rw [if_neg hd] at h
    have hdpos : 0 < q * s ^ 2 := lt_of_le_of_ne (by positivity) (Ne.symm hd)
    simp only [Option.some.injEq] at h
    have hb0 : 0 ≤ (2 * g ^ 2 / (q * s ^ 2)) ^ (1 / 3 : ℝ) * (n : ℝ) ^ (1 / 3 : ℝ) := by positivity
    have hbpos : 0 < (2 * g ^ 2 / (q * s ^ 2)) ^ (1 / 3 : ℝ) * (n : ℝ) ^ (1 / 3 : ℝ) ↔ g ≠ 0 := by
      constructor
      · rintro hp rfl
        norm_num at hp
      · intro hg
        have : 0 < g ^ 2 := by positivity
        positivity
    split at h
    · rename_i hlt
      subst h
      refine ⟨hB.le, le_rfl, ⟨fun _ => ?_, fun _ => hB⟩⟩
      exact hbpos.1 (hB.trans hlt)
    · rename_i hlt
      subst h
      exact ⟨hb0, not_lt.1 hlt, hbpos⟩

theorem blockBMax_ge_one (n : ℕ) (hn : 0 < n) : 1 ≤ blockBMax n := by
  unfold blockBMax
  have : (0 : ℝ) < min (3 * Real.sqrt n) (n / 3) := by
    have : (0 : ℝ) < n := by exact_mod_cast hn
    apply lt_min <;> positivity
  exact_mod_cast Int.ceil_pos.2 this

/-- Every block length that is a number is non-negative and at most `ceil(min(3 sqrt n, n / 3))`. -/
theorem C57_bound (n : ℕ) (hn : 0 < n) (data : ℕ → ℝ) (p : Option ℝ × Option ℝ) (h : blockLength n data = some p) :
    (∀ b, p.1 = some b → 0 ≤ b ∧ b ≤ ⌈min (3 * Real.sqrt n) ((n : ℝ) / 3)⌉) ∧
    ∀ b, p.2 = some b → 0 ≤ b ∧ b ≤ ⌈min (3 * Real.sqrt n) ((n : ℝ) / 3)⌉ := by
  unfold blockLength at h
  rw [Option.map_eq_some_iff] at h
  obtain ⟨mh, _, hp⟩ := h
  simp only at hp
  split at hp
  · subst hp
    constructor
    · intro b hb
      have := blockFrom_spec n hn _ _ 2 (by norm_num) b hb
      exact ⟨this.1, this.2.1⟩
    · intro b hb
      have := blockFrom_spec n hn _ _ (4 / 3) (by norm_num) b hb
      exact ⟨this.1, this.2.1⟩
  · subst hp
    have h1 := blockBMax_ge_one n hn
    constructor <;> · intro b hb; simp only [Option.some.injEq] at hb; subst hb; exact ⟨zero_le_one, h1⟩

/-- Positivity: with bandwidth `m > 0`, the lengths are positive numbers exactly when the weighted sum `Σ λ(k/m) |k| R(k)` of the
auto-covariances does not vanish (data are degenerate otherwise: the result is zero or NaN). -/
theorem C57_positive (n : ℕ) (hn : 0 < n) (data : ℕ → ℝ) (mh : ℕ)
    (hmh : mHat (blockThr n) (acorr n data) (blockKn n) (blockMMax n) = some mh) (hm : 0 < mh) :
    ∃ sb cb, blockLength n data = some (sb, cb) ∧
      let m := min (blockMMax n) (2 * mh)
      let g := ((lagsAll m).map fun k : ℤ => lam ((k : ℝ) / m) * |(k : ℝ)| * acov n data m k.natAbs).sum
      ((∃ b, sb = some b ∧ 0 < b) ↔ g ≠ 0) ∧ ((∃ b, cb = some b ∧ 0 < b) ↔ g ≠ 0) := by
  have hk := blockKn_ge n
  have hbw : 0 < bandwidth (blockMMax n) mh := by
    rw [C92_bandwidth]
    unfold blockMMax
    omega
  unfold blockLength
  rw [hmh]
  simp only [Option.map_some, if_pos hbw, Option.some.injEq, Prod.mk.injEq]
  refine ⟨_, _, ⟨rfl, rfl⟩, ?_⟩
  rw [← C92_bandwidth]
  set m := bandwidth (blockMMax n) mh
  have hg : ((lagsAll m).map fun k : ℤ => lam ((k : ℝ) / m) * |(k : ℝ)| * acov n data m k.natAbs).sum = gHat n data m := by
    unfold gHat
    rw [(C92_aligned n data m).2, List.zipWith_map_right, List.zipWith_self]
  simp only [hg]
  have main : ∀ q : ℝ, 0 < q → ((∃ b, blockFrom n (gHat n data m) (q * sHat n data m ^ 2) = some b ∧ 0 < b) ↔ gHat n data m ≠ 0) := by
    intro q hq
    constructor
    · rintro ⟨b, hb, hpos⟩
      exact (blockFrom_spec n hn _ _ q hq b hb).2.2.1 hpos
    · intro hg0
      have : ∃ b, blockFrom n (gHat n data m) (q * sHat n data m ^ 2) = some b := by
        unfold blockFrom
        split
        · exact ⟨_, rfl⟩
        · exact ⟨_, rfl⟩
      obtain ⟨b, hb⟩ := this
      exact ⟨b, hb, (blockFrom_spec n hn _ _ q hq b hb).2.2.2 hg0⟩
  exact ⟨main 2 (by norm_num), main (4 / 3) (by norm_num)⟩

theorem acorr_none (n : ℕ) (data : ℕ → ℝ) (hc : scov (dataCol n data (blockMMax n)) (dataCol n data (blockMMax n)) = 0) (j : ℕ) :
    acorr n data j = none := by
  unfold acorr corr
  rw [if_pos (.inl hc)]

theorem mHat_none (thr : ℝ) (ρ : ℕ → Option ℝ) (hρ : ∀ j, ρ j = none) (kn mMax : ℕ) (hk : 0 < kn) (hkm : kn ≤ mMax) :
    mHat thr ρ kn mMax = none := by
  unfold mHat
  have h1 : ((List.range (mMax - kn + 1)).filter fun s => decide (winCount thr ρ kn mMax s = kn)) = [] := by
    rw [List.filter_eq_nil_iff]
    intro s hs
    rw [List.mem_range] at hs
    simp only [decide_eq_true_eq]
    intro h
    have := (winCount_eq thr ρ kn mMax s (by omega) hkm).1 h 0 hk
    rw [hρ] at this
    simp [insig] at this
  have h2 : ((List.range mMax).filter fun i => signif thr (ρ i)) = [] := by
    rw [List.filter_eq_nil_iff]
    intro i _
    rw [hρ]
    simp [signif]
  rw [h1, h2]
  rfl

/-- Whenever `m_hat` exists, at least two rows remain after removing `m_max` of them. -/
theorem mHat_rows (n : ℕ) (data : ℕ → ℝ) (mh : ℕ) (h : mHat (blockThr n) (acorr n data) (blockKn n) (blockMMax n) = some mh) :
    2 ≤ n - blockMMax n := by
  by_contra hc
  have hz : scov (dataCol n data (blockMMax n)) (dataCol n data (blockMMax n)) = 0 := by
    unfold scov vmean
    rcases Nat.lt_or_ge 0 (n - blockMMax n) with h1 | h1
    · have h1' : n - blockMMax n = 1 := by omega
      refine Finset.sum_eq_zero fun i _ => ?_
      have hi : ∀ j : Fin (n - blockMMax n), j = i := fun j => Fin.ext (by omega)
      rw [show (∑ j, dataCol n data (blockMMax n) j) = dataCol n data (blockMMax n) i from ?_]
      · rw [h1']
        simp
      · rw [Finset.sum_eq_single i (fun j _ hj => absurd (hi j) hj) (by simp)]
    · have h1' : n - blockMMax n = 0 := by omega
      refine Finset.sum_eq_zero fun i _ => absurd i.2 (by omega)
  have := blockKn_ge n
  rw [mHat_none _ _ (acorr_none n data hz) _ _ (by omega) (by unfold blockMMax; omega)] at h
  simp at h

/-! ## C93 -/

/-- A constant series has no block length: the function raises `ValueError`. -/
theorem blockLength_const (n : ℕ) (a : ℝ) : blockLength n (fun _ => a) = none := by
  have hz : scov (dataCol n (fun _ => a) (blockMMax n)) (dataCol n (fun _ => a) (blockMMax n)) = 0 := by
    unfold scov vmean dataCol
    refine Finset.sum_eq_zero fun i _ => ?_
    have : ((n - blockMMax n : ℕ) : ℝ) ≠ 0 := by
      have := i.2
      exact_mod_cast (by omega : n - blockMMax n ≠ 0)
    simp [Finset.sum_const, this]
  have := blockKn_ge n
  unfold blockLength
  rw [mHat_none _ _ (acorr_none n _ hz) _ _ (by omega) (by unfold blockMMax; omega)]
  rfl

/-- The block size of the data handler is never negative and never exceeds `ceil(min(3 sqrt n, n / 3))` when all columns have a
block length, and is a fifth of the number of features otherwise. What is missing: at least one (`C93_refuted`), at most the
number of samples in the second case. -/
theorem C93_partial (n : ℕ) (hn : 0 < n) (cols : List (ℕ → ℝ)) :
    0 ≤ optimalBlock n cols ∧
    ((∀ c ∈ cols, ∃ sb b, blockLength n c = some (sb, some b)) → cols ≠ [] →
      optimalBlock n cols ≤ ⌈min (3 * Real.sqrt n) ((n : ℝ) / 3)⌉) ∧
    ((∃ c ∈ cols, ∀ sb b, blockLength n c ≠ some (sb, some b)) → optimalBlock n cols = ((cols.length / 5 : ℕ) : ℤ)) := by
  have hsum : ∀ (cs : List (ℕ → ℝ)) (bs : List ℝ), cs.mapM (fun c => (blockLength n c).bind (·.2)) = some bs →
      bs.length = cs.length ∧ 0 ≤ bs.sum ∧ bs.sum ≤ bs.length * (⌈min (3 * Real.sqrt n) ((n : ℝ) / 3)⌉ : ℝ) := by
    intro cs
    induction cs with
    | nil =>
      intro bs h
      simp only [List.mapM_nil] at h
      cases h
      simp
    | cons c cs ih =>
      intro bs h
      rw [List.mapM_cons] at h
      cases hb : (blockLength n c).bind (·.2) with
      | none => rw [hb] at h; simp at h
      | some b =>
        rw [hb] at h
        cases hr : cs.mapM (fun c => (blockLength n c).bind (·.2)) with
        | none => rw [hr] at h; simp at h
        | some bs' =>
          rw [hr] at h
          simp only [Option.pure_def, Option.bind_eq_bind, Option.bind_some, Option.some.injEq] at h
          subst h
          obtain ⟨i1, i2, i3⟩ := ih bs' hr
          rw [Option.bind_eq_some_iff] at hb
          obtain ⟨p, hp, hp2⟩ := hb
          have := (C57_bound n hn c p hp).2 b hp2
          refine ⟨by simp [i1], by rw [List.sum_cons]; linarith, ?_⟩
          rw [List.sum_cons, List.length_cons]
          push_cast
          linarith
  unfold optimalBlock
  refine ⟨?_, ?_, ?_⟩
  · cases h : cols.mapM (fun c => (blockLength n c).bind (·.2)) with
    | none => simp only; omega
    | some bs =>
      obtain ⟨_, h2, _⟩ := hsum cols bs h
      simp only
      exact Int.floor_nonneg.2 (by positivity)
  · intro hall hne
    cases h : cols.mapM (fun c => (blockLength n c).bind (·.2)) with
    | none =>
      exfalso
      clear hsum hne
      induction cols with
      | nil => simp at h
      | cons c cols ih =>
        obtain ⟨sb, b, hb⟩ := hall c List.mem_cons_self
        rw [List.mapM_cons, hb] at h
        simp only [Option.bind_some, Option.pure_def, Option.bind_eq_bind] at h
        cases hr : cols.mapM (fun c => (blockLength n c).bind (·.2)) with
        | none => exact ih (fun c hc => hall c (List.mem_cons_of_mem _ hc)) hr
        | some bs => rw [hr] at h; simp at h
    | some bs =>
      obtain ⟨h1, h2, h3⟩ := hsum cols bs h
      have hlen : (0 : ℝ) < bs.length := by
        rw [h1]
        exact_mod_cast List.length_pos_of_ne_nil hne
      simp only
      have : bs.sum / bs.length ≤ (⌈min (3 * Real.sqrt n) ((n : ℝ) / 3)⌉ : ℝ) := by
        rw [div_le_iff₀ hlen]
        linarith
      exact_mod_cast (Int.floor_le _).trans this
  · rintro ⟨c, hc, hno⟩
    have : cols.mapM (fun c => (blockLength n c).bind (·.2)) = none := by
      clear hsum
      induction cols with
      | nil => simp at hc
      | cons c' cols ih =>
        rw [List.mapM_cons]
        rcases List.mem_cons.1 hc with rfl | hc
        · have : (blockLength n c).bind (·.2) = none := by
            rw [Option.bind_eq_none_iff]
            intro p hp
            cases hp2 : p.2 with
            | none => rfl
            | some b => exact absurd (by rw [hp, ← hp2]) (hno p.1 b)
          rw [this]
          rfl
        · rw [ih hc]
          cases (blockLength n c').bind (·.2) <;> rfl
    rw [this]

/-- **Disagreement.** A dataset with fewer than five features one of which is constant gets the block size zero. -/
theorem C93_refuted (n : ℕ) (hn : 0 < n) (cols : List (ℕ → ℝ)) (hc : ∃ a, (fun _ => a) ∈ cols) (hl : cols.length < 5) :
    optimalBlock n cols = 0 := by
  obtain ⟨a, ha⟩ := hc
  rw [(C93_partial n hn cols).2.2 ⟨_, ha, fun sb b h => by rw [blockLength_const] at h; simp at h⟩]
  exact_mod_cast (by omega : cols.length / 5 = 0)

/-- **Disagreement.** The same fallback can exceed the number of samples: a constant feature among many. -/
theorem C93_large_refuted (n : ℕ) (hn : 0 < n) (cols : List (ℕ → ℝ)) (hc : ∃ a, (fun _ => a) ∈ cols) (hl : 5 * (n + 1) ≤ cols.length) :
    (n : ℤ) < optimalBlock n cols := by
  obtain ⟨a, ha⟩ := hc
  rw [(C93_partial n hn cols).2.2 ⟨_, ha, fun sb b h => by rw [blockLength_const] at h; simp at h⟩]
  exact_mod_cast (by omega : n < cols.length / 5)

/-- Exactly when the block size is usable. If all columns have a block length: it is at most `n`, and at least one exactly if the mean length is at least one. Otherwise it is at least one exactly for five or more features, and at most `n` exactly for fewer than `5 (n + 1)` features. -/
theorem C93_iff_partial (n : ℕ) (hn : 0 < n) (cols : List (ℕ → ℝ)) (hne : cols ≠ []) :
    (∀ len : (ℕ → ℝ) → ℝ, (∀ c ∈ cols, ∃ sb, blockLength n c = some (sb, some (len c))) →
      optimalBlock n cols ≤ n ∧ (1 ≤ optimalBlock n cols ↔ (cols.length : ℝ) ≤ (cols.map len).sum)) ∧
    ((∃ c ∈ cols, ∀ sb b, blockLength n c ≠ some (sb, some b)) →
      (1 ≤ optimalBlock n cols ↔ 5 ≤ cols.length) ∧ (optimalBlock n cols ≤ n ↔ cols.length < 5 * (n + 1))) := by
  constructor
  · intro len hlen
    have hmap : ∀ cs : List (ℕ → ℝ), (∀ c ∈ cs, ∃ sb, blockLength n c = some (sb, some (len c))) →
        cs.mapM (fun c => (blockLength n c).bind (·.2)) = some (cs.map len) := by
      intro cs
      induction cs with
      | nil => intro _; rfl
      | cons c cs ih =>
        intro h
        obtain ⟨sb, hc⟩ := h c List.mem_cons_self
        rw [List.mapM_cons, hc, ih fun c' hc' => h c' (List.mem_cons_of_mem _ hc')]
        rfl
    constructor
    · have h := (C93_partial n hn cols).2.1 (fun c hc => by obtain ⟨sb, h⟩ := hlen c hc; exact ⟨sb, _, h⟩) hne
      refine h.trans ?_
      rw [Int.ceil_le]
      refine (min_le_right _ _).trans ?_
      have : (0 : ℝ) ≤ n := Nat.cast_nonneg n
      push_cast
      linarith
    · have hl : (0 : ℝ) < cols.length := by
        exact_mod_cast List.length_pos_of_ne_nil hne
      unfold optimalBlock
      rw [hmap cols hlen]
      simp only [List.length_map]
      rw [Int.le_floor, Int.cast_one, le_div_iff₀ hl, one_mul]
  · intro h
    rw [(C93_partial n hn cols).2.2 h]
    constructor
    · constructor
      · intro h1
        have : 1 ≤ cols.length / 5 := by exact_mod_cast h1
        omega
      · intro h1
        exact_mod_cast (by omega : 1 ≤ cols.length / 5)
    · constructor
      · intro h1
        have : cols.length / 5 ≤ n := by exact_mod_cast h1
        omega
      · intro h1
        exact_mod_cast (by omega : cols.length / 5 ≤ n)

end block

end Esat
