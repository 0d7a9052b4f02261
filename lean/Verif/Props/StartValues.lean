import Verif.Props.SA
import Verif.Props.Simulator

/-!
# C210, C211: the start factors and the generated data written out

`SA.initialize` (`esat/model/sa.py:251-303`) and `Simulator._generate_data` (`eval/simulator.py:235-266`).
-/

namespace Esat

section start
variable {m n k : ℕ} {R : Type*}

/-- The root of a number that is not negative. -/
def RootOk (sqrt? : ℝ → Option ℝ) : Prop := ∀ x, 0 ≤ x → sqrt? x = some (Real.sqrt x)

/-- Mean of a column. -/
noncomputable def colAvg (V : Mat m n ℝ) (j : Fin n) : ℝ := (∑ i, V i j) / m

/-- Mean of a row. -/
noncomputable def rowAvg (V : Mat m n ℝ) (i : Fin m) : ℝ := (∑ j, V i j) / n

/-- Numbers that are not positive are replaced by `1e-12`. -/
noncomputable def atLeast (x : ℝ) : ℝ := if 0 < x then x else 1 / 10 ^ 12

/-- Data without NaN. -/
def lift (V : Mat m n ℝ) : Mat m n (Option ℝ) := fun i j => some (V i j)

/-- The same as a profile matrix. -/
def liftP (H : Mat m n ℝ) : Mat m n (PEntry ℝ) := fun i j => some (H i j : WithTop ℝ)

theorem entries_lift (H : Mat m n ℝ) : entries (lift H) = liftP H := rfl

theorem floorN_some {r c : ℕ} (A : Mat r c ℝ) : floorN (lift A) = lift fun i j => atLeast (A i j) := by
  funext i j
  unfold floorN lift atLeast
  simp only
  by_cases h : A i j ≤ 0
  · rw [if_pos h, if_neg (not_lt.2 h)]
  · rw [if_neg h, if_pos (not_le.1 h)]

theorem randomH_eq (sqrt? : ℝ → Option ℝ) (hsq : RootOk sqrt?) (V : Mat m n ℝ) (hV : ∀ j, 0 ≤ colAvg V j) (d : InitDraws m n k ℝ) :
    randomH sqrt? (lift V) d = lift fun a j => Real.sqrt (colAvg V j / k) * d.hDraw a j := by
  funext a j
  have h1 : colMean (lift V) j = some (colAvg V j) := by simp [colMean, lift, colAvg]
  unfold randomH
  rw [h1]
  show (sqrt? (colAvg V j / k)).bind _ = _
  rw [hsq _ (div_nonneg (hV j) (Nat.cast_nonneg k))]
  rfl

theorem randomW_eq (sqrt? : ℝ → Option ℝ) (hsq : RootOk sqrt?) (V : Mat m n ℝ) (hV : ∀ i, 0 ≤ rowAvg V i) (meth : Alg) (d : InitDraws m n k ℝ) :
    randomW sqrt? meth (lift V) d = lift fun i a => if meth = .ls then atLeast (Real.sqrt (rowAvg V i / k) * d.wDraw i a)
      else Real.sqrt (rowAvg V i / k) * d.wDraw i a := by
  have hw : (fun i a => do
      let mu ← rowMean (lift V) i
      let s ← sqrt? (mu / k)
      return s * d.wDraw i a : Mat m k (Option ℝ)) = lift fun i a => Real.sqrt (rowAvg V i / k) * d.wDraw i a := by
    funext i a
    have h1 : rowMean (lift V) i = some (rowAvg V i) := by simp [rowMean, lift, rowAvg]
    rw [h1]
    show (sqrt? (rowAvg V i / k)).bind _ = _
    rw [hsq _ (div_nonneg (hV i) (Nat.cast_nonneg k))]
    rfl
  unfold randomW
  rw [hw]
  cases meth
  · simp only [if_true]
    rw [floorN_some]
  · simp

theorem init_ok (sqrt? : ℝ → Option ℝ) (wsU : Mat k n (Option ℝ) → Mat m k (Option ℝ)) (V : Mat m n ℝ) (s : SA m n k ℝ R) (hs : s.V = lift V)
    (a : InitArgs m n k ℝ) (p : Mat k n (PEntry ℝ) × DMat (Option ℝ)) (h : initFactors sqrt? wsU s.method s.V a = .ok p) :
    ∃ s', s.initialize sqrt? wsU a = .ok s' ∧ s'.H = some ⟨k, n, p.1⟩ ∧ s'.W = some p.2 := by
  have hacc : scipyAccepts s.V a = true := by
    have : anyNaN s.V = false := by simp [hs, anyNaN, lift]
    unfold scipyAccepts
    rw [this]
    simp
  unfold SA.initialize
  rw [if_pos hacc, h]
  exact ⟨_, rfl, rfl, rfl⟩

/-- **C210.** The default start: every profile entry is the root of the mean of the feature divided by the number of factors, times its normal draw, every
contribution the root of the mean of the sample divided by the number of factors, times its draw; profile entries that are not positive become `1e-12`, with
ls-nmf contributions as well. -/
theorem C210_default (sqrt? : ℝ → Option ℝ) (hsq : RootOk sqrt?) (wsU : Mat k n (Option ℝ) → Mat m k (Option ℝ)) (V : Mat m n ℝ)
    (hc : ∀ j, 0 ≤ colAvg V j) (hr : ∀ i, 0 ≤ rowAvg V i) (s : SA m n k ℝ R) (hs : s.V = lift V) (d : InitDraws m n k ℝ) (hInt norm : Bool) :
    ∃ s', s.initialize sqrt? wsU ⟨none, hInt, none, false, false, d, norm⟩ = .ok s' ∧
      s'.H = some ⟨k, n, liftP fun a j => atLeast (Real.sqrt (colAvg V j / k) * d.hDraw a j)⟩ ∧
      s'.W = some ⟨m, k, lift fun i a => if s.method = .ls then atLeast (Real.sqrt (rowAvg V i / k) * d.wDraw i a)
        else Real.sqrt (rowAvg V i / k) * d.wDraw i a⟩ := by
  refine init_ok sqrt? wsU V s hs _ (_, _) ?_
  rw [hs]
  simp only [initFactors, baseFactors, Option.bind_none, Option.getD_none, Bool.false_eq_true, if_false]
  rw [randomH_eq sqrt? hsq V hc, randomW_eq sqrt? hsq V hr, floorN_some]
  rfl

/-- The product of the start factors: with positive draws it is the geometric mean of the mean of the sample and the mean of the feature, times the mean of the
products of the draws over the factors. -/
theorem C210_product (V : Mat m n ℝ) (hc : ∀ j, 0 < colAvg V j) (hr : ∀ i, 0 < rowAvg V i) (d : InitDraws m n k ℝ)
    (hh : ∀ a j, 0 < d.hDraw a j) (hw : ∀ i a, 0 < d.wDraw i a) (i : Fin m) (j : Fin n) :
    ((fun i a => atLeast (Real.sqrt (rowAvg V i / k) * d.wDraw i a) : Mat m k ℝ) ⬝ (fun a j => atLeast (Real.sqrt (colAvg V j / k) * d.hDraw a j))) i j =
      Real.sqrt (rowAvg V i * colAvg V j) * ((∑ a, d.wDraw i a * d.hDraw a j) / k) := by
  rcases Nat.eq_zero_or_pos k with rfl | hk
  · simp [mmul]
  have hk' : (0 : ℝ) < k := by exact_mod_cast hk
  have e : ∀ a : Fin k, atLeast (Real.sqrt (rowAvg V i / k) * d.wDraw i a) * atLeast (Real.sqrt (colAvg V j / k) * d.hDraw a j) =
      Real.sqrt (rowAvg V i * colAvg V j) * ((d.wDraw i a * d.hDraw a j) / k) := by
    intro a
    unfold atLeast
    rw [if_pos (mul_pos (Real.sqrt_pos.2 (div_pos (hr i) hk')) (hw i a)), if_pos (mul_pos (Real.sqrt_pos.2 (div_pos (hc j) hk')) (hh a j)),
      Real.sqrt_div (hr i).le, Real.sqrt_div (hc j).le, Real.sqrt_mul (hr i).le]
    have := Real.mul_self_sqrt hk'.le
    have hne := (Real.sqrt_pos.2 hk').ne'
    field_simp
    rw [Real.sq_sqrt hk'.le]
    ring
  unfold mmul
  simp only [e]
  rw [← Finset.mul_sum, Finset.sum_div]

/-- **C210.** The start `update` of ls-nmf: the contributions are `V Hᵀ` with the profiles as drawn, before the entries that are not positive are replaced. -/
theorem C210_update (sqrt? : ℝ → Option ℝ) (hsq : RootOk sqrt?) (wsU : Mat k n (Option ℝ) → Mat m k (Option ℝ)) (V : Mat m n ℝ)
    (hc : ∀ j, 0 ≤ colAvg V j) (s : SA m n k ℝ R) (hs : s.V = lift V) (hm : s.method = .ls) (d : InitDraws m n k ℝ) (hInt norm : Bool)
    (W0 : Option (DMat (Option ℝ))) :
    ∃ s', s.initialize sqrt? wsU ⟨none, hInt, W0, false, true, d, norm⟩ = .ok s' ∧
      s'.H = some ⟨k, n, liftP fun a j => atLeast (Real.sqrt (colAvg V j / k) * d.hDraw a j)⟩ ∧
      s'.W = some ⟨m, k, lift fun i a => ∑ j, V i j * (Real.sqrt (colAvg V j / k) * d.hDraw a j)⟩ := by
  refine init_ok sqrt? wsU V s hs _ (_, _) ?_
  rw [hs, hm]
  simp only [initFactors, baseFactors, Option.bind_none, Option.getD_none, Bool.false_eq_true, if_false, if_true, Option.getD_some]
  rw [randomH_eq sqrt? hsq V hc, floorN_some]
  have : matmulVHt (lift V) (lift fun (a : Fin k) j => Real.sqrt (colAvg V j / k) * d.hDraw a j) =
      lift fun i a => ∑ j, V i j * (Real.sqrt (colAvg V j / k) * d.hDraw a j) := by
    funext i a
    simp [matmulVHt, lift]
  rw [this]
  rfl

/-- **C210.** Fewer profiles than factors: they are the first rows, the drawn ones the others, and then every *column* is divided by its sum. So with positive
entries the entries of every feature sum to one over the factors, and the profiles of the caller are kept only up to a different factor for every feature. -/
theorem C210_prior (sqrt? : ℝ → Option ℝ) (hsq : RootOk sqrt?) (wsU : Mat k n (Option ℝ) → Mat m k (Option ℝ)) (V : Mat m n ℝ)
    (hc : ∀ j, 0 ≤ colAvg V j) (s : SA m n k ℝ R) (hs : s.V = lift V) (d : InitDraws m n k ℝ) (hInt norm : Bool)
    (q : ℕ) (hq : q < k) (hq0 : 0 < q) (P : Mat q n ℝ) (F : Mat k n ℝ)
    (hF : ∀ a j, F a j = if ha : a.val < q then P ⟨a.val, ha⟩ j else Real.sqrt (colAvg V j / k) * d.hDraw a j) (hpos : ∀ a j, 0 < F a j) :
    ∃ s', s.initialize sqrt? wsU ⟨some ⟨q, n, lift P⟩, hInt, none, false, false, d, norm⟩ = .ok s' ∧
      s'.H = some ⟨k, n, liftP fun a j => F a j / ∑ b, F b j⟩ ∧ ∀ j, ∑ a, F a j / ∑ b, F b j = 1 := by
  have hk : 0 < k := by omega
  have hsum : ∀ j, 0 < ∑ b, F b j := fun j => Finset.sum_pos (fun b _ => hpos b j) ⟨⟨0, hk⟩, Finset.mem_univ _⟩
  have e : asShape k n ⟨q, n, lift P⟩ = none := by
    unfold asShape
    rw [dif_neg]
    rintro ⟨h, _⟩
    have : q = k := h
    omega
  have hins : insertPrior (lift fun (a : Fin k) j => Real.sqrt (colAvg V j / k) * d.hDraw a j) ⟨q, n, lift P⟩ = .ok (liftP fun a j => F a j / ∑ b, F b j) := by
    unfold insertPrior
    rw [if_neg (by show ¬ q = 0; omega), if_neg (by show ¬ (n ≠ n ∧ n ≠ 1); tauto), if_neg (by show ¬ k < q; omega)]
    have hrows : (fun (a : Fin k) (j : Fin n) => if ha : a.val < q then priorRow n ⟨q, n, lift P⟩ ⟨a.val, ha⟩ j
        else (lift fun (a : Fin k) j => Real.sqrt (colAvg V j / k) * d.hDraw a j) a j) = lift F := by
      funext a j
      unfold lift priorRow
      simp only
      rw [hF]
      split_ifs <;> rfl
    show Except.ok (normaliseCols _) = _
    rw [hrows]
    congr 1
    funext a j
    unfold normaliseCols lift liftP
    simp [(hsum j).ne', not_le.2 (div_pos (hpos a j) (hsum j))]
  refine (init_ok sqrt? wsU V s hs ⟨some ⟨q, n, lift P⟩, hInt, none, false, false, d, norm⟩
    (liftP fun a j => F a j / ∑ b, F b j, ⟨m, k, randomW sqrt? s.method (lift V) d⟩) ?_).imp ?_
  · rw [hs]
    unfold initFactors baseFactors
    simp only [Option.bind_some, e, Option.getD_none, Option.isSome_none, Bool.false_eq_true, if_false]
    rw [randomH_eq sqrt? hsq V hc, hins]
  · rintro s' ⟨h1, h2, -⟩
    refine ⟨h1, h2, ?_⟩
    intro j
    rw [← Finset.sum_div]
    exact div_self (hsum j).ne'

/-- Non-trivial case: the hypotheses on the root and the means hold, e.g. for `V = [[1, 3]]` with two factors. -/
example : RootOk (fun x => if 0 ≤ x then some (Real.sqrt x) else none) ∧ (∀ j, 0 < colAvg (![![1, 3]] : Mat 1 2 ℝ) j) ∧
    ∀ i, rowAvg (![![1, 3]] : Mat 1 2 ℝ) i = 2 := by
  refine ⟨fun x h => if_pos h, ?_, ?_⟩
  · intro j
    fin_cases j <;> simp [colAvg]
  · intro i
    fin_cases i
    simp [rowAvg]
    norm_num

end start

section data
variable {K : Type*} [Field K] [LinearOrder K] [IsStrictOrderedRing K] {m n f : ℕ}

/-- **C211.** A cell of the generated data: the product of the factors, increased or decreased by the fraction `z` as the second draw says, multiplied or divided
by the magnitude if it is an outlier; the uncertainty is the value times the fourth draw. Results that are not positive become `1e-12` and `1e-4`. -/
theorem C211_cell (cfg : OutlierCfg K) (hp : cfg.p ≤ 1) (hmag : cfg.mag ≠ 0) (W : Mat m f K) (H : Mat f n K) (d : DataDraws m n K) (i : Fin m) (j : Fin n)
    (e o y v : K) (he : e = if d.sgn i j < 1 / 2 then 1 - d.z i j else 1 + d.z i j)
    (ho : o = if cfg.on = false then 1 else if d.out i j < cfg.p / 2 then cfg.mag else if 1 - cfg.p / 2 < d.out i j then cfg.mag⁻¹ else 1)
    (hy : y = (∑ a, W i a * H a j) * e * o) (hv : v = if 0 < y then y else 1 / 10 ^ 12) :
    generateData cfg W H d i j = some (v, if 0 < d.unc i j then v * d.unc i j else 1 / 10 ^ 4) := by
  have hclip : ∀ eps x : K, clipPos eps x = if 0 < x then x else eps := by
    intro eps x
    unfold clipPos
    by_cases h : x ≤ 0
    · rw [if_pos h, if_neg (not_lt.2 h)]
    · rw [if_neg h, if_pos (not_le.1 h)]
  have hn : noisyCell ((W ⬝ H) i j) (d.z i j) (d.sgn i j) = (∑ a, W i a * H a j) * e := by
    unfold noisyCell mmul
    rw [he]
    split_ifs <;> ring
  have hvpos : 0 < v := by
    rw [hv]
    split_ifs with h
    · exact h
    · positivity
  have hout : (if cfg.on then outlierCell cfg.p cfg.mag (d.out i j) ((∑ a, W i a * H a j) * e) else some ((∑ a, W i a * H a j) * e)) = some y := by
    rw [hy, ho]
    cases cfg.on
    · simp
    · simp only [if_true, Bool.true_eq_false, if_false]
      rw [C64_outliers _ _ _ _ hp hmag]
      split_ifs <;> simp [div_eq_mul_inv]
  unfold generateData dataCell
  simp only [hn, hout, Option.map_some, hclip, ← hv]
  congr 2
  simp only [mul_pos_iff_of_pos_left hvpos]

/-- Without outliers and with noise below the whole value, the data are within the fraction `|z|` of the product of the factors. -/
theorem C211_band (cfg : OutlierCfg K) (hon : cfg.on = false) (hp : cfg.p ≤ 1) (hmag : cfg.mag ≠ 0) (W : Mat m f K) (H : Mat f n K) (d : DataDraws m n K)
    (i : Fin m) (j : Fin n) (hx : 0 < ∑ a, W i a * H a j) (hz : |d.z i j| < 1) (v u : K) (h : generateData cfg W H d i j = some (v, u)) :
    |v - ∑ a, W i a * H a j| = |d.z i j| * ∑ a, W i a * H a j := by
  have hz' := abs_lt.1 hz
  have hpos : 0 < (∑ a, W i a * H a j) * (if d.sgn i j < 1 / 2 then 1 - d.z i j else 1 + d.z i j) * 1 := by
    rw [mul_one]
    refine mul_pos hx ?_
    split_ifs <;> linarith
  rw [C211_cell cfg hp hmag W H d i j _ 1 _ _ rfl (by rw [if_pos hon]) rfl rfl, if_pos hpos, Option.some.injEq, Prod.mk.injEq] at h
  rw [← h.1, mul_one]
  split_ifs
  · rw [show (∑ a, W i a * H a j) * (1 - d.z i j) - ∑ a, W i a * H a j = -(d.z i j * ∑ a, W i a * H a j) by ring, abs_neg, abs_mul, abs_of_pos hx]
  · rw [show (∑ a, W i a * H a j) * (1 + d.z i j) - ∑ a, W i a * H a j = d.z i j * ∑ a, W i a * H a j by ring, abs_mul, abs_of_pos hx]

/-- Without noise and outliers the factors reproduce the data exactly: the loss of the true factors is zero. -/
theorem C211_exact (cfg : OutlierCfg K) (hon : cfg.on = false) (hp : cfg.p ≤ 1) (hmag : cfg.mag ≠ 0) (W : Mat m f K) (H : Mat f n K) (d : DataDraws m n K)
    (hx : ∀ i j, 0 < ∑ a, W i a * H a j) (hz : ∀ i j, d.z i j = 0) (V U : Mat m n K) (h : ∀ i j, generateData cfg W H d i j = some (V i j, U i j)) :
    V = W ⬝ H ∧ ∑ i, ∑ j, ((V i j - (W ⬝ H) i j) / U i j) ^ 2 = 0 := by
  have hV : V = W ⬝ H := by
    funext i j
    have := C211_band cfg hon hp hmag W H d i j (hx i j) (by rw [hz, abs_zero]; exact one_pos) _ _ (h i j)
    rw [hz, abs_zero, zero_mul, abs_eq_zero, sub_eq_zero] at this
    exact this
  refine ⟨hV, ?_⟩
  rw [hV]
  simp

/-- Non-trivial case: product 6, noise one tenth downwards, an outlier divided by 2, uncertainty one fifth. -/
example : generateData (K := ℚ) ⟨true, 1 / 2, 2⟩ (fun _ _ => 2 : Mat 1 1 ℚ) (fun _ _ => 3 : Mat 1 1 ℚ)
    ⟨fun _ _ => 1 / 10, fun _ _ => 1 / 4, fun _ _ => 7 / 8, fun _ _ => 1 / 5⟩ 0 0 = some (27 / 10, 27 / 50) := by
  decide +kernel

end data

end Esat
