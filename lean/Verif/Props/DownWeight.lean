import Verif.Props.Continuity

/-!
# C263: very large uncertainties

What happens to a training when the uncertainties of some cells, of whole samples or of whole features become larger and larger.
-/

namespace Esat

open Filter Topology

variable {m n k m' n' : ℕ} {ι : Type*} {l : Filter ι}

/-! ## Specification: training on the kept cells only -/

/-- The weights of the kept cells; the other cells have none. -/
noncomputable def keptWeights (keep : Fin m → Fin n → Bool) (U : Mat m n ℝ) : Mat m n ℝ := fun i j => if keep i j then 1 / U i j ^ 2 else 0

/-- The sum of the squared scaled residuals of the kept cells. -/
noncomputable def keptLoss (keep : Fin m → Fin n → Bool) (V U : Mat m n ℝ) (W : Mat m k ℝ) (H : Mat k n ℝ) : ℝ :=
  ∑ i, ∑ j, if keep i j then ((V i j - ∑ a, W i a * H a j) / U i j) ^ 2 else 0

/-- The loss of the kept cells on possibly spoilt factors. -/
noncomputable def keptQ (keep : Fin m → Fin n → Bool) (V U : Mat m n ℝ) : Option (Mat m k ℝ) × Option (Mat k n ℝ) → Option ℝ
  | (some W, some H) => some (keptLoss keep V U W H)
  | _ => none

/-- Training in which only the kept cells count: the loop of the compiled code (`rust/lib.rs:353-398`) with the weights and the loss of the kept cells. -/
noncomputable def keptTrain (keep : Fin m → Fin n → Bool) (V U : Mat m n ℝ) (cfg : LoopCfg ℝ) (clock : ℕ → Bool) (W : Mat m k ℝ) (H : Mat k n ℝ) :
    RustState (Option (Mat m k ℝ) × Option (Mat k n ℝ)) ℝ :=
  rustLoop (lsLoopStep V (keptWeights keep U)) (keptQ keep V U) cfg clock (some W, some H)

/-- If all cells are kept this is the training of the code. -/
theorem keptTrain_all (V U : Mat m n ℝ) (cfg : LoopCfg ℝ) (clock : ℕ → Bool) (rm : Bool) (rn : ℤ) (W : Mat m k ℝ) (H : Mat k n ℝ) :
    keptTrain (fun _ _ => true) V U cfg clock W H = lsTrain V U cfg clock rm rn W H := by
  have h1 : keptWeights (fun _ _ => true) U = weights U := rfl
  have h2 : keptQ (k := k) (fun _ _ => true) V U = lsQ V U := by
    funext p
    rcases p with ⟨_ | W, _ | H⟩ <;> try rfl
    simp only [keptQ, lsQ, qLoss_amounts, Option.some.injEq]
    rfl
  rw [keptTrain, lsTrain, h1, h2]

theorem keptTrain_length (keep : Fin m → Fin n → Bool) (V U : Mat m n ℝ) (cfg : LoopCfg ℝ) (clock : ℕ → Bool) (W : Mat m k ℝ) (H : Mat k n ℝ) : (keptTrain keep V U cfg clock W H).losses.length ≤ cfg.maxIter.toNat :=
  (rustLoop_factors _ _ _ _ _).2

/-- **C263, ignored cells.** The training on the kept cells uses nothing of the other cells. -/
theorem C263_ignores (keep : Fin m → Fin n → Bool) (V V' U U' : Mat m n ℝ) (hV : ∀ i j, keep i j = true → V i j = V' i j) (hU : ∀ i j, keep i j = true → U i j = U' i j)
    (cfg : LoopCfg ℝ) (clock : ℕ → Bool) (W : Mat m k ℝ) (H : Mat k n ℝ) : keptTrain keep V U cfg clock W H = keptTrain keep V' U' cfg clock W H := by
  have h1 : keptWeights keep U = keptWeights keep U' := by
    funext i j
    unfold keptWeights
    split
    · rw [hU i j ‹_›]
    · rfl
  have h2 : keptQ (k := k) keep V U = keptQ keep V' U' := by
    funext p
    rcases p with ⟨_ | W, _ | H⟩ <;> try rfl
    simp only [keptQ, keptLoss, Option.some.injEq]
    refine Finset.sum_congr rfl fun i _ => Finset.sum_congr rfl fun j _ => ?_
    split
    · rw [hU i j ‹_›, hV i j ‹_›]
    · rfl
  have h3 : emul (keptWeights keep U') V = emul (keptWeights keep U') V' := by
    funext i j
    unfold emul keptWeights
    split
    · rw [hV i j ‹_›]
    · simp
  have h4 : lsLoopStep (k := k) V (keptWeights keep U') = lsLoopStep V' (keptWeights keep U') := by
    funext u p
    unfold lsLoopStep lsStepH lsStepW lsHNum lsWNum
    rw [h3]
  rw [keptTrain, keptTrain, h1, h2, h4]

/-- Uncertainties `s i * r j * U i j` that become very large: in the cells outside `keep` (there also compared with the data), in the samples outside `R` and in the features outside `C`; elsewhere data and uncertainties approach `V0` and `U0`. -/
structure Weakened (l : Filter ι) (V U : ι → Mat m n ℝ) (s : ι → Fin m → ℝ) (r : ι → Fin n → ℝ) (keep : Fin m → Fin n → Bool) (R : Fin m → Bool) (C : Fin n → Bool) (V0 U0 : Mat m n ℝ) : Prop where
  data : ∀ i j, keep i j = true → Tendsto (fun x => V x i j) l (𝓝 (V0 i j))
  unc : ∀ i j, keep i j = true → Tendsto (fun x => U x i j) l (𝓝 (U0 i j))
  unc0 : ∀ i j, keep i j = true → U0 i j ≠ 0
  cell : ∀ i j, keep i j = false → Tendsto (fun x => (U x i j)⁻¹) l (𝓝 0)
  signal : ∀ i j, keep i j = false → Tendsto (fun x => V x i j / U x i j) l (𝓝 0)
  rowKept : ∀ x i, R i = true → s x i = 1
  rowNe : ∀ x i, s x i ≠ 0
  rowBig : ∀ i, R i = false → Tendsto (fun x => (s x i)⁻¹) l (𝓝 0)
  colKept : ∀ x j, C j = true → r x j = 1
  colNe : ∀ x j, r x j ≠ 0
  colBig : ∀ j, C j = false → Tendsto (fun x => (r x j)⁻¹) l (𝓝 0)
  nonneg : ∀ i j, keep i j = true → 0 ≤ V0 i j
  row : ∀ i, ∃ j, C j = true ∧ keep i j = true ∧ 0 < V0 i j
  col : ∀ j, ∃ i, R i = true ∧ keep i j = true ∧ 0 < V0 i j

/-! ## The update in the limit -/

/-- One update with one set of weights for the profiles and one for the contributions. -/
noncomputable def splitStep (V E F : Mat m n ℝ) (u : Bool) : Option (Mat m k ℝ) × Option (Mat k n ℝ) → Option (Mat m k ℝ) × Option (Mat k n ℝ) :=
  fun p =>
    let H' := if u then (p.1.bind fun W => p.2.bind fun H => lsStepH V E W H) else p.2
    (p.1.bind fun W => H'.bind fun H => lsStepW V F W H, H')

theorem lsStepH_scale (V E : Mat m n ℝ) (c : Fin n → ℝ) (hc : ∀ j, c j ≠ 0) (W : Mat m k ℝ) (H : Mat k n ℝ) : lsStepH V (fun i j => c j * E i j) W H = lsStepH V E W H := by
  have hd : ∀ a j, lsHDen (fun i j => c j * E i j) W H a j = c j * lsHDen E W H a j := fun a j => by
    simp only [lsHDen, mmul, tr, emul, Finset.mul_sum]
    refine Finset.sum_congr rfl fun i _ => ?_
    refine Finset.sum_congr rfl fun b _ => ?_
    ring
  have hn : ∀ a j, lsHNum V (fun i j => c j * E i j) W a j = c j * lsHNum V E W a j := fun a j => by
    simp only [lsHNum, mmul, tr, emul, Finset.mul_sum]
    refine Finset.sum_congr rfl fun i _ => ?_
    ring
  have hz : NoZero (lsHDen (fun i j => c j * E i j) W H) ↔ NoZero (lsHDen E W H) := by
    refine forall_congr' fun a => forall_congr' fun j => ?_
    rw [hd]
    simp [hc j]
  unfold lsStepH
  by_cases h : NoZero (lsHDen E W H)
  · rw [if_pos h, if_pos (hz.2 h)]
    congr 1
    funext a j
    simp only [emul, ediv, hd, hn, mul_div_mul_left _ _ (hc j)]
  · rw [if_neg h, if_neg (mt hz.1 h)]

theorem lsStepW_scale (V E : Mat m n ℝ) (c : Fin m → ℝ) (hc : ∀ i, c i ≠ 0) (W : Mat m k ℝ) (H : Mat k n ℝ) : lsStepW V (fun i j => c i * E i j) W H = lsStepW V E W H := by
  have hd : ∀ i a, lsWDen (fun i j => c i * E i j) W H i a = c i * lsWDen E W H i a := fun i a => by
    simp only [lsWDen, mmul, tr, emul, Finset.mul_sum, Finset.sum_mul]
    refine Finset.sum_congr rfl fun j _ => ?_
    refine Finset.sum_congr rfl fun b _ => ?_
    ring
  have hn : ∀ i a, lsWNum V (fun i j => c i * E i j) H i a = c i * lsWNum V E H i a := fun i a => by
    simp only [lsWNum, mmul, tr, emul, Finset.mul_sum]
    refine Finset.sum_congr rfl fun j _ => ?_
    ring
  have hz : NoZero (lsWDen (fun i j => c i * E i j) W H) ↔ NoZero (lsWDen E W H) := by
    refine forall_congr' fun i => forall_congr' fun a => ?_
    rw [hd]
    simp [hc i]
  unfold lsStepW
  by_cases h : NoZero (lsWDen E W H)
  · rw [if_pos h, if_pos (hz.2 h)]
    congr 1
    funext i a
    simp only [emul, ediv, hd, hn, mul_div_mul_left _ _ (hc i)]
  · rw [if_neg h, if_neg (mt hz.1 h)]

theorem tendsto_stepH' {V We : ι → Mat m n ℝ} {W : ι → Mat m k ℝ} {H : ι → Mat k n ℝ} {V0 We0 : Mat m n ℝ} {W0 : Mat m k ℝ} {H0 H1 : Mat k n ℝ}
    (hV : Tendsto (fun x => emul (We x) (V x)) l (𝓝 (emul We0 V0))) (hE : Tendsto We l (𝓝 We0)) (hW : Tendsto W l (𝓝 W0)) (hH : Tendsto H l (𝓝 H0)) (h : lsStepH V0 We0 W0 H0 = some H1) :
    ∃ H' : ι → Mat k n ℝ, (∀ᶠ x in l, lsStepH (V x) (We x) (W x) (H x) = some (H' x)) ∧ Tendsto H' l (𝓝 H1) := by
  obtain ⟨h1, h2⟩ := lsStepH_eq_some.1 h
  have hn : Tendsto (fun x => lsHNum (V x) (We x) (W x)) l (𝓝 (lsHNum V0 We0 W0)) := tendsto_mat_mul (tendsto_tr hW) hV
  have hd : Tendsto (fun x => lsHDen (We x) (W x) (H x)) l (𝓝 (lsHDen We0 W0 H0)) := tendsto_mat_mul (tendsto_tr hW) (tendsto_emul hE (tendsto_mat_mul hW hH))
  refine ⟨fun x a j => H x a j * (lsHNum (V x) (We x) (W x) a j / lsHDen (We x) (W x) (H x) a j), ?_, ?_⟩
  · have : ∀ᶠ x in l, ∀ a j, lsHDen (We x) (W x) (H x) a j ≠ 0 := by
      rw [eventually_all]
      intro a
      rw [eventually_all]
      intro j
      exact (tendsto_pi_nhds.1 (tendsto_pi_nhds.1 hd a) j).eventually_ne (h1 a j)
    filter_upwards [this] with x hx
    exact lsStepH_eq_some.2 ⟨hx, fun a j => rfl⟩
  · refine tendsto_pi_nhds.2 fun a => tendsto_pi_nhds.2 fun j => ?_
    rw [h2 a j]
    exact (tendsto_pi_nhds.1 (tendsto_pi_nhds.1 hH a) j).mul ((tendsto_pi_nhds.1 (tendsto_pi_nhds.1 hn a) j).div (tendsto_pi_nhds.1 (tendsto_pi_nhds.1 hd a) j) (h1 a j))

theorem tendsto_stepW' {V We : ι → Mat m n ℝ} {W : ι → Mat m k ℝ} {H : ι → Mat k n ℝ} {V0 We0 : Mat m n ℝ} {W0 W1 : Mat m k ℝ} {H0 : Mat k n ℝ}
    (hV : Tendsto (fun x => emul (We x) (V x)) l (𝓝 (emul We0 V0))) (hE : Tendsto We l (𝓝 We0)) (hW : Tendsto W l (𝓝 W0)) (hH : Tendsto H l (𝓝 H0)) (h : lsStepW V0 We0 W0 H0 = some W1) :
    ∃ W' : ι → Mat m k ℝ, (∀ᶠ x in l, lsStepW (V x) (We x) (W x) (H x) = some (W' x)) ∧ Tendsto W' l (𝓝 W1) := by
  obtain ⟨h1, h2⟩ := lsStepW_eq_some.1 h
  have hn : Tendsto (fun x => lsWNum (V x) (We x) (H x)) l (𝓝 (lsWNum V0 We0 H0)) := tendsto_mat_mul hV (tendsto_tr hH)
  have hd : Tendsto (fun x => lsWDen (We x) (W x) (H x)) l (𝓝 (lsWDen We0 W0 H0)) := tendsto_mat_mul (tendsto_emul hE (tendsto_mat_mul hW hH)) (tendsto_tr hH)
  refine ⟨fun x i a => W x i a * (lsWNum (V x) (We x) (H x) i a / lsWDen (We x) (W x) (H x) i a), ?_, ?_⟩
  · have : ∀ᶠ x in l, ∀ i a, lsWDen (We x) (W x) (H x) i a ≠ 0 := by
      rw [eventually_all]
      intro i
      rw [eventually_all]
      intro a
      exact (tendsto_pi_nhds.1 (tendsto_pi_nhds.1 hd i) a).eventually_ne (h1 i a)
    filter_upwards [this] with x hx
    exact lsStepW_eq_some.2 ⟨hx, fun i a => rfl⟩
  · refine tendsto_pi_nhds.2 fun i => tendsto_pi_nhds.2 fun a => ?_
    rw [h2 i a]
    exact (tendsto_pi_nhds.1 (tendsto_pi_nhds.1 hW i) a).mul ((tendsto_pi_nhds.1 (tendsto_pi_nhds.1 hn i) a).div (tendsto_pi_nhds.1 (tendsto_pi_nhds.1 hd i) a) (h1 i a))

section limit
variable {V U : ι → Mat m n ℝ} {s : ι → Fin m → ℝ} {r : ι → Fin n → ℝ} {keep : Fin m → Fin n → Bool} {R : Fin m → Bool} {C : Fin n → Bool} {V0 U0 : Mat m n ℝ}

theorem exH_pos (d : Weakened l V U s r keep R C V0 U0) (W : Mat m k ℝ) (H : Mat k n ℝ) (hW : ∀ i a, 0 < W i a) (hH : ∀ a j, 0 < H a j) :
    ∃ H1, lsStepH V0 (keptWeights (fun i j => R i && keep i j) U0) W H = some H1 ∧ ∀ a j, 0 < H1 a j := by
  have hE : ∀ i j, 0 ≤ keptWeights (fun i j => R i && keep i j) U0 i j := fun i j => by unfold keptWeights; split <;> positivity
  have hE' : ∀ i j, R i = true → keep i j = true → 0 < keptWeights (fun i j => R i && keep i j) U0 i j := fun i j h1 h2 => by
    have := d.unc0 i j h2
    simp only [keptWeights, h1, h2, Bool.and_true, if_true]
    positivity
  have hwh : ∀ (_ : Fin k) i j, 0 < (W ⬝ H) i j := fun a i j => Finset.sum_pos (fun b _ => mul_pos (hW i b) (hH b j)) ⟨a, Finset.mem_univ _⟩
  have hden : ∀ a j, 0 < lsHDen (keptWeights (fun i j => R i && keep i j) U0) W H a j := fun a j => by
    obtain ⟨i, h1, h2, h3⟩ := d.col j
    exact Finset.sum_pos' (fun i _ => mul_nonneg (hW i a).le (mul_nonneg (hE i j) (hwh a i j).le)) ⟨i, Finset.mem_univ _, mul_pos (hW i a) (mul_pos (hE' i j h1 h2) (hwh a i j))⟩
  have hnum : ∀ a j, 0 < lsHNum V0 (keptWeights (fun i j => R i && keep i j) U0) W a j := fun a j => by
    obtain ⟨i, h1, h2, h3⟩ := d.col j
    have hs : 0 < ∑ i, W i a * (keptWeights (fun i j => R i && keep i j) U0 i j * V0 i j) := ?_
    · exact hs
    refine Finset.sum_pos' (fun i _ => mul_nonneg (hW i a).le ?_) ⟨i, Finset.mem_univ _, mul_pos (hW i a) (mul_pos (hE' i j h1 h2) h3)⟩
    by_cases hk : keep i j = true
    · exact mul_nonneg (hE i j) (d.nonneg i j hk)
    · simp [keptWeights, hk]
  exact ⟨_, lsStepH_eq_some.2 ⟨fun a j => (hden a j).ne', fun a j => rfl⟩, fun a j => mul_pos (hH a j) (div_pos (hnum a j) (hden a j))⟩

theorem exW_pos (d : Weakened l V U s r keep R C V0 U0) (W : Mat m k ℝ) (H : Mat k n ℝ) (hW : ∀ i a, 0 < W i a) (hH : ∀ a j, 0 < H a j) :
    ∃ W1, lsStepW V0 (keptWeights (fun i j => C j && keep i j) U0) W H = some W1 ∧ ∀ i a, 0 < W1 i a := by
  have hE : ∀ i j, 0 ≤ keptWeights (fun i j => C j && keep i j) U0 i j := fun i j => by unfold keptWeights; split <;> positivity
  have hE' : ∀ i j, C j = true → keep i j = true → 0 < keptWeights (fun i j => C j && keep i j) U0 i j := fun i j h1 h2 => by
    have := d.unc0 i j h2
    simp only [keptWeights, h1, h2, Bool.and_true, if_true]
    positivity
  have hwh : ∀ (_ : Fin k) i j, 0 < (W ⬝ H) i j := fun a i j => Finset.sum_pos (fun b _ => mul_pos (hW i b) (hH b j)) ⟨a, Finset.mem_univ _⟩
  have hden : ∀ i a, 0 < lsWDen (keptWeights (fun i j => C j && keep i j) U0) W H i a := fun i a => by
    obtain ⟨j, h1, h2, h3⟩ := d.row i
    exact Finset.sum_pos' (fun j _ => mul_nonneg (mul_nonneg (hE i j) (hwh a i j).le) (hH a j).le) ⟨j, Finset.mem_univ _, mul_pos (mul_pos (hE' i j h1 h2) (hwh a i j)) (hH a j)⟩
  have hnum : ∀ i a, 0 < lsWNum V0 (keptWeights (fun i j => C j && keep i j) U0) H i a := fun i a => by
    obtain ⟨j, h1, h2, h3⟩ := d.row i
    have hs : 0 < ∑ j, keptWeights (fun i j => C j && keep i j) U0 i j * V0 i j * H a j := ?_
    · exact hs
    refine Finset.sum_pos' (fun j _ => mul_nonneg ?_ (hH a j).le) ⟨j, Finset.mem_univ _, mul_pos (mul_pos (hE' i j h1 h2) h3) (hH a j)⟩
    by_cases hk : keep i j = true
    · exact mul_nonneg (hE i j) (d.nonneg i j hk)
    · simp [keptWeights, hk]
  exact ⟨_, lsStepW_eq_some.2 ⟨fun i a => (hden i a).ne', fun i a => rfl⟩, fun i a => mul_pos (hW i a) (div_pos (hnum i a) (hden i a))⟩

/-- The scale-free parts of the residuals' denominators: `1 / (s U)`. -/
theorem Weakened.inv_row (d : Weakened l V U s r keep R C V0 U0) (i : Fin m) (j : Fin n) :
    Tendsto (fun x => (s x i * U x i j)⁻¹) l (𝓝 (if (R i && keep i j) = true then (U0 i j)⁻¹ else 0)) ∧
      Tendsto (fun x => V x i j * (s x i * U x i j)⁻¹) l (𝓝 (if (R i && keep i j) = true then V0 i j * (U0 i j)⁻¹ else 0)) := by
  have hs : Tendsto (fun x => (s x i)⁻¹) l (𝓝 (if R i = true then 1 else 0)) := by
    cases hR : R i with
    | true =>
      have : (fun x => (s x i)⁻¹) = fun _ => 1 := by funext x; rw [d.rowKept x i hR]; simp
      rw [this]; exact tendsto_const_nhds
    | false => simpa using d.rowBig i hR
  have hu : Tendsto (fun x => (U x i j)⁻¹) l (𝓝 (if keep i j = true then (U0 i j)⁻¹ else 0)) := by
    cases hk : keep i j with
    | true => simpa using (d.unc i j hk).inv₀ (d.unc0 i j hk)
    | false => simpa using d.cell i j hk
  have hv : Tendsto (fun x => V x i j * (U x i j)⁻¹) l (𝓝 (if keep i j = true then V0 i j * (U0 i j)⁻¹ else 0)) := by
    cases hk : keep i j with
    | true => simpa using (d.data i j hk).mul ((d.unc i j hk).inv₀ (d.unc0 i j hk))
    | false => simpa [div_eq_mul_inv] using d.signal i j hk
  constructor
  · have := hs.mul hu
    have e : (fun x => (s x i * U x i j)⁻¹) = fun x => (s x i)⁻¹ * (U x i j)⁻¹ := by funext x; rw [mul_inv]
    rw [e]
    cases hR : R i <;> cases hk : keep i j <;> simpa [hR, hk] using this
  · have := hs.mul hv
    have e : (fun x => V x i j * (s x i * U x i j)⁻¹) = fun x => (s x i)⁻¹ * (V x i j * (U x i j)⁻¹) := by funext x; rw [mul_inv]; ring
    rw [e]
    cases hR : R i <;> cases hk : keep i j <;> simpa [hR, hk] using this

/-- Samples and features change places. -/
theorem Weakened.swap (d : Weakened l V U s r keep R C V0 U0) : Weakened l (fun x j i => V x i j) (fun x j i => U x i j) r s (fun j i => keep i j) C R (fun j i => V0 i j) (fun j i => U0 i j) :=
  ⟨fun j i => d.data i j, fun j i => d.unc i j, fun j i => d.unc0 i j, fun j i => d.cell i j, fun j i => d.signal i j, d.colKept, d.colNe, d.colBig, d.rowKept, d.rowNe, d.rowBig, fun j i => d.nonneg i j, d.col, d.row⟩

theorem Weakened.weightsE (d : Weakened l V U s r keep R C V0 U0) :
    Tendsto (fun x => weights fun i j => s x i * U x i j) l (𝓝 (keptWeights (fun i j => R i && keep i j) U0)) ∧
      Tendsto (fun x => emul (weights fun i j => s x i * U x i j) (V x)) l (𝓝 (emul (keptWeights (fun i j => R i && keep i j) U0) V0)) := by
  constructor
  · refine tendsto_pi_nhds.2 fun i => tendsto_pi_nhds.2 fun j => ?_
    have h := ((d.inv_row i j).1).pow 2
    have e : (fun x => weights (fun i j => s x i * U x i j) i j) = fun x => ((s x i * U x i j)⁻¹) ^ 2 := by funext x; simp only [weights, one_div, inv_pow]
    rw [e]
    unfold keptWeights
    cases hb : (R i && keep i j) <;> simpa [hb] using h
  · refine tendsto_pi_nhds.2 fun i => tendsto_pi_nhds.2 fun j => ?_
    have h := ((d.inv_row i j).1).mul (d.inv_row i j).2
    have e : (fun x => emul (weights fun i j => s x i * U x i j) (V x) i j) = fun x => (s x i * U x i j)⁻¹ * (V x i j * (s x i * U x i j)⁻¹) := by
      funext x; simp only [emul, weights, one_div, inv_pow]; ring
    rw [e]
    unfold emul keptWeights
    cases hb : (R i && keep i j)
    · simpa [hb] using h
    · have e2 : (1 : ℝ) / U0 i j ^ 2 * V0 i j = (U0 i j)⁻¹ * (V0 i j * (U0 i j)⁻¹) := by rw [one_div, ← inv_pow]; ring
      rw [hb] at h
      rw [if_pos hb, e2]
      simpa using h

theorem Weakened.weightsF (d : Weakened l V U s r keep R C V0 U0) :
    Tendsto (fun x => weights fun i j => r x j * U x i j) l (𝓝 (keptWeights (fun i j => C j && keep i j) U0)) ∧
      Tendsto (fun x => emul (weights fun i j => r x j * U x i j) (V x)) l (𝓝 (emul (keptWeights (fun i j => C j && keep i j) U0) V0)) := by
  obtain ⟨h1, h2⟩ := d.swap.weightsE
  exact ⟨tendsto_tr h1, tendsto_tr h2⟩

/-- After every fixed number of updates the factors approach those of the updates in which the weakened samples have no weight in the profiles and the weakened features no weight in the contributions. -/
theorem Weakened.updates (d : Weakened l V U s r keep R C V0 U0) {W : ι → Mat m k ℝ} {H : ι → Mat k n ℝ} {W0 : Mat m k ℝ} {H0 : Mat k n ℝ}
    (hW : Tendsto W l (𝓝 W0)) (hH : Tendsto H l (𝓝 H0)) (pW : ∀ i a, 0 < W0 i a) (pH : ∀ a j, 0 < H0 a j) (flags : ℕ → Bool) (t : ℕ) :
    ∃ (Wt : ι → Mat m k ℝ) (Ht : ι → Mat k n ℝ) (Wl : Mat m k ℝ) (Hl : Mat k n ℝ),
      (∀ᶠ x in l, traj (lsLoopStep (V x) (weights fun i j => s x i * r x j * U x i j)) flags (some (W x), some (H x)) t = (some (Wt x), some (Ht x))) ∧
      traj (splitStep V0 (keptWeights (fun i j => R i && keep i j) U0) (keptWeights (fun i j => C j && keep i j) U0)) flags (some W0, some H0) t = (some Wl, some Hl) ∧
      Tendsto Wt l (𝓝 Wl) ∧ Tendsto Ht l (𝓝 Hl) ∧ (∀ i a, 0 < Wl i a) ∧ ∀ a j, 0 < Hl a j := by
  have sH : ∀ x (W : Mat m k ℝ) (H : Mat k n ℝ), lsStepH (V x) (weights fun i j => s x i * r x j * U x i j) W H = lsStepH (V x) (weights fun i j => s x i * U x i j) W H := fun x W H => by
    have e : (weights fun i j => s x i * r x j * U x i j) = fun i j => 1 / r x j ^ 2 * (weights fun i j => s x i * U x i j) i j := by
      funext i j
      simp only [weights, one_div, ← inv_pow, mul_inv]
      ring
    rw [e]
    exact lsStepH_scale _ _ _ (fun j => one_div_ne_zero (pow_ne_zero 2 (d.colNe x j))) _ _
  have sW : ∀ x (W : Mat m k ℝ) (H : Mat k n ℝ), lsStepW (V x) (weights fun i j => s x i * r x j * U x i j) W H = lsStepW (V x) (weights fun i j => r x j * U x i j) W H := fun x W H => by
    have e : (weights fun i j => s x i * r x j * U x i j) = fun i j => 1 / s x i ^ 2 * (weights fun i j => r x j * U x i j) i j := by
      funext i j
      simp only [weights, one_div, ← inv_pow, mul_inv]
      ring
    rw [e]
    exact lsStepW_scale _ _ _ (fun i => one_div_ne_zero (pow_ne_zero 2 (d.rowNe x i))) _ _
  obtain ⟨E1, E2⟩ := d.weightsE
  obtain ⟨F1, F2⟩ := d.weightsF
  induction t with
  | zero => exact ⟨W, H, W0, H0, Eventually.of_forall fun x => rfl, rfl, hW, hH, pW, pH⟩
  | succ t ih =>
    obtain ⟨Wt, Ht, Wl, Hl, e1, e2, e3, e4, e5, e6⟩ := ih
    cases hf : flags t with
    | true =>
      obtain ⟨H1, a1, a2⟩ := exH_pos d Wl Hl e5 e6
      obtain ⟨W1, b1, b2⟩ := exW_pos d Wl H1 e5 a2
      obtain ⟨H', c1, c2⟩ := tendsto_stepH' E2 E1 e3 e4 a1
      obtain ⟨W', c3, c4⟩ := tendsto_stepW' F2 F1 e3 c2 b1
      refine ⟨W', H', W1, H1, ?_, ?_, c4, c2, b2, a2⟩
      · filter_upwards [e1, c1, c3] with x x1 x2 x3
        rw [traj, x1, hf]
        simp [lsLoopStep, sH, sW, x2, x3]
      · rw [traj, e2, hf]
        simp [splitStep, a1, b1]
    | false =>
      obtain ⟨W1, b1, b2⟩ := exW_pos d Wl Hl e5 e6
      obtain ⟨W', c3, c4⟩ := tendsto_stepW' F2 F1 e3 e4 b1
      refine ⟨W', Ht, W1, Hl, ?_, ?_, c4, e4, b2, e6⟩
      · filter_upwards [e1, c3] with x x1 x3
        rw [traj, x1, hf]
        simp [lsLoopStep, sW, x3]
      · rw [traj, e2, hf]
        simp [splitStep, b1]

/-! ## The kept samples and features -/

/-- On the kept samples and features these updates are the updates of the data without the others. -/
theorem exTraj_sub (σ : Fin m' → Fin m) (τ : Fin n' → Fin n) (hσ : Function.Injective σ) (hτ : Function.Injective τ) (hR : ∀ i, R i = true ↔ ∃ i', σ i' = i) (hC : ∀ j, C j = true ↔ ∃ j', τ j' = j)
    (W0 : Mat m k ℝ) (H0 : Mat k n ℝ) (flags : ℕ → Bool) (t : ℕ) (Ws : ℕ → Mat m k ℝ) (Hs : ℕ → Mat k n ℝ)
    (h : ∀ t, traj (splitStep V0 (keptWeights (fun i j => R i && keep i j) U0) (keptWeights (fun i j => C j && keep i j) U0)) flags (some W0, some H0) t = (some (Ws t), some (Hs t))) :
    traj (lsLoopStep (fun i j => V0 (σ i) (τ j)) (keptWeights (fun i j => keep (σ i) (τ j)) fun i j => U0 (σ i) (τ j))) flags (some fun i => W0 (σ i), some fun a j => H0 a (τ j)) t =
      (some fun i => Ws t (σ i), some fun a j => Hs t a (τ j)) := by
  have hRσ : ∀ i', R (σ i') = true := fun i' => (hR _).2 ⟨i', rfl⟩
  have hCτ : ∀ j', C (τ j') = true := fun j' => (hC _).2 ⟨j', rfl⟩
  have sH : ∀ (W : Mat m k ℝ) (H H1 : Mat k n ℝ), lsStepH V0 (keptWeights (fun i j => R i && keep i j) U0) W H = some H1 →
      lsStepH (fun i j => V0 (σ i) (τ j)) (keptWeights (fun i j => keep (σ i) (τ j)) fun i j => U0 (σ i) (τ j)) (fun i => W (σ i)) (fun a j => H a (τ j)) = some fun a j => H1 a (τ j) := by
    intro W H H1 h
    obtain ⟨h1, h2⟩ := lsStepH_eq_some.1 h
    have hd : ∀ a j', lsHDen (keptWeights (fun i j => keep (σ i) (τ j)) fun i j => U0 (σ i) (τ j)) (fun i => W (σ i)) (fun a j => H a (τ j)) a j' = lsHDen (keptWeights (fun i j => R i && keep i j) U0) W H a (τ j') := fun a j' => by
      refine Fintype.sum_of_injective σ hσ _ _ (fun i hi => ?_) fun i' => ?_
      · have : R i = false := by by_contra hc; exact hi ((hR i).1 (by simpa using hc))
        simp [emul, keptWeights, this]
      · simp [emul, keptWeights, hRσ, tr, mmul]
    have hn : ∀ a j', lsHNum (fun i j => V0 (σ i) (τ j)) (keptWeights (fun i j => keep (σ i) (τ j)) fun i j => U0 (σ i) (τ j)) (fun i => W (σ i)) a j' = lsHNum V0 (keptWeights (fun i j => R i && keep i j) U0) W a (τ j') := fun a j' => by
      refine Fintype.sum_of_injective σ hσ _ _ (fun i hi => ?_) fun i' => ?_
      · have : R i = false := by by_contra hc; exact hi ((hR i).1 (by simpa using hc))
        simp [emul, keptWeights, this]
      · simp [emul, keptWeights, hRσ, tr]
    exact lsStepH_eq_some.2 ⟨fun a j' => by rw [hd]; exact h1 _ _, fun a j' => by rw [hd, hn]; exact h2 _ _⟩
  have sW : ∀ (W W1 : Mat m k ℝ) (H : Mat k n ℝ), lsStepW V0 (keptWeights (fun i j => C j && keep i j) U0) W H = some W1 →
      lsStepW (fun i j => V0 (σ i) (τ j)) (keptWeights (fun i j => keep (σ i) (τ j)) fun i j => U0 (σ i) (τ j)) (fun i => W (σ i)) (fun a j => H a (τ j)) = some fun i => W1 (σ i) := by
    intro W W1 H h
    obtain ⟨h1, h2⟩ := lsStepW_eq_some.1 h
    have hd : ∀ i' a, lsWDen (keptWeights (fun i j => keep (σ i) (τ j)) fun i j => U0 (σ i) (τ j)) (fun i => W (σ i)) (fun a j => H a (τ j)) i' a = lsWDen (keptWeights (fun i j => C j && keep i j) U0) W H (σ i') a := fun i' a => by
      refine Fintype.sum_of_injective τ hτ _ _ (fun j hj => ?_) fun j' => ?_
      · have : C j = false := by by_contra hc; exact hj ((hC j).1 (by simpa using hc))
        simp [emul, keptWeights, this]
      · simp [emul, keptWeights, hCτ, tr, mmul]
    have hn : ∀ i' a, lsWNum (fun i j => V0 (σ i) (τ j)) (keptWeights (fun i j => keep (σ i) (τ j)) fun i j => U0 (σ i) (τ j)) (fun a j => H a (τ j)) i' a = lsWNum V0 (keptWeights (fun i j => C j && keep i j) U0) H (σ i') a := fun i' a => by
      refine Fintype.sum_of_injective τ hτ _ _ (fun j hj => ?_) fun j' => ?_
      · have : C j = false := by by_contra hc; exact hj ((hC j).1 (by simpa using hc))
        simp [emul, keptWeights, this]
      · simp [emul, keptWeights, hCτ, tr]
    exact lsStepW_eq_some.2 ⟨fun i' a => by rw [hd]; exact h1 _ _, fun i' a => by rw [hd, hn]; exact h2 _ _⟩
  induction t with
  | zero =>
    have h0 := h 0
    simp only [traj, Prod.mk.injEq, Option.some.injEq] at h0
    rw [traj, h0.1, h0.2]
  | succ t ih =>
    have h1 := h (t + 1)
    rw [traj, h t] at h1
    rw [traj, ih]
    cases hf : flags t with
    | true =>
      rw [hf] at h1
      simp only [splitStep, if_true, Option.bind_some, Prod.mk.injEq] at h1
      obtain ⟨u1, u2⟩ := h1
      rw [u2, Option.bind_some] at u1
      simp only [lsLoopStep, if_true, Option.bind_some, sH _ _ _ u2, sW _ _ _ u1]
    | false =>
      rw [hf] at h1
      simp only [splitStep, Bool.false_eq_true, if_false, Option.bind_some, Prod.mk.injEq, Option.some.injEq] at h1
      obtain ⟨u1, u2⟩ := h1
      rw [← u2]
      simp only [lsLoopStep, Bool.false_eq_true, if_false, Option.bind_some, sW _ _ _ u1]

theorem Weakened.loss (d : Weakened l V U s r keep R C V0 U0) (σ : Fin m' → Fin m) (τ : Fin n' → Fin n) (hσ : Function.Injective σ) (hτ : Function.Injective τ) (hR : ∀ i, R i = true ↔ ∃ i', σ i' = i)
    (hC : ∀ j, C j = true ↔ ∃ j', τ j' = j) {W : ι → Mat m k ℝ} {H : ι → Mat k n ℝ} {W0 : Mat m k ℝ} {H0 : Mat k n ℝ} (hW : Tendsto W l (𝓝 W0)) (hH : Tendsto H l (𝓝 H0)) :
    Tendsto (fun x => qLoss (V x) (fun i j => s x i * r x j * U x i j) (W x) (H x)) l
      (𝓝 (keptLoss (fun i j => keep (σ i) (τ j)) (fun i j => V0 (σ i) (τ j)) (fun i j => U0 (σ i) (τ j)) (fun i => W0 (σ i)) (fun a j => H0 a (τ j)))) := by
  have e : keptLoss (fun i j => keep (σ i) (τ j)) (fun i j => V0 (σ i) (τ j)) (fun i j => U0 (σ i) (τ j)) (fun i => W0 (σ i)) (fun a j => H0 a (τ j)) =
      ∑ i, ∑ j, if (R i && keep i j) = true ∧ C j = true then ((V0 i j - ∑ a, W0 i a * H0 a j) / U0 i j) ^ 2 else 0 := by
    refine Fintype.sum_of_injective σ hσ _ _ (fun i hi => ?_) fun i' => ?_
    · have : R i = false := by by_contra hc; exact hi ((hR i).1 (by simpa using hc))
      simp [this]
    · refine Fintype.sum_of_injective τ hτ _ _ (fun j hj => ?_) fun j' => ?_
      · have : C j = false := by by_contra hc; exact hj ((hC j).1 (by simpa using hc))
        simp [this]
      · have h1 : R (σ i') = true := (hR _).2 ⟨i', rfl⟩
        have h2 : C (τ j') = true := (hC _).2 ⟨j', rfl⟩
        simp [h1, h2]
  rw [e]
  have e2 : ∀ x, qLoss (V x) (fun i j => s x i * r x j * U x i j) (W x) (H x) =
      ∑ i, ∑ j, ((V x i j * (s x i * U x i j)⁻¹ - (∑ a, W x i a * H x a j) * (s x i * U x i j)⁻¹) * (r x j)⁻¹) ^ 2 := fun x => by
    rw [qLoss_amounts]
    refine Finset.sum_congr rfl fun i _ => Finset.sum_congr rfl fun j _ => ?_
    simp only [amounts, div_eq_mul_inv, mul_inv]
    ring
  simp only [e2]
  refine tendsto_finsetSum _ fun i _ => tendsto_finsetSum _ fun j _ => ?_
  have hr : Tendsto (fun x => (r x j)⁻¹) l (𝓝 (if C j = true then 1 else 0)) := by
    cases hc : C j with
    | true =>
      have : (fun x => (r x j)⁻¹) = fun _ => 1 := by funext x; rw [d.colKept x j hc]; simp
      rw [this]; exact tendsto_const_nhds
    | false => simpa using d.colBig j hc
  have hwh : Tendsto (fun x => ∑ a, W x i a * H x a j) l (𝓝 (∑ a, W0 i a * H0 a j)) :=
    tendsto_finsetSum _ fun a _ => (tendsto_pi_nhds.1 (tendsto_pi_nhds.1 hW i) a).mul (tendsto_pi_nhds.1 (tendsto_pi_nhds.1 hH a) j)
  have h := ((((d.inv_row i j).2).sub (hwh.mul (d.inv_row i j).1)).mul hr).pow 2
  cases hb : (R i && keep i j) <;> cases hc : C j
  · simpa [hb, hc] using h
  · simpa [hb, hc] using h
  · simpa [hb, hc] using h
  · have e3 : (V0 i j - ∑ a, W0 i a * H0 a j) / U0 i j = V0 i j * (U0 i j)⁻¹ - (∑ a, W0 i a * H0 a j) * (U0 i j)⁻¹ := by rw [div_eq_mul_inv]; ring
    rw [e3]
    simpa [hb, hc] using h

end limit

/-- Runs whose losses approach those of a run in which no compared difference equals `converge_delta` have, from some point on, its length and outcome. -/
theorem rustLoop_limit {σ σ' : Type*} (step : ι → Bool → σ → σ) (loss : ι → σ → Option ℝ) (s : ι → σ) (step0 : Bool → σ' → σ') (loss0 : σ' → Option ℝ) (s0 : σ') (cfg : LoopCfg ℝ) (h : 0 < cfg.maxIter)
    (q : ι → ℕ → ℝ) (q0 : ℕ → ℝ) (h0 : ∀ i, lossAt step0 loss0 (rustUpdatesH cfg) s0 i = some (q0 i)) (hx : ∀ i, ∀ᶠ x in l, lossAt (step x) (loss x) (rustUpdatesH cfg) (s x) i = some (q x i))
    (hq : ∀ i, Tendsto (fun x => q x i) l (𝓝 (q0 i))) (clock0 : ℕ → Bool)
    (hne : ∀ i, (max cfg.convergeN 1).toNat ≤ i + 1 → i < (rustLoop step0 loss0 cfg clock0 s0).losses.length → q0 (i + 1 - (max cfg.convergeN 1).toNat) - q0 i ≠ cfg.delta) :
    ∀ᶠ x in l, ∀ clock : ℕ → Bool, (rustLoop (step x) (loss x) cfg clock (s x)).converged = (rustLoop step0 loss0 cfg clock0 s0).converged ∧
      (rustLoop (step x) (loss x) cfg clock (s x)).convergeI = (rustLoop step0 loss0 cfg clock0 s0).convergeI ∧
      (rustLoop (step x) (loss x) cfg clock (s x)).losses = (List.range (rustLoop step0 loss0 cfg clock0 s0).losses.length).map (fun i => some (q x i)) ∧
      (rustLoop (step x) (loss x) cfg clock (s x)).factors = traj (step x) (rustUpdatesH cfg) (s x) (rustLoop step0 loss0 cfg clock0 s0).losses.length := by
  set t := (rustLoop step0 loss0 cfg clock0 s0).losses.length with ht
  set N := (max cfg.convergeN 1).toNat with hN
  have hN1 : 1 ≤ N := by omega
  have ev1 : ∀ᶠ x in l, ∀ i ∈ Finset.range t, lossAt (step x) (loss x) (rustUpdatesH cfg) (s x) i = some (q x i) := (Finset.eventually_all _).2 fun i _ => hx i
  have ev2 : ∀ᶠ x in l, ∀ i ∈ Finset.range t, N ≤ i + 1 → (q x (i + 1 - N) - q x i < cfg.delta ↔ q0 (i + 1 - N) - q0 i < cfg.delta) := by
    refine (Finset.eventually_all _).2 fun i hi => ?_
    rw [Finset.mem_range] at hi
    by_cases hNi : N ≤ i + 1
    · have hd := (hq (i + 1 - N)).sub (hq i)
      rcases lt_or_gt_of_ne (hne i hNi hi) with hlt | hgt
      · filter_upwards [hd.eventually_lt_const hlt] with x hx _
        exact ⟨fun _ => hlt, fun _ => hx⟩
      · filter_upwards [hd.eventually_const_lt hgt] with x hx _
        exact ⟨fun h => absurd (h.trans hx) (lt_irrefl _), fun h => absurd (h.trans hgt) (lt_irrefl _)⟩
    · exact Eventually.of_forall fun x hx => absurd hx hNi
  filter_upwards [ev1, ev2] with x x1 x2 clock
  obtain ⟨r1, r2, r3⟩ := rustLoop_length step0 loss0 (step x) (loss x) cfg clock0 clock s0 (s x) h (fun i hi => by
    have hE : effN cfg.convergeN = N := rfl
    unfold Crit
    rw [hE]
    constructor
    · rintro ⟨c1, a, b, c2, c3, c4⟩
      rw [x1 _ (Finset.mem_range.2 (by omega))] at c2 c3
      obtain rfl := Option.some.inj c2
      obtain rfl := Option.some.inj c3
      exact ⟨c1, _, _, h0 _, h0 _, (x2 i (Finset.mem_range.2 hi) c1).1 c4⟩
    · rintro ⟨c1, a, b, c2, c3, c4⟩
      rw [h0] at c2 c3
      obtain rfl := Option.some.inj c2
      obtain rfl := Option.some.inj c3
      exact ⟨c1, _, _, x1 _ (Finset.mem_range.2 (by omega)), x1 _ (Finset.mem_range.2 hi), (x2 i (Finset.mem_range.2 hi) c1).2 c4⟩)
  obtain ⟨u, u1, u2, u3, u4, -⟩ := rustLoop_spec (step x) (loss x) cfg clock (s x) h
  have hu : u = t := by
    rw [ht, ← r1, u4]; simp
  rw [hu] at u3 u4
  exact ⟨r2, r3, by rw [u4]; exact List.map_congr_left fun i hi => x1 i (Finset.mem_range.2 (List.mem_range.1 hi)), u3⟩

/-- **C263, runs.** Let the uncertainties of the cells outside `keep`, of the samples outside the range of `σ` and of the features outside the range of `τ` grow beyond all bounds, the others and the data approach limits. If in the
training on the kept cells of the kept samples and features no compared difference of losses equals `converge_delta`, then from some point on every training has as many iterations and the same outcome, its losses approach those of the
training on the kept part, and its factors approach factors that agree, on the kept samples and features, with those of the training on the kept part. -/
theorem C263_run {V U : ι → Mat m n ℝ} {s : ι → Fin m → ℝ} {r : ι → Fin n → ℝ} {keep : Fin m → Fin n → Bool} {R : Fin m → Bool} {C : Fin n → Bool} {V0 U0 : Mat m n ℝ} (d : Weakened l V U s r keep R C V0 U0)
    (σ : Fin m' → Fin m) (τ : Fin n' → Fin n) (hσ : Function.Injective σ) (hτ : Function.Injective τ) (hR : ∀ i, R i = true ↔ ∃ i', σ i' = i) (hC : ∀ j, C j = true ↔ ∃ j', τ j' = j)
    {W : ι → Mat m k ℝ} {H : ι → Mat k n ℝ} {W0 : Mat m k ℝ} {H0 : Mat k n ℝ} (hW : Tendsto W l (𝓝 W0)) (hH : Tendsto H l (𝓝 H0)) (pW : ∀ i a, 0 < W0 i a) (pH : ∀ a j, 0 < H0 a j)
    (cfg : LoopCfg ℝ) (clock0 : ℕ → Bool) (h : 0 < cfg.maxIter)
    (T : RustState (Option (Mat m' k ℝ) × Option (Mat k n' ℝ)) ℝ)
    (hT : T = keptTrain (fun i j => keep (σ i) (τ j)) (fun i j => V0 (σ i) (τ j)) (fun i j => U0 (σ i) (τ j)) cfg clock0 (fun i => W0 (σ i)) (fun a j => H0 a (τ j)))
    (hne : ∀ i a b, (max cfg.convergeN 1).toNat ≤ i + 1 → T.losses[i + 1 - (max cfg.convergeN 1).toNat]? = some (some a) → T.losses[i]? = some (some b) → a - b ≠ cfg.delta) :
    ∃ (W' : ι → Mat m k ℝ) (H' : ι → Mat k n ℝ) (Wl : Mat m k ℝ) (Hl : Mat k n ℝ) (q : ι → ℕ → ℝ) (ql : ℕ → ℝ),
      T.factors = (some fun i => Wl (σ i), some fun a j => Hl a (τ j)) ∧ Tendsto W' l (𝓝 Wl) ∧ Tendsto H' l (𝓝 Hl) ∧ (∀ i, Tendsto (fun x => q x i) l (𝓝 (ql i))) ∧ (∀ i, i < T.losses.length → T.losses[i]? = some (some (ql i))) ∧
      (∀ i a, 0 < Wl i a) ∧ (∀ a j, 0 < Hl a j) ∧
      ∀ᶠ x in l, ∀ (clock : ℕ → Bool) (rm : Bool) (rn : ℤ),
        (lsTrain (V x) (fun i j => s x i * r x j * U x i j) cfg clock rm rn (W x) (H x)).factors = (some (W' x), some (H' x)) ∧
        (lsTrain (V x) (fun i j => s x i * r x j * U x i j) cfg clock rm rn (W x) (H x)).converged = T.converged ∧
        (lsTrain (V x) (fun i j => s x i * r x j * U x i j) cfg clock rm rn (W x) (H x)).convergeI = T.convergeI ∧
        (lsTrain (V x) (fun i j => s x i * r x j * U x i j) cfg clock rm rn (W x) (H x)).losses = (List.range T.losses.length).map fun i => some (q x i) := by
  choose Wt Ht Wl Hl e1 e2 e3 e4 e5 e6 using d.updates hW hH pW pH (rustUpdatesH cfg)
  have hs := fun t => exTraj_sub (keep := keep) (R := R) (C := C) (V0 := V0) (U0 := U0) σ τ hσ hτ hR hC W0 H0 (rustUpdatesH cfg) t Wl Hl e2
  set ql : ℕ → ℝ := fun i => keptLoss (fun i j => keep (σ i) (τ j)) (fun i j => V0 (σ i) (τ j)) (fun i j => U0 (σ i) (τ j)) (fun i' => Wl (i + 1) (σ i')) (fun a j => Hl (i + 1) a (τ j)) with hql
  set q : ι → ℕ → ℝ := fun x i => qLoss (V x) (fun i j => s x i * r x j * U x i j) (Wt (i + 1) x) (Ht (i + 1) x) with hqd
  have hl0 : ∀ i, lossAt (lsLoopStep (fun i j => V0 (σ i) (τ j)) (keptWeights (fun i j => keep (σ i) (τ j)) fun i j => U0 (σ i) (τ j))) (keptQ (fun i j => keep (σ i) (τ j)) (fun i j => V0 (σ i) (τ j)) (fun i j => U0 (σ i) (τ j)))
      (rustUpdatesH cfg) (some fun i => W0 (σ i), some fun a j => H0 a (τ j)) i = some (ql i) := fun i => by rw [lossAt, hs]; rfl
  obtain ⟨t, t1, t2, t3, t4, -⟩ := rustLoop_spec (lsLoopStep (fun i j => V0 (σ i) (τ j)) (keptWeights (fun i j => keep (σ i) (τ j)) fun i j => U0 (σ i) (τ j)))
    (keptQ (fun i j => keep (σ i) (τ j)) (fun i j => V0 (σ i) (τ j)) (fun i j => U0 (σ i) (τ j))) cfg clock0 (some fun i => W0 (σ i), some fun a j => H0 a (τ j)) h
  have e0 : rustLoop (lsLoopStep (fun i j => V0 (σ i) (τ j)) (keptWeights (fun i j => keep (σ i) (τ j)) fun i j => U0 (σ i) (τ j)))
    (keptQ (fun i j => keep (σ i) (τ j)) (fun i j => V0 (σ i) (τ j)) (fun i j => U0 (σ i) (τ j))) cfg clock0 (some fun i => W0 (σ i), some fun a j => H0 a (τ j)) = T := hT.symm
  rw [e0] at t3 t4
  have hlen : T.losses.length = t := by rw [t4]; simp
  have hloss : ∀ i, i < t → T.losses[i]? = some (some (ql i)) := fun i hi => by
    rw [t4, List.getElem?_map, List.getElem?_range hi, ← hl0 i]; rfl
  have hq : ∀ i, Tendsto (fun x => q x i) l (𝓝 (ql i)) := fun i => d.loss σ τ hσ hτ hR hC (e3 (i + 1)) (e4 (i + 1))
  have hx : ∀ i, ∀ᶠ x in l, lossAt (lsLoopStep (V x) (weights fun i j => s x i * r x j * U x i j)) (lsQ (V x) fun i j => s x i * r x j * U x i j) (rustUpdatesH cfg) (some (W x), some (H x)) i = some (q x i) := fun i => by
    filter_upwards [e1 (i + 1)] with x x1
    rw [lossAt, x1]; rfl
  have key := rustLoop_limit (fun x => lsLoopStep (V x) (weights fun i j => s x i * r x j * U x i j)) (fun x => lsQ (V x) fun i j => s x i * r x j * U x i j) (fun x => (some (W x), some (H x))) _ _ _ cfg h q ql hl0 hx hq clock0
    (fun i hi hlt => by
      have hlt : i < t := by
        rw [e0, hlen] at hlt
        exact hlt
      exact hne i _ _ hi (hloss _ (by omega)) (hloss i hlt))
  refine ⟨Wt t, Ht t, Wl t, Hl t, q, ql, by rw [t3, hs], e3 t, e4 t, hq, fun i hi => hloss i (hlen ▸ hi), e5 t, e6 t, ?_⟩
  filter_upwards [key, e1 t] with x x1 x2 clock rm rn
  obtain ⟨k1, k2, k3, k4⟩ := x1 clock
  rw [e0] at k1 k2 k3 k4
  rw [hlen] at k3 k4
  refine ⟨?_, ?_, ?_, ?_⟩
  · rw [lsTrain, k4, x2]
  · rw [lsTrain, k1]
  · rw [lsTrain, k2]
  · rw [lsTrain, k3, hlen]

/-- **C263, cells.** Uncertainties that grow in some cells only, data fixed: from some point on the training has the iterations and the outcome of the training on the other cells, and its factors and losses approach those of the latter. -/
theorem C263_cells (keep : Fin m → Fin n → Bool) (V0 : Mat m n ℝ) (U : ι → Mat m n ℝ) (U0 : Mat m n ℝ) (hU : ∀ x i j, keep i j = true → U x i j = U0 i j) (hU0 : ∀ i j, keep i j = true → U0 i j ≠ 0)
    (hbig : ∀ i j, keep i j = false → Tendsto (fun x => U x i j) l atTop) (hV : ∀ i j, keep i j = true → 0 ≤ V0 i j) (hrow : ∀ i, ∃ j, keep i j = true ∧ 0 < V0 i j) (hcol : ∀ j, ∃ i, keep i j = true ∧ 0 < V0 i j)
    (W0 : Mat m k ℝ) (H0 : Mat k n ℝ) (pW : ∀ i a, 0 < W0 i a) (pH : ∀ a j, 0 < H0 a j) (cfg : LoopCfg ℝ) (clock0 : ℕ → Bool) (h : 0 < cfg.maxIter)
    (hne : ∀ i a b, (max cfg.convergeN 1).toNat ≤ i + 1 → (keptTrain keep V0 U0 cfg clock0 W0 H0).losses[i + 1 - (max cfg.convergeN 1).toNat]? = some (some a) →
      (keptTrain keep V0 U0 cfg clock0 W0 H0).losses[i]? = some (some b) → a - b ≠ cfg.delta) :
    ∃ (W' : ι → Mat m k ℝ) (H' : ι → Mat k n ℝ) (Wl : Mat m k ℝ) (Hl : Mat k n ℝ) (q : ι → ℕ → ℝ) (ql : ℕ → ℝ),
      (keptTrain keep V0 U0 cfg clock0 W0 H0).factors = (some Wl, some Hl) ∧ Tendsto W' l (𝓝 Wl) ∧ Tendsto H' l (𝓝 Hl) ∧ (∀ i, Tendsto (fun x => q x i) l (𝓝 (ql i))) ∧
      (∀ i, i < (keptTrain keep V0 U0 cfg clock0 W0 H0).losses.length → (keptTrain keep V0 U0 cfg clock0 W0 H0).losses[i]? = some (some (ql i))) ∧
      ∀ᶠ x in l, ∀ (clock : ℕ → Bool) (rm : Bool) (rn : ℤ),
        (lsTrain V0 (U x) cfg clock rm rn W0 H0).factors = (some (W' x), some (H' x)) ∧
        (lsTrain V0 (U x) cfg clock rm rn W0 H0).converged = (keptTrain keep V0 U0 cfg clock0 W0 H0).converged ∧
        (lsTrain V0 (U x) cfg clock rm rn W0 H0).convergeI = (keptTrain keep V0 U0 cfg clock0 W0 H0).convergeI ∧
        (lsTrain V0 (U x) cfg clock rm rn W0 H0).losses = (List.range (keptTrain keep V0 U0 cfg clock0 W0 H0).losses.length).map fun i => some (q x i) := by
  have d : Weakened l (fun _ => V0) U (fun _ _ => 1) (fun _ _ => 1) keep (fun _ => true) (fun _ => true) V0 U0 :=
    { data := fun i j _ => tendsto_const_nhds
      unc := fun i j hk => by
        have : (fun x => U x i j) = fun _ => U0 i j := funext fun x => hU x i j hk
        rw [this]; exact tendsto_const_nhds
      unc0 := hU0
      cell := fun i j hk => tendsto_inv_atTop_zero.comp (hbig i j hk)
      signal := fun i j hk => by
        have := (tendsto_inv_atTop_zero.comp (hbig i j hk)).const_mul (V0 i j)
        simpa [div_eq_mul_inv, Function.comp_def] using this
      rowKept := fun _ _ _ => rfl
      rowNe := fun _ _ => one_ne_zero
      rowBig := fun _ h => absurd h (by simp)
      colKept := fun _ _ _ => rfl
      colNe := fun _ _ => one_ne_zero
      colBig := fun _ h => absurd h (by simp)
      nonneg := hV
      row := fun i => by obtain ⟨j, h1, h2⟩ := hrow i; exact ⟨j, rfl, h1, h2⟩
      col := fun j => by obtain ⟨i, h1, h2⟩ := hcol j; exact ⟨i, rfl, h1, h2⟩ }
  obtain ⟨W', H', Wl, Hl, q, ql, h1, h2, h3, h4, h5, -, -, h6⟩ := C263_run d (fun i => i) (fun j => j) (fun _ _ h => h) (fun _ _ h => h) (fun i => by simp) (fun j => by simp) (W := fun _ => W0) (H := fun _ => H0)
    tendsto_const_nhds tendsto_const_nhds pW pH cfg clock0 h _ rfl hne
  refine ⟨W', H', Wl, Hl, q, ql, h1, h2, h3, h4, h5, ?_⟩
  simpa only [one_mul, mul_one] using h6

/-- **C263, samples and features.** If the uncertainties of all cells of some samples are multiplied by `c` and those of some features by `c`, then for `c` beyond all bounds the training approaches the training on the data without these samples
and features, as far as the others are concerned; the samples and features left out still get positive contributions and profiles. -/
theorem C263_parts (V0 U0 : Mat m n ℝ) (R : Fin m → Bool) (C : Fin n → Bool) (σ : Fin m' → Fin m) (τ : Fin n' → Fin n) (hσ : Function.Injective σ) (hτ : Function.Injective τ) (hR : ∀ i, R i = true ↔ ∃ i', σ i' = i)
    (hC : ∀ j, C j = true ↔ ∃ j', τ j' = j) (hU0 : ∀ i j, U0 i j ≠ 0) (hV : ∀ i j, 0 ≤ V0 i j) (hrow : ∀ i, ∃ j, C j = true ∧ 0 < V0 i j) (hcol : ∀ j, ∃ i, R i = true ∧ 0 < V0 i j)
    (W0 : Mat m k ℝ) (H0 : Mat k n ℝ) (pW : ∀ i a, 0 < W0 i a) (pH : ∀ a j, 0 < H0 a j) (cfg : LoopCfg ℝ) (clock0 : ℕ → Bool) (rm0 : Bool) (rn0 : ℤ) (h : 0 < cfg.maxIter)
    (T : RustState (Option (Mat m' k ℝ) × Option (Mat k n' ℝ)) ℝ)
    (hT : T = lsTrain (fun i j => V0 (σ i) (τ j)) (fun i j => U0 (σ i) (τ j)) cfg clock0 rm0 rn0 (fun i => W0 (σ i)) (fun a j => H0 a (τ j)))
    (hne : ∀ i a b, (max cfg.convergeN 1).toNat ≤ i + 1 → T.losses[i + 1 - (max cfg.convergeN 1).toNat]? = some (some a) → T.losses[i]? = some (some b) → a - b ≠ cfg.delta) :
    ∃ (W' : ℝ → Mat m k ℝ) (H' : ℝ → Mat k n ℝ) (Wl : Mat m k ℝ) (Hl : Mat k n ℝ) (q : ℝ → ℕ → ℝ) (ql : ℕ → ℝ),
      T.factors = (some fun i => Wl (σ i), some fun a j => Hl a (τ j)) ∧ Tendsto W' atTop (𝓝 Wl) ∧ Tendsto H' atTop (𝓝 Hl) ∧ (∀ i, Tendsto (fun x => q x i) atTop (𝓝 (ql i))) ∧ (∀ i, i < T.losses.length → T.losses[i]? = some (some (ql i))) ∧
      (∀ i a, 0 < Wl i a) ∧ (∀ a j, 0 < Hl a j) ∧
      ∀ᶠ c in atTop, ∀ (clock : ℕ → Bool) (rm : Bool) (rn : ℤ) (Uc : Mat m n ℝ), (∀ i j, Uc i j = (if R i then 1 else c) * (if C j then 1 else c) * U0 i j) →
        (lsTrain V0 Uc cfg clock rm rn W0 H0).factors = (some (W' c), some (H' c)) ∧ (lsTrain V0 Uc cfg clock rm rn W0 H0).converged = T.converged ∧ (lsTrain V0 Uc cfg clock rm rn W0 H0).convergeI = T.convergeI ∧
        (lsTrain V0 Uc cfg clock rm rn W0 H0).losses = (List.range T.losses.length).map fun i => some (q c i) := by
  have hinv : Tendsto (fun c : ℝ => (max c 1)⁻¹) atTop (𝓝 0) := tendsto_inv_atTop_zero.comp (tendsto_atTop_mono (fun c => le_max_left c 1) tendsto_id)
  have hne0 : ∀ c : ℝ, max c 1 ≠ 0 := fun c => (lt_of_lt_of_le one_pos (le_max_right c 1)).ne'
  have d : Weakened (atTop : Filter ℝ) (fun _ => V0) (fun _ => U0) (fun c i => if R i then 1 else max c 1) (fun c j => if C j then 1 else max c 1) (fun _ _ => true) R C V0 U0 :=
    { data := fun i j _ => tendsto_const_nhds
      unc := fun i j _ => tendsto_const_nhds
      unc0 := fun i j _ => hU0 i j
      cell := fun _ _ h => absurd h (by simp)
      signal := fun _ _ h => absurd h (by simp)
      rowKept := fun _ i hi => by simp [hi]
      rowNe := fun c i => by
        split
        · exact one_ne_zero
        · exact hne0 c
      rowBig := fun i hi => by simpa [hi] using hinv
      colKept := fun _ j hj => by simp [hj]
      colNe := fun c j => by
        split
        · exact one_ne_zero
        · exact hne0 c
      colBig := fun j hj => by simpa [hj] using hinv
      nonneg := fun i j _ => hV i j
      row := fun i => by obtain ⟨j, h1, h2⟩ := hrow i; exact ⟨j, h1, rfl, h2⟩
      col := fun j => by obtain ⟨i, h1, h2⟩ := hcol j; exact ⟨i, h1, rfl, h2⟩ }
  obtain ⟨W', H', Wl, Hl, q, ql, h1, h2, h3, h4, h5, h6, h7, h8⟩ := C263_run d σ τ hσ hτ hR hC (W := fun _ => W0) (H := fun _ => H0) tendsto_const_nhds tendsto_const_nhds pW pH cfg clock0 h T
    (hT.trans (keptTrain_all _ _ _ _ _ _ _ _).symm) hne
  refine ⟨W', H', Wl, Hl, q, ql, h1, h2, h3, h4, h5, h6, h7, ?_⟩
  filter_upwards [h8, eventually_ge_atTop 1] with c hc hc1 clock rm rn Uc hUc
  have e : Uc = fun i j => (if R i then 1 else max c 1) * (if C j then 1 else max c 1) * U0 i j := by
    funext i j
    rw [hUc, max_eq_left hc1]
  rw [e]
  exact hc clock rm rn

/-- Case for `C263_cells`: four cells, the uncertainty of the first one grows, five iterations. -/
example : ∃ (W' : ℕ → Mat 2 1 ℝ) (Wl : Mat 2 1 ℝ), Tendsto W' atTop (𝓝 Wl) ∧
    (keptTrain (fun i j => decide (¬ (i = 0 ∧ j = 0))) (![![1, 2], ![3, 4]] : Mat 2 2 ℝ) (fun _ _ => 1) ⟨5, 1 / 10, 25, false, -1⟩ (fun _ => false) (fun _ _ => 1 : Mat 2 1 ℝ) (fun _ _ => 1)).factors.1 = some Wl ∧
    ∀ᶠ x : ℕ in atTop, (lsTrain (![![1, 2], ![3, 4]] : Mat 2 2 ℝ) (fun i j => if i = 0 ∧ j = 0 then (x : ℝ) else 1) ⟨5, 1 / 10, 25, false, -1⟩ (fun _ => false) false 0 (fun _ _ => 1 : Mat 2 1 ℝ) (fun _ _ => 1)).factors.1 = some (W' x) := by
  obtain ⟨W', H', Wl, Hl, q, ql, h1, h2, -, -, -, h3⟩ := C263_cells (l := atTop) (k := 1) (fun i j => decide (¬ (i = 0 ∧ j = 0))) (![![1, 2], ![3, 4]] : Mat 2 2 ℝ) (fun (x : ℕ) i j => if i = 0 ∧ j = 0 then (x : ℝ) else 1) (fun _ _ => 1)
    (fun x i j hk => by
      have : ¬ (i = 0 ∧ j = 0) := of_decide_eq_true hk
      rw [if_neg this])
    (fun _ _ _ => one_ne_zero)
    (fun i j hk => by
      have : i = 0 ∧ j = 0 := by simpa using hk
      simp only [this, and_self, if_true]
      exact tendsto_natCast_atTop_atTop)
    (fun i j _ => by fin_cases i <;> fin_cases j <;> simp)
    (fun i => ⟨1, by simp, by fin_cases i <;> simp⟩)
    (fun j => ⟨1, by simp, by fin_cases j <;> simp⟩)
    (fun _ _ => 1) (fun _ _ => 1) (fun _ _ => one_pos) (fun _ _ => one_pos) ⟨5, 1 / 10, 25, false, -1⟩ (fun _ => false) (by norm_num)
    (fun i a b hi _ hb => by
      exfalso
      have hlt := (List.getElem?_eq_some_iff.1 hb).1
      have hlen := hlt.trans_le (keptTrain_length _ _ _ _ _ _ _)
      have h5 : (5 : ℤ).toNat = 5 := rfl
      have h25 : (max (25 : ℤ) 1).toNat = 25 := rfl
      simp only [h25] at hi
      simp only [h5] at hlen
      omega)
  exact ⟨W', Wl, h2, by rw [h1], h3.mono fun x hx => by rw [(hx (fun _ => false) false 0).1]⟩

/-- Case for `C263_parts`: the second of two samples is weakened; the profile approaches the one of the first sample alone, and the second sample keeps positive contributions. -/
example : ∃ (W' : ℝ → Mat 2 1 ℝ) (H' : ℝ → Mat 1 2 ℝ) (Wl : Mat 2 1 ℝ) (Hl : Mat 1 2 ℝ), Tendsto W' atTop (𝓝 Wl) ∧ Tendsto H' atTop (𝓝 Hl) ∧ 0 < Wl 1 0 ∧
    (lsTrain (fun _ j => (![![1, 2], ![3, 4]] : Mat 2 2 ℝ) 0 j : Mat 1 2 ℝ) (fun _ _ => 1) ⟨5, 1 / 10, 25, false, -1⟩ (fun _ => false) false 0 (fun _ _ => 1 : Mat 1 1 ℝ) (fun _ _ => 1)).factors = (some fun _ => Wl 0, some Hl) ∧
    ∀ᶠ c in atTop, (lsTrain (![![1, 2], ![3, 4]] : Mat 2 2 ℝ) (fun i _ => if i = 0 then 1 else c) ⟨5, 1 / 10, 25, false, -1⟩ (fun _ => false) false 0 (fun _ _ => 1 : Mat 2 1 ℝ) (fun _ _ => 1)).factors = (some (W' c), some (H' c)) := by
  obtain ⟨W', H', Wl, Hl, q, ql, h1, h2, h3, -, -, h4, -, h5⟩ := C263_parts (k := 1) (![![1, 2], ![3, 4]] : Mat 2 2 ℝ) (fun _ _ => 1) (fun i => decide (i = 0)) (fun _ => true) (fun _ : Fin 1 => (0 : Fin 2)) (fun j => j)
    (fun _ _ _ => Subsingleton.elim _ _) (fun _ _ h => h) (fun i => by simp [eq_comm]) (fun j => by simp) (fun _ _ => one_ne_zero) (fun i j => by fin_cases i <;> fin_cases j <;> simp)
    (fun i => ⟨0, rfl, by fin_cases i <;> simp⟩) (fun j => ⟨0, by simp, by fin_cases j <;> simp⟩) (fun _ _ => 1) (fun _ _ => 1) (fun _ _ => one_pos) (fun _ _ => one_pos) ⟨5, 1 / 10, 25, false, -1⟩ (fun _ => false) false 0 (by norm_num) _ rfl
    (fun i a b hi _ hb => by
      exfalso
      have hlt := (List.getElem?_eq_some_iff.1 hb).1
      have hlen := hlt.trans_le (rustLoop_factors _ _ _ _ _).2
      have h5 : (5 : ℤ).toNat = 5 := rfl
      have h25 : (max (25 : ℤ) 1).toNat = 25 := rfl
      simp only [h25] at hi
      simp only [h5] at hlen
      omega)
  refine ⟨W', H', Wl, Hl, h2, h3, h4 1 0, h1, h5.mono fun c hc => (hc (fun _ => false) false 0 _ fun i j => ?_).1⟩
  by_cases hi : i = 0 <;> simp [hi]

end Esat
