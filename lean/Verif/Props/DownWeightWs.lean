import Verif.Props.ContinuityWs

/-!
# C265: very large uncertainties under ws-nmf

What happens to a ws-nmf training when the uncertainties of some cells, of whole features or of whole samples become larger and larger.
-/

namespace Esat

open Filter Topology

variable {m n k m' n' : ℕ} {ι : Type*} {l : Filter ι}

/-! ## Specification -/

/-- ws-nmf training in which only the kept cells count: the loop of the compiled code (`rust/lib.rs:693-769`) with the weights and the loss of the kept cells. -/
noncomputable def keptTrainWs (inv : Mat k k ℝ → Mat k k ℝ) (keep : Fin m → Fin n → Bool) (V U : Mat m n ℝ) (cfg : LoopCfg ℝ) (clock : ℕ → Bool) (W : Mat m k ℝ) (H : Mat k n ℝ) :
    RustState (Option (Mat m k ℝ) × Option (Mat k n ℝ)) ℝ :=
  rustLoop (wsLoopStep inv V (keptWeights keep U)) (keptQ keep V U) cfg clock (some W, some H)

/-- If all cells are kept this is the training of the code. -/
theorem keptTrainWs_all (inv : Mat k k ℝ → Mat k k ℝ) (V U : Mat m n ℝ) (cfg : LoopCfg ℝ) (clock : ℕ → Bool) (W : Mat m k ℝ) (H : Mat k n ℝ) :
    keptTrainWs inv (fun _ _ => true) V U cfg clock W H = rustLoop (wsLoopStep inv V (weights U)) (lsQ V U) cfg clock (some W, some H) := by
  have h1 : keptWeights (fun _ _ => true) U = weights U := rfl
  have h2 : keptQ (k := k) (fun _ _ => true) V U = lsQ V U := by
    funext p
    rcases p with ⟨_ | W, _ | H⟩ <;> try rfl
    simp only [keptQ, lsQ, qLoss_amounts, Option.some.injEq]
    rfl
  rw [keptTrainWs, h1, h2]

/-- The profiles are linearly independent on the features of `K`. -/
def IndependentOn (K : Fin n → Bool) (X : Mat k n ℝ) : Prop := ∀ c : Fin k → ℝ, (∀ j, K j = true → ∑ a, c a * X a j = 0) → ∀ a, c a = 0

/-- Uncertainties `s i * U i j` that become very large: in the cells outside `keep` (there also compared with the data) and in the samples outside `R`; elsewhere data and uncertainties approach `V0` and `U0`. -/
structure WeakRows (l : Filter ι) (V U : ι → Mat m n ℝ) (s : ι → Fin m → ℝ) (keep : Fin m → Fin n → Bool) (R : Fin m → Bool) (V0 U0 : Mat m n ℝ) : Prop where
  data : ∀ i j, keep i j = true → Tendsto (fun x => V x i j) l (𝓝 (V0 i j))
  unc : ∀ i j, keep i j = true → Tendsto (fun x => U x i j) l (𝓝 (U0 i j))
  unc0 : ∀ i j, keep i j = true → U0 i j ≠ 0
  cell : ∀ i j, keep i j = false → Tendsto (fun x => (U x i j)⁻¹) l (𝓝 0)
  signal : ∀ i j, keep i j = false → Tendsto (fun x => V x i j / U x i j) l (𝓝 0)
  rowKept : ∀ x i, R i = true → s x i = 1
  rowNe : ∀ x i, s x i ≠ 0
  rowBig : ∀ i, R i = false → Tendsto (fun x => (s x i)⁻¹) l (𝓝 0)
  nonneg : ∀ i j, keep i j = true → 0 ≤ V0 i j

/-! ## Limits of the weights -/

section limit
variable {V U : ι → Mat m n ℝ} {s : ι → Fin m → ℝ} {keep : Fin m → Fin n → Bool} {R : Fin m → Bool} {V0 U0 : Mat m n ℝ}

theorem WeakRows.one (d : WeakRows l V U s keep R V0 U0) : WeakRows l V U (fun _ _ => 1) keep (fun _ => true) V0 U0 :=
  ⟨d.data, d.unc, d.unc0, d.cell, d.signal, fun _ _ _ => rfl, fun _ _ => one_ne_zero, fun _ h => absurd h (by simp), d.nonneg⟩

theorem WeakRows.inv_row (d : WeakRows l V U s keep R V0 U0) (i : Fin m) (j : Fin n) :
    Tendsto (fun x => (s x i * U x i j)⁻¹) l (𝓝 (if (R i && keep i j) = true then (U0 i j)⁻¹ else 0)) ∧
      Tendsto (fun x => V x i j * (s x i * U x i j)⁻¹) l (𝓝 (if (R i && keep i j) = true then V0 i j * (U0 i j)⁻¹ else 0)) := by
  have hs : Tendsto (fun x => (s x i)⁻¹) l (𝓝 (if R i = true then 1 else 0)) := by
    cases hR : R i with
    | true =>
      have : (fun x => (s x i)⁻¹) = fun _ => 1 := by funext x; rw [d.rowKept x i hR]; simp
      rw [this]; exact tendsto_const_nhds
    | false => simpa using d.rowBig i hR
  have hu : Tendsto (fun x => (U x i j)⁻¹) l (𝓝 (if keep i j = true then (U0 i j)⁻¹ else 0)) := by
    cases hk : keep i j with
    | true => simpa using (d.unc i j hk).inv₀ (d.unc0 i j hk)
    | false => simpa using d.cell i j hk
  have hv : Tendsto (fun x => V x i j * (U x i j)⁻¹) l (𝓝 (if keep i j = true then V0 i j * (U0 i j)⁻¹ else 0)) := by
    cases hk : keep i j with
    | true => simpa using (d.data i j hk).mul ((d.unc i j hk).inv₀ (d.unc0 i j hk))
    | false => simpa [div_eq_mul_inv] using d.signal i j hk
  constructor
  · have := hs.mul hu
    have e : (fun x => (s x i * U x i j)⁻¹) = fun x => (s x i)⁻¹ * (U x i j)⁻¹ := by funext x; rw [mul_inv]
    rw [e]
    cases hR : R i <;> cases hk : keep i j <;> simpa [hR, hk] using this
  · have := hs.mul hv
    have e : (fun x => V x i j * (s x i * U x i j)⁻¹) = fun x => (s x i)⁻¹ * (V x i j * (U x i j)⁻¹) := by funext x; rw [mul_inv]; ring
    rw [e]
    cases hR : R i <;> cases hk : keep i j <;> simpa [hR, hk] using this

theorem WeakRows.weightsE (d : WeakRows l V U s keep R V0 U0) :
    Tendsto (fun x => weights fun i j => s x i * U x i j) l (𝓝 (keptWeights (fun i j => R i && keep i j) U0)) ∧
      Tendsto (fun x => emul (weights fun i j => s x i * U x i j) (V x)) l (𝓝 (emul (keptWeights (fun i j => R i && keep i j) U0) V0)) := by
  constructor
  · refine tendsto_pi_nhds.2 fun i => tendsto_pi_nhds.2 fun j => ?_
    have h := ((d.inv_row i j).1).pow 2
    have e : (fun x => weights (fun i j => s x i * U x i j) i j) = fun x => ((s x i * U x i j)⁻¹) ^ 2 := by funext x; simp only [weights, one_div, inv_pow]
    rw [e]
    unfold keptWeights
    cases hb : (R i && keep i j) <;> simpa [hb] using h
  · refine tendsto_pi_nhds.2 fun i => tendsto_pi_nhds.2 fun j => ?_
    have h := ((d.inv_row i j).1).mul (d.inv_row i j).2
    have e : (fun x => emul (weights fun i j => s x i * U x i j) (V x) i j) = fun x => (s x i * U x i j)⁻¹ * (V x i j * (s x i * U x i j)⁻¹) := by
      funext x; simp only [emul, weights, one_div]; ring
    rw [e]
    unfold emul keptWeights
    cases hb : (R i && keep i j)
    · simpa [hb] using h
    · have e2 : (1 : ℝ) / U0 i j ^ 2 * V0 i j = (U0 i j)⁻¹ * (V0 i j * (U0 i j)⁻¹) := by rw [one_div, ← inv_pow]; ring
      rw [hb] at h
      rw [if_pos hb, e2]
      simpa using h

theorem WeakRows.weightsF (d : WeakRows l V U s keep R V0 U0) :
    Tendsto (fun x => weights (U x)) l (𝓝 (keptWeights keep U0)) ∧ Tendsto (fun x => emul (weights (U x)) (V x)) l (𝓝 (emul (keptWeights keep U0) V0)) := by
  have := d.one.weightsE
  simpa only [one_mul, Bool.true_and] using this

/-! ## The contributions -/

theorem normal_inverse_on (We : Mat m n ℝ) (K : Fin n → Bool) (i : Fin m) (hWe : ∀ j, 0 ≤ We i j) (hK : ∀ j, K j = true → 0 < We i j) (X : Mat k n ℝ) (hX : IndependentOn K X) : ∃ B, IsLeftInverse B (wsNormal We X i) := by
  let N : Matrix (Fin k) (Fin k) ℝ := wsNormal We X i
  have hdet : N.det ≠ 0 := by
    intro h0
    obtain ⟨v, hv, hN⟩ := Matrix.exists_mulVec_eq_zero_iff.2 h0
    refine hv (funext fun a => hX v (fun j hj => ?_) a)
    have hq : ∑ j, We i j * (∑ a, v a * X a j) ^ 2 = 0 := by
      have e : ∑ j, We i j * (∑ a, v a * X a j) ^ 2 = ∑ a, v a * (N.mulVec v) a := by
        simp only [Matrix.mulVec, dotProduct, N, wsNormal, Finset.mul_sum, Finset.sum_mul, pow_two]
        rw [Finset.sum_comm]
        refine Finset.sum_congr rfl fun a _ => ?_
        rw [Finset.sum_comm]
        refine Finset.sum_congr rfl fun b _ => Finset.sum_congr rfl fun j _ => ?_
        ring
      rw [e, hN]
      simp
    have := (Finset.sum_eq_zero_iff_of_nonneg fun j _ => mul_nonneg (hWe j) (sq_nonneg _)).1 hq j (Finset.mem_univ _)
    rcases mul_eq_zero.1 this with h | h
    · exact absurd h (hK j hj).ne'
    · exact pow_eq_zero_iff (two_ne_zero) |>.1 h
  refine ⟨(N⁻¹ : Matrix (Fin k) (Fin k) ℝ), fun a b => ?_⟩
  have := congrFun (congrFun (Matrix.nonsing_inv_mul N (isUnit_iff_ne_zero.2 hdet)) a) b
  rw [Matrix.mul_apply, Matrix.one_apply] at this
  exact this

theorem eventually_inverse {A : ι → Mat k k ℝ} {A0 : Mat k k ℝ} (hA : Tendsto A l (𝓝 A0)) (B : Mat k k ℝ) (hB : IsLeftInverse B A0) : ∀ᶠ x in l, ∃ B', IsLeftInverse B' (A x) := by
  let A' : ι → Matrix (Fin k) (Fin k) ℝ := A
  let N : Matrix (Fin k) (Fin k) ℝ := A0
  have hA' : Tendsto A' l (𝓝 N) := hA
  let B' : Matrix (Fin k) (Fin k) ℝ := B
  have hBN : B' * N = 1 := by
    ext a b
    rw [Matrix.mul_apply, Matrix.one_apply]
    exact hB a b
  have hdet : N.det ≠ 0 := (Matrix.isUnit_det_of_left_inverse hBN).ne_zero
  have hd : Tendsto (fun x => (A' x).det) l (𝓝 N.det) := ((continuous_id.matrix_det).tendsto N).comp hA'
  filter_upwards [hd.eventually_ne hdet] with x hx
  refine ⟨Inv.inv (α := Matrix (Fin k) (Fin k) ℝ) (A' x), fun a b => ?_⟩
  have := congrFun (congrFun (Matrix.nonsing_inv_mul (A' x) (isUnit_iff_ne_zero.2 hx)) a) b
  rw [Matrix.mul_apply, Matrix.one_apply] at this
  exact this

/-- The contributions of a sample do not depend on the scale of its uncertainties, as long as its normal equations can be solved. -/
theorem wsStepW_scale (inv : Mat k k ℝ → Mat k k ℝ) (hinv : ∀ A B, IsLeftInverse B A → inv A = B) (V We : Mat m n ℝ) (c : Fin m → ℝ) (hc : ∀ i, c i ≠ 0) (H : Mat k n ℝ) (hB : ∀ i, ∃ B, IsLeftInverse B (wsNormal We H i)) :
    wsStepW inv V (fun i j => c i * We i j) H = wsStepW inv V We H := by
  funext i b
  obtain ⟨B, hB⟩ := hB i
  have hn : ∀ a b, wsNormal (fun i j => c i * We i j) H i a b = c i * wsNormal We H i a b := fun a b => by
    simp only [wsNormal, Finset.mul_sum]
    exact Finset.sum_congr rfl fun j _ => by ring
  have hr : ∀ a, wsRhs V (fun i j => c i * We i j) H i a = c i * wsRhs V We H i a := fun a => by
    simp only [wsRhs, Finset.mul_sum]
    exact Finset.sum_congr rfl fun j _ => by ring
  have h2 : inv (wsNormal (fun i j => c i * We i j) H i) = fun a b => (c i)⁻¹ * B a b := by
    refine hinv _ _ fun a b => ?_
    rw [← hB a b]
    refine Finset.sum_congr rfl fun d _ => ?_
    rw [hn]
    have := hc i
    field_simp
  unfold wsStepW
  rw [h2, hinv _ B hB]
  refine Finset.sum_congr rfl fun a _ => ?_
  rw [hr]
  have := hc i
  field_simp

theorem tendsto_wsStepW' (inv : Mat k k ℝ → Mat k k ℝ) (hinv : ∀ A B, IsLeftInverse B A → inv A = B) {V We : ι → Mat m n ℝ} {H : ι → Mat k n ℝ} {V0 We0 : Mat m n ℝ} {H0 : Mat k n ℝ}
    (hEV : Tendsto (fun x => emul (We x) (V x)) l (𝓝 (emul We0 V0))) (hE : Tendsto We l (𝓝 We0)) (hH : Tendsto H l (𝓝 H0)) (hB : ∀ i, ∃ B, IsLeftInverse B (wsNormal We0 H0 i)) :
    Tendsto (fun x => wsStepW inv (V x) (We x) (H x)) l (𝓝 (wsStepW inv V0 We0 H0)) ∧ ∀ᶠ x in l, ∀ i, ∃ B, IsLeftInverse B (wsNormal (We x) (H x) i) := by
  have hHe : ∀ a j, Tendsto (fun x => H x a j) l (𝓝 (H0 a j)) := fun a j => tendsto_pi_nhds.1 (tendsto_pi_nhds.1 hH a) j
  have hEe : ∀ i j, Tendsto (fun x => We x i j) l (𝓝 (We0 i j)) := fun i j => tendsto_pi_nhds.1 (tendsto_pi_nhds.1 hE i) j
  have hVe : ∀ i j, Tendsto (fun x => We x i j * V x i j) l (𝓝 (We0 i j * V0 i j)) := fun i j => tendsto_pi_nhds.1 (tendsto_pi_nhds.1 hEV i) j
  have hN : ∀ i, Tendsto (fun x => wsNormal (We x) (H x) i) l (𝓝 (wsNormal We0 H0 i)) := fun i =>
    tendsto_pi_nhds.2 fun a => tendsto_pi_nhds.2 fun b => tendsto_finsetSum _ fun j _ => (hHe a j).mul ((hEe i j).mul (hHe b j))
  constructor
  · refine tendsto_pi_nhds.2 fun i => tendsto_pi_nhds.2 fun b => ?_
    obtain ⟨B, hB⟩ := hB i
    have hI := tendsto_inverse inv hinv (hN i) B hB
    unfold wsStepW
    refine tendsto_finsetSum _ fun a _ => Tendsto.mul ?_ (tendsto_pi_nhds.1 (tendsto_pi_nhds.1 hI a) b)
    exact tendsto_finsetSum _ fun j _ => (hHe a j).mul (hVe i j)
  · rw [eventually_all]
    intro i
    obtain ⟨B, hB⟩ := hB i
    exact eventually_inverse (hN i) B hB

/-! ## The profiles -/

theorem wsNum_pos' (V We : Mat m n ℝ) (W : Mat m k ℝ) (H : Mat k n ℝ) (pV : ∀ i j, 0 ≤ We i j * V i j) (pE : ∀ i j, 0 ≤ We i j) (pH : ∀ a j, 0 ≤ H a j) (b : Fin k) (j : Fin n) :
    0 < wsNum V We W H b j ∧ 0 < wsDen V We W H b j := by
  have eps : 0 < wsEps := by norm_num [wsEps]
  have p1 : ∀ i a, 0 ≤ wsPos W i a := fun i a => by unfold wsPos; linarith [neg_abs_le (W i a)]
  have p2 : ∀ i a, 0 ≤ wsNeg W i a := fun i a => by unfold wsNeg; linarith [le_abs_self (W i a)]
  have plin : ∀ {A : Mat m k ℝ}, (∀ i a, 0 ≤ A i a) → 0 ≤ wsLin V We A b j := fun hA => Finset.sum_nonneg fun i _ => mul_nonneg (pV i j) (hA i b)
  have pquad : ∀ {A : Mat m k ℝ}, (∀ i a, 0 ≤ A i a) → 0 ≤ wsQuad We A H b j := fun hA =>
    Finset.sum_nonneg fun a _ => mul_nonneg (pH a j) (Finset.sum_nonneg fun i _ => mul_nonneg (mul_nonneg (hA i a) (pE i j)) (hA i b))
  exact ⟨add_pos_of_nonneg_of_pos (add_nonneg (plin p1) (pquad p2)) eps, add_pos_of_nonneg_of_pos (add_nonneg (plin p2) (pquad p1)) eps⟩

theorem wsStepH_some' (V We : Mat m n ℝ) (W : Mat m k ℝ) (H : Mat k n ℝ) (pV : ∀ i j, 0 ≤ We i j * V i j) (pE : ∀ i j, 0 ≤ We i j) (pH : ∀ a j, 0 ≤ H a j) :
    wsStepH V We W H = some fun b j => H b j * Real.sqrt (wsNum V We W H b j / wsDen V We W H b j) :=
  if_pos fun b j => ⟨(wsNum_pos' V We W H pV pE pH b j).2.ne', (div_pos (wsNum_pos' V We W H pV pE pH b j).1 (wsNum_pos' V We W H pV pE pH b j).2).le⟩

theorem tendsto_wsStepH' {V We : ι → Mat m n ℝ} {W : ι → Mat m k ℝ} {H : ι → Mat k n ℝ} {V0 We0 : Mat m n ℝ} {W0 : Mat m k ℝ} {H0 H1 : Mat k n ℝ}
    (hEV : Tendsto (fun x => emul (We x) (V x)) l (𝓝 (emul We0 V0))) (hE : Tendsto We l (𝓝 We0)) (hW : Tendsto W l (𝓝 W0)) (hH : Tendsto H l (𝓝 H0))
    (pV : ∀ i j, 0 ≤ We0 i j * V0 i j) (pE : ∀ i j, 0 ≤ We0 i j) (pH : ∀ a j, 0 ≤ H0 a j) (h : wsStepH V0 We0 W0 H0 = some H1) :
    ∃ H' : ι → Mat k n ℝ, (∀ᶠ x in l, wsStepH (V x) (We x) (W x) (H x) = some (H' x)) ∧ Tendsto H' l (𝓝 H1) := by
  have hHe : ∀ a j, Tendsto (fun x => H x a j) l (𝓝 (H0 a j)) := fun a j => tendsto_pi_nhds.1 (tendsto_pi_nhds.1 hH a) j
  have hEe : ∀ i j, Tendsto (fun x => We x i j) l (𝓝 (We0 i j)) := fun i j => tendsto_pi_nhds.1 (tendsto_pi_nhds.1 hE i) j
  have hVe : ∀ i j, Tendsto (fun x => We x i j * V x i j) l (𝓝 (We0 i j * V0 i j)) := fun i j => tendsto_pi_nhds.1 (tendsto_pi_nhds.1 hEV i) j
  have hWe : ∀ i a, Tendsto (fun x => W x i a) l (𝓝 (W0 i a)) := fun i a => tendsto_pi_nhds.1 (tendsto_pi_nhds.1 hW i) a
  have hp : ∀ i a, Tendsto (fun x => wsPos (W x) i a) l (𝓝 (wsPos W0 i a)) := fun i a => ((hWe i a).abs.add (hWe i a)).div_const 2
  have hn : ∀ i a, Tendsto (fun x => wsNeg (W x) i a) l (𝓝 (wsNeg W0 i a)) := fun i a => ((hWe i a).abs.sub (hWe i a)).div_const 2
  have lin : ∀ {A : ι → Mat m k ℝ} {A0 : Mat m k ℝ}, (∀ i a, Tendsto (fun x => A x i a) l (𝓝 (A0 i a))) → ∀ b j, Tendsto (fun x => wsLin (V x) (We x) (A x) b j) l (𝓝 (wsLin V0 We0 A0 b j)) :=
    fun hA b j => tendsto_finsetSum _ fun i _ => (hVe i j).mul (hA i b)
  have quad : ∀ {A : ι → Mat m k ℝ} {A0 : Mat m k ℝ}, (∀ i a, Tendsto (fun x => A x i a) l (𝓝 (A0 i a))) → ∀ b j, Tendsto (fun x => wsQuad (We x) (A x) (H x) b j) l (𝓝 (wsQuad We0 A0 H0 b j)) :=
    fun hA b j => tendsto_finsetSum _ fun a _ => (hHe a j).mul (tendsto_finsetSum _ fun i _ => ((hA i a).mul (hEe i j)).mul (hA i b))
  have hnum : ∀ b j, Tendsto (fun x => wsNum (V x) (We x) (W x) (H x) b j) l (𝓝 (wsNum V0 We0 W0 H0 b j)) := fun b j => ((lin hp b j).add (quad hn b j)).add_const _
  have hden : ∀ b j, Tendsto (fun x => wsDen (V x) (We x) (W x) (H x) b j) l (𝓝 (wsDen V0 We0 W0 H0 b j)) := fun b j => ((lin hn b j).add (quad hp b j)).add_const _
  have pnd := wsNum_pos' V0 We0 W0 H0 pV pE pH
  refine ⟨fun x b j => H x b j * Real.sqrt (wsNum (V x) (We x) (W x) (H x) b j / wsDen (V x) (We x) (W x) (H x) b j), ?_, ?_⟩
  · have ev : ∀ᶠ x in l, ∀ b j, 0 < wsNum (V x) (We x) (W x) (H x) b j ∧ 0 < wsDen (V x) (We x) (W x) (H x) b j := by
      rw [eventually_all]
      intro b
      rw [eventually_all]
      intro j
      exact ((hnum b j).eventually_const_lt (pnd b j).1).and ((hden b j).eventually_const_lt (pnd b j).2)
    filter_upwards [ev] with x hx
    exact if_pos fun b j => ⟨(hx b j).2.ne', (div_pos (hx b j).1 (hx b j).2).le⟩
  · rw [wsStepH_some' V0 We0 W0 H0 pV pE pH] at h
    rw [← Option.some.inj h]
    exact tendsto_pi_nhds.2 fun b => tendsto_pi_nhds.2 fun j => (hHe b j).mul (((hnum b j).div (hden b j) (pnd b j).2.ne').sqrt)

/-! ## The limit -/

/-- One ws-nmf update with one set of weights for the contributions and one for the profiles. -/
noncomputable def splitWs (inv : Mat k k ℝ → Mat k k ℝ) (V E F : Mat m n ℝ) (u : Bool) (p : Mat m k ℝ × Mat k n ℝ) : Mat m k ℝ × Mat k n ℝ :=
  let W' := wsStepW inv V F p.2
  (W', if u then (fun b j => p.2 b j * Real.sqrt (wsNum V E W' p.2 b j / wsDen V E W' p.2 b j)) else p.2)

theorem splitWs_pos (inv : Mat k k ℝ → Mat k k ℝ) (V E F : Mat m n ℝ) (pV : ∀ i j, 0 ≤ E i j * V i j) (pE : ∀ i j, 0 ≤ E i j) (flags : ℕ → Bool) (W0 : Mat m k ℝ) (H0 : Mat k n ℝ) (pH : ∀ a j, 0 < H0 a j) (t : ℕ) :
    ∀ a j, 0 < (traj (splitWs inv V E F) flags (W0, H0) t).2 a j := by
  induction t with
  | zero => exact pH
  | succ t ih =>
    intro a j
    rw [traj, splitWs]
    split
    · have := wsNum_pos' V E (wsStepW inv V F (traj (splitWs inv V E F) flags (W0, H0) t).2) _ pV pE (fun a j => (ih a j).le) a j
      exact mul_pos (ih a j) (Real.sqrt_pos.2 (div_pos this.1 this.2))
    · exact ih a j

/-- On the kept samples and features these updates are the ws-nmf updates of the data without the others. -/
theorem splitWs_sub (inv : Mat k k ℝ → Mat k k ℝ) (σ : Fin m' → Fin m) (τ : Fin n' → Fin n) (hσ : Function.Injective σ) (hτ : Function.Injective τ) (hR : ∀ i, R i = true ↔ ∃ i', σ i' = i) (hC : ∀ i j, keep i j = true → ∃ j', τ j' = j)
    (pV : ∀ i j, keep i j = true → 0 ≤ V0 i j) (W0 : Mat m k ℝ) (H0 : Mat k n ℝ) (pH : ∀ a j, 0 < H0 a j) (flags : ℕ → Bool) (t : ℕ) :
    traj (wsLoopStep inv (fun i j => V0 (σ i) (τ j)) (keptWeights (fun i j => keep (σ i) (τ j)) fun i j => U0 (σ i) (τ j))) flags (some fun i => W0 (σ i), some fun a j => H0 a (τ j)) t =
      (some fun i => (traj (splitWs inv V0 (keptWeights (fun i j => R i && keep i j) U0) (keptWeights keep U0)) flags (W0, H0) t).1 (σ i),
        some fun a j => (traj (splitWs inv V0 (keptWeights (fun i j => R i && keep i j) U0) (keptWeights keep U0)) flags (W0, H0) t).2 a (τ j)) := by
  have hRσ : ∀ i', R (σ i') = true := fun i' => (hR _).2 ⟨i', rfl⟩
  have pE : ∀ i j, 0 ≤ keptWeights (fun i j => R i && keep i j) U0 i j := fun i j => by unfold keptWeights; split <;> positivity
  have pEV : ∀ i j, 0 ≤ keptWeights (fun i j => R i && keep i j) U0 i j * V0 i j := fun i j => by
    by_cases hk : keep i j = true
    · exact mul_nonneg (pE i j) (pV i j hk)
    · simp [keptWeights, hk]
  have pE' : ∀ i j, 0 ≤ keptWeights (fun i j => keep (σ i) (τ j)) (fun i j => U0 (σ i) (τ j)) i j := fun i j => by unfold keptWeights; split <;> positivity
  have pEV' : ∀ i j, 0 ≤ keptWeights (fun i j => keep (σ i) (τ j)) (fun i j => U0 (σ i) (τ j)) i j * V0 (σ i) (τ j) := fun i j => by
    by_cases hk : keep (σ i) (τ j) = true
    · exact mul_nonneg (pE' i j) (pV _ _ hk)
    · simp [keptWeights, hk]
  have sW : ∀ X : Mat k n ℝ, wsStepW inv (fun i j => V0 (σ i) (τ j)) (keptWeights (fun i j => keep (σ i) (τ j)) fun i j => U0 (σ i) (τ j)) (fun a j => X a (τ j)) = fun i => wsStepW inv V0 (keptWeights keep U0) X (σ i) := by
    intro X
    have h1 : ∀ i', wsNormal (keptWeights (fun i j => keep (σ i) (τ j)) fun i j => U0 (σ i) (τ j)) (fun a j => X a (τ j)) i' = wsNormal (keptWeights keep U0) X (σ i') := fun i' => by
      funext a b
      refine Fintype.sum_of_injective τ hτ _ _ (fun j hj => ?_) fun j' => rfl
      have : keep (σ i') j = false := by by_contra hc; exact hj (hC (σ i') j (by simpa using hc))
      simp [keptWeights, this]
    have h2 : ∀ i' a, wsRhs (fun i j => V0 (σ i) (τ j)) (keptWeights (fun i j => keep (σ i) (τ j)) fun i j => U0 (σ i) (τ j)) (fun a j => X a (τ j)) i' a = wsRhs V0 (keptWeights keep U0) X (σ i') a := fun i' a => by
      refine Fintype.sum_of_injective τ hτ _ _ (fun j hj => ?_) fun j' => rfl
      have : keep (σ i') j = false := by by_contra hc; exact hj (hC (σ i') j (by simpa using hc))
      simp [keptWeights, this]
    funext i' b
    unfold wsStepW
    rw [h1]
    exact Finset.sum_congr rfl fun a _ => by rw [h2]
  have lin : ∀ (A : Mat m k ℝ) b j', wsLin (fun i j => V0 (σ i) (τ j)) (keptWeights (fun i j => keep (σ i) (τ j)) fun i j => U0 (σ i) (τ j)) (fun i => A (σ i)) b j' = wsLin V0 (keptWeights (fun i j => R i && keep i j) U0) A b (τ j') := fun A b j' => by
    refine Fintype.sum_of_injective σ hσ _ _ (fun i hi => ?_) fun i' => ?_
    · have : R i = false := by by_contra hc; exact hi ((hR i).1 (by simpa using hc))
      simp [keptWeights, this]
    · simp [keptWeights, hRσ]
  have quad : ∀ (A : Mat m k ℝ) (X : Mat k n ℝ) b j', wsQuad (keptWeights (fun i j => keep (σ i) (τ j)) fun i j => U0 (σ i) (τ j)) (fun i => A (σ i)) (fun a j => X a (τ j)) b j' = wsQuad (keptWeights (fun i j => R i && keep i j) U0) A X b (τ j') := fun A X b j' => by
    refine Finset.sum_congr rfl fun a _ => ?_
    congr 1
    refine Fintype.sum_of_injective σ hσ _ _ (fun i hi => ?_) fun i' => ?_
    · have : R i = false := by by_contra hc; exact hi ((hR i).1 (by simpa using hc))
      simp [keptWeights, this]
    · simp [keptWeights, hRσ]
  have num : ∀ (Y : Mat m k ℝ) (X : Mat k n ℝ) b j', wsNum (fun i j => V0 (σ i) (τ j)) (keptWeights (fun i j => keep (σ i) (τ j)) fun i j => U0 (σ i) (τ j)) (fun i => Y (σ i)) (fun a j => X a (τ j)) b j' = wsNum V0 (keptWeights (fun i j => R i && keep i j) U0) Y X b (τ j') := fun Y X b j' => by
    unfold wsNum
    rw [← lin (wsPos Y), ← quad (wsNeg Y)]
    rfl
  have den : ∀ (Y : Mat m k ℝ) (X : Mat k n ℝ) b j', wsDen (fun i j => V0 (σ i) (τ j)) (keptWeights (fun i j => keep (σ i) (τ j)) fun i j => U0 (σ i) (τ j)) (fun i => Y (σ i)) (fun a j => X a (τ j)) b j' = wsDen V0 (keptWeights (fun i j => R i && keep i j) U0) Y X b (τ j') := fun Y X b j' => by
    unfold wsDen
    rw [← lin (wsNeg Y), ← quad (wsPos Y)]
    rfl
  induction t with
  | zero => rfl
  | succ t ih =>
    rw [traj, ih, traj, wsLoopStep]
    simp only [sW, splitWs, Prod.mk.injEq, true_and]
    cases flags t with
    | true =>
      simp only [if_true]
      rw [wsStepH_some' _ _ _ _ pEV' pE' fun a j => (splitWs_pos inv V0 _ _ pEV pE flags W0 H0 pH t a (τ j)).le]
      simp only [num, den]
    | false => rfl

/-- A feature without any kept cell in a kept sample keeps its starting profile. -/
theorem splitWs_frozen (inv : Mat k k ℝ → Mat k k ℝ) (F : Mat m n ℝ) (W0 : Mat m k ℝ) (H0 : Mat k n ℝ) (flags : ℕ → Bool) (j : Fin n) (hj : ∀ i, (R i && keep i j) = false) (t : ℕ) (a : Fin k) :
    (traj (splitWs inv V0 (keptWeights (fun i j => R i && keep i j) U0) F) flags (W0, H0) t).2 a j = H0 a j := by
  induction t with
  | zero => rfl
  | succ t ih =>
    rw [traj, splitWs]
    have eps : wsEps ≠ 0 := by norm_num [wsEps]
    have hE : ∀ i, keptWeights (fun i j => R i && keep i j) U0 i j = 0 := fun i => by unfold keptWeights; rw [if_neg]; simpa using hj i
    split
    · have hn : ∀ (Y : Mat m k ℝ) (X : Mat k n ℝ) b, wsNum V0 (keptWeights (fun i j => R i && keep i j) U0) Y X b j = wsEps := fun Y X b => by simp [wsNum, wsLin, wsQuad, hE]
      have hd : ∀ (Y : Mat m k ℝ) (X : Mat k n ℝ) b, wsDen V0 (keptWeights (fun i j => R i && keep i j) U0) Y X b j = wsEps := fun Y X b => by simp [wsDen, wsLin, wsQuad, hE]
      simp only [hn, hd, div_self eps, Real.sqrt_one, mul_one]
      exact ih
    · exact ih

theorem WeakRows.loss (d : WeakRows l V U s keep R V0 U0) (σ : Fin m' → Fin m) (τ : Fin n' → Fin n) (hσ : Function.Injective σ) (hτ : Function.Injective τ) (hR : ∀ i, R i = true ↔ ∃ i', σ i' = i)
    (hC : ∀ i j, keep i j = true → ∃ j', τ j' = j) {W : ι → Mat m k ℝ} {H : ι → Mat k n ℝ} {W0 : Mat m k ℝ} {H0 : Mat k n ℝ} (hW : Tendsto W l (𝓝 W0)) (hH : Tendsto H l (𝓝 H0)) :
    Tendsto (fun x => qLoss (V x) (fun i j => s x i * U x i j) (W x) (H x)) l
      (𝓝 (keptLoss (fun i j => keep (σ i) (τ j)) (fun i j => V0 (σ i) (τ j)) (fun i j => U0 (σ i) (τ j)) (fun i => W0 (σ i)) (fun a j => H0 a (τ j)))) := by
  have e : keptLoss (fun i j => keep (σ i) (τ j)) (fun i j => V0 (σ i) (τ j)) (fun i j => U0 (σ i) (τ j)) (fun i => W0 (σ i)) (fun a j => H0 a (τ j)) =
      ∑ i, ∑ j, if (R i && keep i j) = true then ((V0 i j - ∑ a, W0 i a * H0 a j) / U0 i j) ^ 2 else 0 := by
    refine Fintype.sum_of_injective σ hσ _ _ (fun i hi => ?_) fun i' => ?_
    · have : R i = false := by by_contra hc; exact hi ((hR i).1 (by simpa using hc))
      simp [this]
    · have h1 : R (σ i') = true := (hR _).2 ⟨i', rfl⟩
      refine Fintype.sum_of_injective τ hτ _ _ (fun j hj => ?_) fun j' => ?_
      · have : keep (σ i') j = false := by by_contra hc; exact hj (hC (σ i') j (by simpa using hc))
        simp [this]
      · simp [h1]
  rw [e]
  have e2 : ∀ x, qLoss (V x) (fun i j => s x i * U x i j) (W x) (H x) = ∑ i, ∑ j, (V x i j * (s x i * U x i j)⁻¹ - (∑ a, W x i a * H x a j) * (s x i * U x i j)⁻¹) ^ 2 := fun x => by
    rw [qLoss_amounts]
    refine Finset.sum_congr rfl fun i _ => Finset.sum_congr rfl fun j _ => ?_
    simp only [amounts, div_eq_mul_inv]
    ring
  simp only [e2]
  refine tendsto_finsetSum _ fun i _ => tendsto_finsetSum _ fun j _ => ?_
  have hwh : Tendsto (fun x => ∑ a, W x i a * H x a j) l (𝓝 (∑ a, W0 i a * H0 a j)) :=
    tendsto_finsetSum _ fun a _ => (tendsto_pi_nhds.1 (tendsto_pi_nhds.1 hW i) a).mul (tendsto_pi_nhds.1 (tendsto_pi_nhds.1 hH a) j)
  have h := (((d.inv_row i j).2).sub (hwh.mul (d.inv_row i j).1)).pow 2
  cases hb : (R i && keep i j)
  · simpa [hb] using h
  · have e3 : (V0 i j - ∑ a, W0 i a * H0 a j) / U0 i j = V0 i j * (U0 i j)⁻¹ - (∑ a, W0 i a * H0 a j) * (U0 i j)⁻¹ := by rw [div_eq_mul_inv]; ring
    rw [hb] at h
    rw [if_pos rfl, e3]
    simpa using h

/-- After every fixed number of updates the factors approach those of the split updates. -/
theorem WeakRows.updates (inv : Mat k k ℝ → Mat k k ℝ) (hinv : ∀ A B, IsLeftInverse B A → inv A = B) (d : WeakRows l V U s keep R V0 U0) {W : ι → Mat m k ℝ} {H : ι → Mat k n ℝ} {W0 : Mat m k ℝ} {H0 : Mat k n ℝ}
    (hW : Tendsto W l (𝓝 W0)) (hH : Tendsto H l (𝓝 H0)) (pH : ∀ a j, 0 < H0 a j) (flags : ℕ → Bool)
    (hreg : ∀ t i, IndependentOn (keep i) (traj (splitWs inv V0 (keptWeights (fun i j => R i && keep i j) U0) (keptWeights keep U0)) flags (W0, H0) t).2) (t : ℕ) :
    ∃ (Wt : ι → Mat m k ℝ) (Ht : ι → Mat k n ℝ),
      (∀ᶠ x in l, traj (wsLoopStep inv (V x) (weights fun i j => s x i * U x i j)) flags (some (W x), some (H x)) t = (some (Wt x), some (Ht x))) ∧
      Tendsto Wt l (𝓝 (traj (splitWs inv V0 (keptWeights (fun i j => R i && keep i j) U0) (keptWeights keep U0)) flags (W0, H0) t).1) ∧
      Tendsto Ht l (𝓝 (traj (splitWs inv V0 (keptWeights (fun i j => R i && keep i j) U0) (keptWeights keep U0)) flags (W0, H0) t).2) := by
  have pE : ∀ i j, 0 ≤ keptWeights (fun i j => R i && keep i j) U0 i j := fun i j => by unfold keptWeights; split <;> positivity
  have pEV : ∀ i j, 0 ≤ keptWeights (fun i j => R i && keep i j) U0 i j * V0 i j := fun i j => by
    by_cases hk : keep i j = true
    · exact mul_nonneg (pE i j) (d.nonneg i j hk)
    · simp [keptWeights, hk]
  have pF : ∀ i j, 0 ≤ keptWeights keep U0 i j := fun i j => by unfold keptWeights; split <;> positivity
  have pF' : ∀ i j, keep i j = true → 0 < keptWeights keep U0 i j := fun i j hk => by
    have := d.unc0 i j hk
    simp only [keptWeights, hk, if_true]
    positivity
  obtain ⟨E1, E2⟩ := d.weightsE
  obtain ⟨F1, F2⟩ := d.weightsF
  induction t with
  | zero => exact ⟨W, H, Eventually.of_forall fun x => rfl, hW, hH⟩
  | succ t ih =>
    obtain ⟨Wt, Ht, e1, e2, e3⟩ := ih
    have hpos := splitWs_pos inv V0 _ (keptWeights keep U0) pEV pE flags W0 H0 pH t
    have hr := hreg t
    rw [traj]
    generalize traj (splitWs inv V0 (keptWeights (fun i j => R i && keep i j) U0) (keptWeights keep U0)) flags (W0, H0) t = p at e2 e3 hpos hr ⊢
    obtain ⟨hw, hev⟩ := tendsto_wsStepW' inv hinv F2 F1 e3 fun i => normal_inverse_on _ (keep i) i (pF i) (pF' i) _ (hr i)
    have hscale : ∀ᶠ x in l, wsStepW inv (V x) (weights fun i j => s x i * U x i j) (Ht x) = wsStepW inv (V x) (weights (U x)) (Ht x) := by
      filter_upwards [hev] with x hx
      have e : (weights fun i j => s x i * U x i j) = fun i j => 1 / s x i ^ 2 * weights (U x) i j := by
        funext i j
        simp only [weights, one_div, ← inv_pow, mul_inv]
        ring
      rw [e]
      exact wsStepW_scale inv hinv _ _ _ (fun i => one_div_ne_zero (pow_ne_zero 2 (d.rowNe x i))) _ hx
    cases hf : flags t with
    | true =>
      obtain ⟨H', a1, a2⟩ := tendsto_wsStepH' E2 E1 hw e3 pEV pE (fun a j => (hpos a j).le) (wsStepH_some' _ _ _ _ pEV pE fun a j => (hpos a j).le)
      refine ⟨_, H', ?_, hw, a2⟩
      filter_upwards [e1, a1, hscale] with x x1 x2 x3
      rw [traj, x1, hf]
      simp [wsLoopStep, x3, x2]
    | false =>
      refine ⟨_, Ht, ?_, hw, e3⟩
      filter_upwards [e1, hscale] with x x1 x3
      rw [traj, x1, hf]
      simp [wsLoopStep, x3]

end limit

/-- **C265, runs.** Let the uncertainties of the cells outside `keep`, in particular of all cells of the features outside the range of `τ`, and of the samples outside the range of `σ` grow beyond all bounds, the others and the data approach limits.
If the profiles of the training on the kept part are independent on the kept features of every sample before every update, and no compared difference of its losses equals `converge_delta`, then from some point on every ws-nmf training has its number
of iterations and its outcome, the losses approach its losses, and the factors approach factors that agree with it on the kept samples and features; features left out keep their starting profiles. -/
theorem C265_run (inv : Mat k k ℝ → Mat k k ℝ) (hinv : ∀ A B, IsLeftInverse B A → inv A = B) {V U : ι → Mat m n ℝ} {s : ι → Fin m → ℝ} {keep : Fin m → Fin n → Bool} {R : Fin m → Bool} {V0 U0 : Mat m n ℝ} (d : WeakRows l V U s keep R V0 U0)
    (σ : Fin m' → Fin m) (τ : Fin n' → Fin n) (hσ : Function.Injective σ) (hτ : Function.Injective τ) (hR : ∀ i, R i = true ↔ ∃ i', σ i' = i) (hC : ∀ i j, keep i j = true → ∃ j', τ j' = j)
    {W : ι → Mat m k ℝ} {H : ι → Mat k n ℝ} {W0 : Mat m k ℝ} {H0 : Mat k n ℝ} (hW : Tendsto W l (𝓝 W0)) (hH : Tendsto H l (𝓝 H0)) (pH : ∀ a j, 0 < H0 a j) (cfg : LoopCfg ℝ) (clock0 : ℕ → Bool) (h : 0 < cfg.maxIter)
    (hreg : ∀ t X, (traj (wsLoopStep inv (fun i j => V0 (σ i) (τ j)) (keptWeights (fun i j => keep (σ i) (τ j)) fun i j => U0 (σ i) (τ j))) (rustUpdatesH cfg) (some fun i => W0 (σ i), some fun a j => H0 a (τ j)) t).2 = some X →
      ∀ i, IndependentOn (fun j => keep i (τ j)) X)
    (T : RustState (Option (Mat m' k ℝ) × Option (Mat k n' ℝ)) ℝ)
    (hT : T = keptTrainWs inv (fun i j => keep (σ i) (τ j)) (fun i j => V0 (σ i) (τ j)) (fun i j => U0 (σ i) (τ j)) cfg clock0 (fun i => W0 (σ i)) (fun a j => H0 a (τ j)))
    (hne : ∀ i a b, (max cfg.convergeN 1).toNat ≤ i + 1 → T.losses[i + 1 - (max cfg.convergeN 1).toNat]? = some (some a) → T.losses[i]? = some (some b) → a - b ≠ cfg.delta) :
    ∃ (W' : ι → Mat m k ℝ) (H' : ι → Mat k n ℝ) (Wl : Mat m k ℝ) (Hl : Mat k n ℝ) (q : ι → ℕ → ℝ) (ql : ℕ → ℝ),
      T.factors = (some fun i => Wl (σ i), some fun a j => Hl a (τ j)) ∧ Tendsto W' l (𝓝 Wl) ∧ Tendsto H' l (𝓝 Hl) ∧ (∀ i, Tendsto (fun x => q x i) l (𝓝 (ql i))) ∧ (∀ i, i < T.losses.length → T.losses[i]? = some (some (ql i))) ∧
      (∀ j, (∀ j', τ j' ≠ j) → ∀ a, Hl a j = H0 a j) ∧
      ∀ᶠ x in l, ∀ clock : ℕ → Bool,
        (rustLoop (wsLoopStep inv (V x) (weights fun i j => s x i * U x i j)) (lsQ (V x) fun i j => s x i * U x i j) cfg clock (some (W x), some (H x))).factors = (some (W' x), some (H' x)) ∧
        (rustLoop (wsLoopStep inv (V x) (weights fun i j => s x i * U x i j)) (lsQ (V x) fun i j => s x i * U x i j) cfg clock (some (W x), some (H x))).converged = T.converged ∧
        (rustLoop (wsLoopStep inv (V x) (weights fun i j => s x i * U x i j)) (lsQ (V x) fun i j => s x i * U x i j) cfg clock (some (W x), some (H x))).convergeI = T.convergeI ∧
        (rustLoop (wsLoopStep inv (V x) (weights fun i j => s x i * U x i j)) (lsQ (V x) fun i j => s x i * U x i j) cfg clock (some (W x), some (H x))).losses = (List.range T.losses.length).map fun i => some (q x i) := by
  have hs := fun t => splitWs_sub (keep := keep) (R := R) (V0 := V0) (U0 := U0) inv σ τ hσ hτ hR hC d.nonneg W0 H0 pH (rustUpdatesH cfg) t
  set P : ℕ → Mat m k ℝ × Mat k n ℝ := fun t => traj (splitWs inv V0 (keptWeights (fun i j => R i && keep i j) U0) (keptWeights keep U0)) (rustUpdatesH cfg) (W0, H0) t with hP
  have hreg' : ∀ t i, IndependentOn (keep i) (P t).2 := fun t i c hc => by
    refine hreg t _ (by rw [hs]) i c fun j' hj' => hc (τ j') hj'
  choose Wt Ht e1 e3 e4 using d.updates inv hinv hW hH pH (rustUpdatesH cfg) hreg'
  set ql : ℕ → ℝ := fun i => keptLoss (fun i j => keep (σ i) (τ j)) (fun i j => V0 (σ i) (τ j)) (fun i j => U0 (σ i) (τ j)) (fun i' => (P (i + 1)).1 (σ i')) (fun a j => (P (i + 1)).2 a (τ j)) with hql
  set q : ι → ℕ → ℝ := fun x i => qLoss (V x) (fun i j => s x i * U x i j) (Wt (i + 1) x) (Ht (i + 1) x) with hqd
  have hl0 : ∀ i, lossAt (wsLoopStep inv (fun i j => V0 (σ i) (τ j)) (keptWeights (fun i j => keep (σ i) (τ j)) fun i j => U0 (σ i) (τ j))) (keptQ (fun i j => keep (σ i) (τ j)) (fun i j => V0 (σ i) (τ j)) (fun i j => U0 (σ i) (τ j)))
      (rustUpdatesH cfg) (some fun i => W0 (σ i), some fun a j => H0 a (τ j)) i = some (ql i) := fun i => by rw [lossAt, hs]; rfl
  obtain ⟨t, t1, t2, t3, t4, -⟩ := rustLoop_spec (wsLoopStep inv (fun i j => V0 (σ i) (τ j)) (keptWeights (fun i j => keep (σ i) (τ j)) fun i j => U0 (σ i) (τ j)))
    (keptQ (fun i j => keep (σ i) (τ j)) (fun i j => V0 (σ i) (τ j)) (fun i j => U0 (σ i) (τ j))) cfg clock0 (some fun i => W0 (σ i), some fun a j => H0 a (τ j)) h
  have e0 : rustLoop (wsLoopStep inv (fun i j => V0 (σ i) (τ j)) (keptWeights (fun i j => keep (σ i) (τ j)) fun i j => U0 (σ i) (τ j)))
    (keptQ (fun i j => keep (σ i) (τ j)) (fun i j => V0 (σ i) (τ j)) (fun i j => U0 (σ i) (τ j))) cfg clock0 (some fun i => W0 (σ i), some fun a j => H0 a (τ j)) = T := hT.symm
  rw [e0] at t3 t4
  have hlen : T.losses.length = t := by rw [t4]; simp
  have hloss : ∀ i, i < t → T.losses[i]? = some (some (ql i)) := fun i hi => by
    rw [t4, List.getElem?_map, List.getElem?_range hi, ← hl0 i]; rfl
  have hq : ∀ i, Tendsto (fun x => q x i) l (𝓝 (ql i)) := fun i => d.loss σ τ hσ hτ hR hC (e3 (i + 1)) (e4 (i + 1))
  have hx : ∀ i, ∀ᶠ x in l, lossAt (wsLoopStep inv (V x) (weights fun i j => s x i * U x i j)) (lsQ (V x) fun i j => s x i * U x i j) (rustUpdatesH cfg) (some (W x), some (H x)) i = some (q x i) := fun i => by
    filter_upwards [e1 (i + 1)] with x x1
    rw [lossAt, x1]; rfl
  have key := rustLoop_limit (fun x => wsLoopStep inv (V x) (weights fun i j => s x i * U x i j)) (fun x => lsQ (V x) fun i j => s x i * U x i j) (fun x => (some (W x), some (H x))) _ _ _ cfg h q ql hl0 hx hq clock0
    (fun i hi hlt => by
      rw [e0, hlen] at hlt
      exact hne i _ _ hi (hloss _ (by omega)) (hloss i hlt))
  refine ⟨Wt t, Ht t, (P t).1, (P t).2, q, ql, by rw [t3, hs], e3 t, e4 t, hq, fun i hi => hloss i (hlen ▸ hi), fun j hj a => ?_, ?_⟩
  · refine splitWs_frozen inv _ W0 H0 _ j (fun i => ?_) t a
    have : keep i j = false := by
      by_contra hc
      obtain ⟨j', hj'⟩ := hC i j (by simpa using hc)
      exact hj j' hj'
    simp [this]
  filter_upwards [key, e1 t] with x x1 x2 clock
  obtain ⟨k1, k2, k3, k4⟩ := x1 clock
  rw [e0] at k1 k2 k3 k4
  rw [hlen] at k4
  exact ⟨by rw [k4, x2], k1, k2, k3⟩

/-- **C265, samples and features.** Multiply the uncertainties of the samples outside the range of `σ` and of the features outside the range of `τ` by `c`. As `c` grows the ws-nmf training of all data approaches, on the kept samples and features, the
ws-nmf training of the data without the others, with the same number of iterations and outcome. The features left out keep their starting profiles. -/
theorem C265_parts (inv : Mat k k ℝ → Mat k k ℝ) (hinv : ∀ A B, IsLeftInverse B A → inv A = B) (V0 U0 : Mat m n ℝ) (R : Fin m → Bool) (C : Fin n → Bool) (σ : Fin m' → Fin m) (τ : Fin n' → Fin n) (hσ : Function.Injective σ) (hτ : Function.Injective τ)
    (hR : ∀ i, R i = true ↔ ∃ i', σ i' = i) (hC : ∀ j, C j = true ↔ ∃ j', τ j' = j) (hU0 : ∀ i j, U0 i j ≠ 0) (hV : ∀ i j, 0 ≤ V0 i j)
    (W0 : Mat m k ℝ) (H0 : Mat k n ℝ) (pH : ∀ a j, 0 < H0 a j) (cfg : LoopCfg ℝ) (clock0 : ℕ → Bool) (h : 0 < cfg.maxIter)
    (hreg : 0 < m → ∀ t X, (traj (wsLoopStep inv (fun i j => V0 (σ i) (τ j)) (weights fun i j => U0 (σ i) (τ j))) (rustUpdatesH cfg) (some fun i => W0 (σ i), some fun a j => H0 a (τ j)) t).2 = some X → Independent X)
    (T : RustState (Option (Mat m' k ℝ) × Option (Mat k n' ℝ)) ℝ)
    (hT : T = rustLoop (wsLoopStep inv (fun i j => V0 (σ i) (τ j)) (weights fun i j => U0 (σ i) (τ j))) (lsQ (fun i j => V0 (σ i) (τ j)) fun i j => U0 (σ i) (τ j)) cfg clock0 (some fun i => W0 (σ i), some fun a j => H0 a (τ j)))
    (hne : ∀ i a b, (max cfg.convergeN 1).toNat ≤ i + 1 → T.losses[i + 1 - (max cfg.convergeN 1).toNat]? = some (some a) → T.losses[i]? = some (some b) → a - b ≠ cfg.delta) :
    ∃ (W' : ℝ → Mat m k ℝ) (H' : ℝ → Mat k n ℝ) (Wl : Mat m k ℝ) (Hl : Mat k n ℝ) (q : ℝ → ℕ → ℝ) (ql : ℕ → ℝ),
      T.factors = (some fun i => Wl (σ i), some fun a j => Hl a (τ j)) ∧ Tendsto W' atTop (𝓝 Wl) ∧ Tendsto H' atTop (𝓝 Hl) ∧ (∀ i, Tendsto (fun x => q x i) atTop (𝓝 (ql i))) ∧ (∀ i, i < T.losses.length → T.losses[i]? = some (some (ql i))) ∧
      (∀ j, C j = false → ∀ a, Hl a j = H0 a j) ∧
      ∀ᶠ c in atTop, ∀ (clock : ℕ → Bool) (Uc : Mat m n ℝ), (∀ i j, Uc i j = (if R i then 1 else c) * (if C j then 1 else c) * U0 i j) →
        (rustLoop (wsLoopStep inv V0 (weights Uc)) (lsQ V0 Uc) cfg clock (some W0, some H0)).factors = (some (W' c), some (H' c)) ∧
        (rustLoop (wsLoopStep inv V0 (weights Uc)) (lsQ V0 Uc) cfg clock (some W0, some H0)).converged = T.converged ∧
        (rustLoop (wsLoopStep inv V0 (weights Uc)) (lsQ V0 Uc) cfg clock (some W0, some H0)).convergeI = T.convergeI ∧
        (rustLoop (wsLoopStep inv V0 (weights Uc)) (lsQ V0 Uc) cfg clock (some W0, some H0)).losses = (List.range T.losses.length).map fun i => some (q c i) := by
  have hlim : Tendsto (fun c : ℝ => (max c 1)⁻¹) atTop (𝓝 0) := tendsto_inv_atTop_zero.comp (tendsto_atTop_mono (fun c => le_max_left c 1) tendsto_id)
  have hne0 : ∀ c : ℝ, max c 1 ≠ 0 := fun c => (lt_of_lt_of_le one_pos (le_max_right c 1)).ne'
  have d : WeakRows (atTop : Filter ℝ) (fun _ => V0) (fun c i j => (if C j then 1 else max c 1) * U0 i j) (fun c i => if R i then 1 else max c 1) (fun _ j => C j) R V0 U0 :=
    { data := fun i j _ => tendsto_const_nhds
      unc := fun i j hj => by simp only [hj, if_true, one_mul]; exact tendsto_const_nhds
      unc0 := fun i j _ => hU0 i j
      cell := fun i j hj => by simpa [hj] using hlim.const_mul (U0 i j)⁻¹
      signal := fun i j hj => by
        have := (hlim.mul_const (U0 i j)⁻¹).const_mul (V0 i j)
        simpa [hj, div_eq_mul_inv, mul_comm] using this
      rowKept := fun _ i hi => by simp [hi]
      rowNe := fun c i => by
        split
        · exact one_ne_zero
        · exact hne0 c
      rowBig := fun i hi => by simpa [hi] using hlim
      nonneg := fun i j _ => hV i j }
  have hCτ : ∀ j', C (τ j') = true := fun j' => (hC _).2 ⟨j', rfl⟩
  have ek : (fun (_ : Fin m') (j : Fin n') => C (τ j)) = fun _ _ => true := by funext _ j; exact hCτ j
  obtain ⟨W', H', Wl, Hl, q, ql, h1, h2, h3, h4, h5, h6, h7⟩ := C265_run inv hinv d σ τ hσ hτ hR (fun _ j hj => (hC j).1 hj) (W := fun _ => W0) (H := fun _ => H0) tendsto_const_nhds tendsto_const_nhds pH cfg clock0 h
    (fun t X hX i c hc => by
      rw [ek] at hX
      exact hreg (Nat.zero_lt_of_lt i.2) t X hX c fun j => hc j (hCτ j)) T
    (by rw [ek, keptTrainWs_all]; exact hT) hne
  refine ⟨W', H', Wl, Hl, q, ql, h1, h2, h3, h4, h5, fun j hj a => h6 j (fun j' hj' => ?_) a, ?_⟩
  · have := hCτ j'
    rw [hj', hj] at this
    exact absurd this (by simp)
  filter_upwards [h7, eventually_ge_atTop 1] with c hc hc1 clock Uc hUc
  have e : Uc = fun i j => (if R i then 1 else max c 1) * ((if C j then 1 else max c 1) * U0 i j) := by
    funext i j
    rw [hUc, max_eq_left hc1, mul_assoc]
  rw [e]
  exact hc clock

/-- With one factor the condition on the profiles holds as soon as every sample keeps a feature. -/
theorem C265_one_factor (inv : Mat 1 1 ℝ → Mat 1 1 ℝ) {keep : Fin m → Fin n → Bool} {V0 U0 : Mat m n ℝ} (σ : Fin m' → Fin m) (τ : Fin n' → Fin n) (hσ : Function.Injective σ) (hτ : Function.Injective τ) (hC : ∀ i j, keep i j = true → ∃ j', τ j' = j)
    (pV : ∀ i j, keep i j = true → 0 ≤ V0 i j) (hrow : ∀ i, ∃ j, keep i j = true) (W0 : Mat m 1 ℝ) (H0 : Mat 1 n ℝ) (pH : ∀ a j, 0 < H0 a j) (flags : ℕ → Bool) (t : ℕ) (X : Mat 1 n' ℝ)
    (hX : (traj (wsLoopStep inv (fun i j => V0 (σ i) (τ j)) (keptWeights (fun i j => keep (σ i) (τ j)) fun i j => U0 (σ i) (τ j))) flags (some fun i => W0 (σ i), some fun a j => H0 a (τ j)) t).2 = some X) (i : Fin m) :
    IndependentOn (fun j => keep i (τ j)) X := by
  classical
  have hs := splitWs_sub (keep := keep) (R := fun i => decide (∃ i', σ i' = i)) (V0 := V0) (U0 := U0) inv σ τ hσ hτ (fun i => by simp) hC pV W0 H0 pH flags t
  rw [hs] at hX
  obtain rfl := Option.some.inj hX
  intro c hc a
  obtain ⟨j, hj⟩ := hrow i
  obtain ⟨j', rfl⟩ := hC i j hj
  have := hc j' hj
  rw [Fin.sum_univ_one] at this
  have pE : ∀ i j, 0 ≤ keptWeights (fun i j => decide (∃ i', σ i' = i) && keep i j) U0 i j := fun i j => by unfold keptWeights; split <;> positivity
  rcases mul_eq_zero.1 this with h | h
  · rw [Subsingleton.elim a 0, h]
  · refine absurd h (splitWs_pos inv V0 _ _ (fun i j => ?_) pE flags W0 H0 pH t 0 (τ j')).ne'
    by_cases hk : keep i j = true
    · exact mul_nonneg (pE i j) (pV i j hk)
    · simp [keptWeights, hk]

/-- A case of `C265_parts`: two samples and two features, one factor; the second feature becomes very uncertain and keeps its starting profile 7, while for the first the training without the second is approached. -/
example : ∃ (H' : ℝ → Mat 1 2 ℝ) (Hl : Mat 1 2 ℝ), Tendsto H' atTop (𝓝 Hl) ∧ Hl 0 1 = 7 ∧
    (rustLoop (wsLoopStep (fun A _ _ => (A 0 0)⁻¹) (fun i _ => (![![1, 2], ![3, 4]] : Mat 2 2 ℝ) i 0 : Mat 2 1 ℝ) (weights fun _ _ => 1)) (lsQ (fun i _ => (![![1, 2], ![3, 4]] : Mat 2 2 ℝ) i 0 : Mat 2 1 ℝ) fun _ _ => 1) ⟨5, 1 / 10, 25, false, -1⟩ (fun _ => false)
      ((some fun _ _ => 1 : Option (Mat 2 1 ℝ)), some fun _ _ => 7)).factors.2 = some (fun a _ => Hl a 0) ∧
    ∀ᶠ c in atTop, (rustLoop (wsLoopStep (fun A _ _ => (A 0 0)⁻¹) (![![1, 2], ![3, 4]] : Mat 2 2 ℝ) (weights fun _ j => if j = 0 then 1 else c)) (lsQ ![![1, 2], ![3, 4]] fun _ j => if j = 0 then 1 else c) ⟨5, 1 / 10, 25, false, -1⟩ (fun _ => false)
      ((some fun _ _ => 1 : Option (Mat 2 1 ℝ)), some fun _ _ => 7)).factors.2 = some (H' c) := by
  have pV : ∀ i j, 0 ≤ (![![1, 2], ![3, 4]] : Mat 2 2 ℝ) i j := fun i j => by fin_cases i <;> fin_cases j <;> simp
  have p7 : ∀ (a : Fin 1) (j : Fin 2), 0 < (fun _ _ => 7 : Mat 1 2 ℝ) a j := fun _ _ => by norm_num
  obtain ⟨W', H', Wl, Hl, q, ql, h1, -, h2, -, -, h3, h4⟩ := C265_parts (k := 1) (fun A _ _ => (A 0 0)⁻¹ : Mat 1 1 ℝ → Mat 1 1 ℝ)
    (fun A B hB => by
      have := hB 0 0
      rw [Fin.sum_univ_one] at this
      funext a b
      rw [Subsingleton.elim a 0, Subsingleton.elim b 0]
      simpa using (eq_inv_of_mul_eq_one_left (by simpa using this)).symm)
    (![![1, 2], ![3, 4]] : Mat 2 2 ℝ) (fun _ _ => 1) (fun _ => true) (fun j => decide (j = 0)) (fun i => i) (fun _ : Fin 1 => (0 : Fin 2)) (fun _ _ h => h) (fun _ _ _ => Subsingleton.elim _ _) (fun i => by simp) (fun j => by simp [eq_comm])
    (fun _ _ => one_ne_zero) pV (fun _ _ => 1) (fun _ _ => 7) p7 ⟨5, 1 / 10, 25, false, -1⟩ (fun _ => false) (by norm_num)
    (fun _ t X hX => by
      exact C264_one_factor _ (by norm_num) (fun i j => pV i 0) (fun _ _ => by norm_num) _ t X hX) _ rfl
    (fun i a b hi _ hb => by
      exfalso
      have hlt := (List.getElem?_eq_some_iff.1 hb).1
      have hlen := hlt.trans_le (rustLoop_factors _ _ _ _ _).2
      have h5 : (5 : ℤ).toNat = 5 := rfl
      have h25 : (max (25 : ℤ) 1).toNat = 25 := rfl
      simp only [h25] at hi
      simp only [h5] at hlen
      omega)
  refine ⟨H', Hl, h2, h3 1 (by simp) 0, by rw [h1], h4.mono fun c hc => ?_⟩
  rw [(hc (fun _ => false) (fun _ j => if j = 0 then 1 else c) fun i j => by by_cases hj : j = 0 <;> simp [hj]).1]

end Esat
