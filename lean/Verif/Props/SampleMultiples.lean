import Verif.Props.FeatureCopies

/-!
# C266: samples that are multiples of each other

Samples whose values and uncertainties are multiples of those of other samples: the same composition at another level. For ws-nmf the multiple of the values may be zero, a sample without any signal.
-/

namespace Esat

section samples
variable {m n k l : ℕ}

/-- The same profiles, and `d t` times the contributions of sample `φ t` for sample `t`. -/
def multSamples (φ : Fin l → Fin m) (d : Fin l → ℝ) (p : Option (Mat m k ℝ) × Option (Mat k n ℝ)) : Option (Mat l k ℝ) × Option (Mat k n ℝ) :=
  (p.1.map fun W => fun t a => d t * W (φ t) a, p.2)

theorem weights_samples (φ : Fin l → Fin m) (d s : Fin l → ℝ) (U : Mat m n ℝ) :
    weights (fun i j => U i j / √(featShare φ d s i)) = fun i j => featShare φ d s i * weights U i j := by
  funext i j
  have h0 : 0 ≤ featShare φ d s i := Finset.sum_nonneg fun t _ => sq_nonneg _
  simp only [weights, div_pow]
  rw [Real.sq_sqrt h0, one_div_div, div_eq_mul_one_div]

theorem weights_multiples (φ : Fin l → Fin m) (s : Fin l → ℝ) (U : Mat m n ℝ) :
    weights (fun t j => s t * U (φ t) j) = fun t j => 1 / s t ^ 2 * weights U (φ t) j := by
  funext t j
  simp only [weights, mul_pow]
  rw [one_div_mul_one_div]

theorem qLoss_multiples (φ : Fin l → Fin m) (d s : Fin l → ℝ) (V U : Mat m n ℝ) (W : Mat m k ℝ) (H : Mat k n ℝ) :
    qLoss (fun t j => d t * V (φ t) j) (fun t j => s t * U (φ t) j) (fun t a => d t * W (φ t) a) H = qLoss V (fun i j => U i j / √(featShare φ d s i)) W H := by
  unfold qLoss
  simp only [if_true]
  have e : ∀ t, ∑ j, (d t * V (φ t) j - mmul (fun t a => d t * W (φ t) a) H t j) / (s t * U (φ t) j) * ((d t * V (φ t) j - mmul (fun t a => d t * W (φ t) a) H t j) / (s t * U (φ t) j)) =
      (d t / s t) ^ 2 * (fun i => ∑ j, (V i j - (W ⬝ H) i j) / U i j * ((V i j - (W ⬝ H) i j) / U i j)) (φ t) := fun t => by
    simp only [mmul, Finset.mul_sum]
    refine Finset.sum_congr rfl fun j _ => ?_
    rw [Finset.sum_congr rfl (g := fun b => d t * (W (φ t) b * H b j)) fun b _ => mul_assoc _ _ _, ← Finset.mul_sum, ← mul_sub, mul_div_mul_comm]
    ring
  rw [Finset.sum_congr rfl fun t _ => e t, sum_features φ (fun t => (d t / s t) ^ 2) (fun i => ∑ j, (V i j - (W ⬝ H) i j) / U i j * ((V i j - (W ⬝ H) i j) / U i j))]
  refine Finset.sum_congr rfl fun i _ => ?_
  have h0 : 0 ≤ featShare φ d s i := Finset.sum_nonneg fun t _ => sq_nonneg _
  show featShare φ d s i * _ = _
  rw [Finset.mul_sum]
  refine Finset.sum_congr rfl fun j _ => ?_
  rw [div_div_eq_mul_div, mul_div_right_comm, mul_mul_mul_comm, Real.mul_self_sqrt h0]
  exact mul_comm _ _

theorem lsQ_multiples (φ : Fin l → Fin m) (d s : Fin l → ℝ) (V U : Mat m n ℝ) (p : Option (Mat m k ℝ) × Option (Mat k n ℝ)) :
    lsQ (fun t j => d t * V (φ t) j) (fun t j => s t * U (φ t) j) (multSamples φ d p) = lsQ V (fun i j => U i j / √(featShare φ d s i)) p := by
  obtain ⟨_ | W, _ | H⟩ := p
  · rfl
  · rfl
  · rfl
  · exact congrArg some (qLoss_multiples φ d s V U W H)

/-! ## ls-nmf -/

theorem lsStepH_multiples (φ : Fin l → Fin m) (d s : Fin l → ℝ) (V We : Mat m n ℝ) (W : Mat m k ℝ) (H : Mat k n ℝ) :
    lsStepH (fun t j => d t * V (φ t) j) (fun t j => 1 / s t ^ 2 * We (φ t) j) (fun t a => d t * W (φ t) a) H = lsStepH V (fun i j => featShare φ d s i * We i j) W H := by
  have h := lsStepW_features φ d s (tr V) (tr We) (tr H) (tr W)
  rw [lsStepW_eq_transpose, lsStepW_eq_transpose] at h
  exact Option.map_injective (f := fun X : Mat k n ℝ => tr X) (fun a b hab => by
    have := congrArg tr hab
    exact this) h

theorem lsStepW_multiples {φ : Fin l → Fin m} {d s : Fin l → ℝ} (hφ : Function.Surjective φ) (hd : ∀ t, d t ≠ 0) (hs : ∀ t, s t ≠ 0) (V We : Mat m n ℝ) (W : Mat m k ℝ) (H : Mat k n ℝ) :
    lsStepW (fun t j => d t * V (φ t) j) (fun t j => 1 / s t ^ 2 * We (φ t) j) (fun t a => d t * W (φ t) a) H = (lsStepW V (fun i j => featShare φ d s i * We i j) W H).map fun W => fun t a => d t * W (φ t) a := by
  rw [lsStepW_eq_transpose, lsStepW_eq_transpose]
  have h := lsStepH_features hφ hd hs (tr V) (tr We) (tr H) (tr W)
  refine (congrArg (Option.map fun X => tr X) h).trans ?_
  rw [Option.map_map, Option.map_map]
  rfl

theorem lsLoopStep_multiples {φ : Fin l → Fin m} {d s : Fin l → ℝ} (hφ : Function.Surjective φ) (hd : ∀ t, d t ≠ 0) (hs : ∀ t, s t ≠ 0) (V We : Mat m n ℝ) (u : Bool) (p : Option (Mat m k ℝ) × Option (Mat k n ℝ)) :
    lsLoopStep (fun t j => d t * V (φ t) j) (fun t j => 1 / s t ^ 2 * We (φ t) j) u (multSamples φ d p) = multSamples φ d (lsLoopStep V (fun i j => featShare φ d s i * We i j) u p) := by
  obtain ⟨_ | W, _ | H⟩ := p
  · cases u <;> rfl
  · cases u <;> rfl
  · cases u <;> rfl
  · cases u
    · simp only [lsLoopStep, multSamples, Option.map_some, Option.bind_some, Bool.false_eq_true, if_false]
      rw [lsStepW_multiples hφ hd hs]
    · simp only [lsLoopStep, multSamples, Option.map_some, Option.bind_some, if_true]
      rw [lsStepH_multiples]
      cases lsStepH V (fun i j => featShare φ d s i * We i j) W H with
      | none => rfl
      | some H' =>
        simp only [Option.bind_some]
        rw [lsStepW_multiples hφ hd hs]

/-- **C266 (ls-nmf).** Data with samples that are multiples of others (values `d t` times, uncertainties `s t` times those of sample `φ t`, none of them zero), started with contributions that are the same multiples: the run takes the course of the run
on the distinct samples, each with its uncertainty divided by the square root of `∑ (d t / s t) ^ 2` over its multiples. Losses, convergence, reports and profiles are the same, and the contributions stay multiples of each other. -/
theorem C266_ls {φ : Fin l → Fin m} {d s : Fin l → ℝ} (hφ : Function.Surjective φ) (hd : ∀ t, d t ≠ 0) (hs : ∀ t, s t ≠ 0) (V U : Mat m n ℝ) (cfg : LoopCfg ℝ) (clock : ℕ → Bool) (rm : Bool) (rn : ℤ) (W : Mat m k ℝ) (H : Mat k n ℝ) :
    let run := lsTrain V (fun i j => U i j / √(∑ t with φ t = i, (d t / s t) ^ 2)) cfg clock rm rn W H
    let run' := lsTrain (fun t j => d t * V (φ t) j) (fun t j => s t * U (φ t) j) cfg clock rm rn (fun t a => d t * W (φ t) a) H
    run'.converged = run.converged ∧ run'.convergeI = run.convergeI ∧ run'.reports = run.reports ∧ run'.losses = run.losses ∧
      run'.factors.1 = run.factors.1.map (fun X => fun t a => d t * X (φ t) a) ∧ run'.factors.2 = run.factors.2 := by
  intro run run'
  have hid : ∀ o : Option ℝ, o.map (1 * ·) = o := fun o => by cases o <;> simp
  have key := rustLoop_rescale (multSamples φ d) 1 one_pos (lsLoopStep V (weights fun i j => U i j / √(featShare φ d s i))) (lsLoopStep (fun t j => d t * V (φ t) j) (weights fun t j => s t * U (φ t) j))
    (lsQ V (fun i j => U i j / √(featShare φ d s i))) (lsQ (fun t j => d t * V (φ t) j) (fun t j => s t * U (φ t) j))
    (fun u p => by rw [weights_samples, weights_multiples]; exact lsLoopStep_multiples hφ hd hs V (weights U) u p) (fun p => by rw [hid, lsQ_multiples]) cfg clock (some W, some H)
  have hrun : run' = run.rescale (multSamples φ d) 1 := by
    refine Eq.trans ?_ key
    rw [one_mul]
    rfl
  rw [hrun]
  exact ⟨rfl, rfl, rfl, rescale_one_losses run, rfl, rfl⟩

/-! ## ws-nmf -/

theorem wsStepW_multiples (inv : Mat k k ℝ → Mat k k ℝ) (hinv : InvHomogeneous inv) (φ : Fin l → Fin m) (d s : Fin l → ℝ) (hs : ∀ t, s t ≠ 0) (hp : ∀ i, 0 < featShare φ d s i) (V We : Mat m n ℝ) (H : Mat k n ℝ) :
    wsStepW inv (fun t j => d t * V (φ t) j) (fun t j => 1 / s t ^ 2 * We (φ t) j) H = fun t a => d t * wsStepW inv V (fun i j => featShare φ d s i * We i j) H (φ t) a := by
  funext t b
  have h0 := hp (φ t)
  have hs0 : 0 < 1 / s t ^ 2 := by have := hs t; positivity
  have hN : wsNormal (fun i j => featShare φ d s i * We i j) H (φ t) = fun a b => featShare φ d s (φ t) * wsNormal We H (φ t) a b := by
    funext a b
    simp only [wsNormal, Finset.mul_sum]
    exact Finset.sum_congr rfl fun j _ => by ring
  have hN' : wsNormal (fun t j => 1 / s t ^ 2 * We (φ t) j) H t = fun a b => 1 / s t ^ 2 * wsNormal We H (φ t) a b := by
    funext a b
    simp only [wsNormal, Finset.mul_sum]
    exact Finset.sum_congr rfl fun j _ => by ring
  have hR : ∀ a, wsRhs V (fun i j => featShare φ d s i * We i j) H (φ t) a = featShare φ d s (φ t) * wsRhs V We H (φ t) a := fun a => by
    simp only [wsRhs, Finset.mul_sum]
    exact Finset.sum_congr rfl fun j _ => by ring
  have hR' : ∀ a, wsRhs (fun t j => d t * V (φ t) j) (fun t j => 1 / s t ^ 2 * We (φ t) j) H t a = d t * (1 / s t ^ 2) * wsRhs V We H (φ t) a := fun a => by
    simp only [wsRhs, Finset.mul_sum]
    exact Finset.sum_congr rfl fun j _ => by ring
  unfold wsStepW
  rw [hN, hinv _ _ h0, hN', hinv _ _ hs0, Finset.mul_sum]
  refine Finset.sum_congr rfl fun a _ => ?_
  rw [hR, hR']
  have := hs0.ne'
  generalize 1 / s t ^ 2 = x at this ⊢
  field_simp

theorem wsStepH_multiples (φ : Fin l → Fin m) (d s : Fin l → ℝ) (hd : ∀ t, 0 ≤ d t) (V We : Mat m n ℝ) (W : Mat m k ℝ) (H : Mat k n ℝ) :
    wsStepH (fun t j => d t * V (φ t) j) (fun t j => 1 / s t ^ 2 * We (φ t) j) (fun t a => d t * W (φ t) a) H = wsStepH V (fun i j => featShare φ d s i * We i j) W H := by
  have hpos : wsPos (fun t a => d t * W (φ t) a) = fun t a => d t * wsPos W (φ t) a := by
    funext t a
    simp only [wsPos, abs_mul, abs_of_nonneg (hd t)]
    ring
  have hneg : wsNeg (fun t a => d t * W (φ t) a) = fun t a => d t * wsNeg W (φ t) a := by
    funext t a
    simp only [wsNeg, abs_mul, abs_of_nonneg (hd t)]
    ring
  have lin : ∀ A : Mat m k ℝ, wsLin (fun t j => d t * V (φ t) j) (fun t j => 1 / s t ^ 2 * We (φ t) j) (fun t a => d t * A (φ t) a) = wsLin V (fun i j => featShare φ d s i * We i j) A := fun A => by
    funext b j
    unfold wsLin
    rw [Finset.sum_congr rfl (g := fun t => (d t / s t) ^ 2 * (fun i => We i j * V i j * A i b) (φ t)) fun t _ => by ring, sum_features φ (fun t => (d t / s t) ^ 2) (fun i => We i j * V i j * A i b)]
    exact Finset.sum_congr rfl fun i _ => by simp only [featShare]; ring
  have quad : ∀ A : Mat m k ℝ, wsQuad (fun t j => 1 / s t ^ 2 * We (φ t) j) (fun t a => d t * A (φ t) a) H = wsQuad (fun i j => featShare φ d s i * We i j) A H := fun A => by
    funext b j
    unfold wsQuad
    refine Finset.sum_congr rfl fun a _ => congrArg _ ?_
    rw [Finset.sum_congr rfl (g := fun t => (d t / s t) ^ 2 * (fun i => A i a * We i j * A i b) (φ t)) fun t _ => by ring, sum_features φ (fun t => (d t / s t) ^ 2) (fun i => A i a * We i j * A i b)]
    exact Finset.sum_congr rfl fun i _ => by simp only [featShare]; ring
  have h1 : wsNum (fun t j => d t * V (φ t) j) (fun t j => 1 / s t ^ 2 * We (φ t) j) (fun t a => d t * W (φ t) a) H = wsNum V (fun i j => featShare φ d s i * We i j) W H := by
    unfold wsNum
    rw [hpos, hneg, lin, quad]
  have h2 : wsDen (fun t j => d t * V (φ t) j) (fun t j => 1 / s t ^ 2 * We (φ t) j) (fun t a => d t * W (φ t) a) H = wsDen V (fun i j => featShare φ d s i * We i j) W H := by
    unfold wsDen
    rw [hpos, hneg, lin, quad]
  unfold wsStepH
  rw [h1, h2]

theorem wsLoopStep_multiples (inv : Mat k k ℝ → Mat k k ℝ) (hinv : InvHomogeneous inv) (φ : Fin l → Fin m) (d s : Fin l → ℝ) (hd : ∀ t, 0 ≤ d t) (hs : ∀ t, s t ≠ 0) (hp : ∀ i, 0 < featShare φ d s i) (V We : Mat m n ℝ) (u : Bool) (p : Option (Mat m k ℝ) × Option (Mat k n ℝ)) :
    wsLoopStep inv (fun t j => d t * V (φ t) j) (fun t j => 1 / s t ^ 2 * We (φ t) j) u (multSamples φ d p) = multSamples φ d (wsLoopStep inv V (fun i j => featShare φ d s i * We i j) u p) := by
  obtain ⟨W, _ | H⟩ := p
  · rfl
  · simp only [wsLoopStep, multSamples, Option.map_some]
    rw [wsStepW_multiples inv hinv φ d s hs hp, wsStepH_multiples φ d s hd]

/-- **C266 (ws-nmf).** The same for ws-nmf with any homogeneous inverse and any starting contributions; here the multiples of the values may also be zero, as long as each of the distinct samples has a multiple that is not. -/
theorem C266_ws (inv : Mat k k ℝ → Mat k k ℝ) (hinv : InvHomogeneous inv) (φ : Fin l → Fin m) (d s : Fin l → ℝ) (hφ : ∀ i, ∃ t, φ t = i ∧ d t ≠ 0) (hd : ∀ t, 0 ≤ d t) (hs : ∀ t, s t ≠ 0) (V U : Mat m n ℝ) (cfg : LoopCfg ℝ) (hit : 0 < cfg.maxIter)
    (clock : ℕ → Bool) (W : Mat m k ℝ) (W' : Mat l k ℝ) (H : Mat k n ℝ) :
    let U' := fun i j => U i j / √(∑ t with φ t = i, (d t / s t) ^ 2)
    let run := rustLoop (wsLoopStep inv V (weights U')) (lsQ V U') cfg clock (some W, some H)
    let run' := rustLoop (wsLoopStep inv (fun t j => d t * V (φ t) j) (weights fun t j => s t * U (φ t) j)) (lsQ (fun t j => d t * V (φ t) j) (fun t j => s t * U (φ t) j)) cfg clock (some W', some H)
    run'.converged = run.converged ∧ run'.convergeI = run.convergeI ∧ run'.reports = run.reports ∧ run'.losses = run.losses ∧
      run'.factors.1 = run.factors.1.map (fun X => fun t a => d t * X (φ t) a) ∧ run'.factors.2 = run.factors.2 := by
  intro U' run run'
  have hp : ∀ i, 0 < featShare φ d s i := fun i => by
    obtain ⟨t, ht, h0⟩ := hφ i
    refine Finset.sum_pos' (fun t _ => sq_nonneg _) ⟨t, Finset.mem_filter.2 ⟨Finset.mem_univ _, ht⟩, ?_⟩
    have := div_ne_zero h0 (hs t)
    positivity
  have hid : ∀ o : Option ℝ, o.map (1 * ·) = o := fun o => by cases o <;> simp
  have key := rustLoop_rescale (multSamples φ d) 1 one_pos (wsLoopStep inv V (weights fun i j => U i j / √(featShare φ d s i))) (wsLoopStep inv (fun t j => d t * V (φ t) j) (weights fun t j => s t * U (φ t) j))
    (lsQ V (fun i j => U i j / √(featShare φ d s i))) (lsQ (fun t j => d t * V (φ t) j) (fun t j => s t * U (φ t) j))
    (fun u p => by rw [weights_samples, weights_multiples]; exact wsLoopStep_multiples inv hinv φ d s hd hs hp V (weights U) u p) (fun p => by rw [hid, lsQ_multiples]) cfg clock (some W, some H)
  have hstart : run' = rustLoop (wsLoopStep inv (fun t j => d t * V (φ t) j) (weights fun t j => s t * U (φ t) j)) (lsQ (fun t j => d t * V (φ t) j) (fun t j => s t * U (φ t) j)) cfg clock (multSamples φ d (some W, some H)) := by
    obtain ⟨f, hf⟩ : ∃ f, cfg.maxIter.toNat = f + 1 := ⟨cfg.maxIter.toNat - 1, by omega⟩
    show rustLoop _ _ _ _ _ = _
    unfold rustLoop
    rw [hf]
    rfl
  have hrun : run' = run.rescale (multSamples φ d) 1 := by
    rw [hstart]
    refine Eq.trans ?_ key
    rw [one_mul]
  rw [hrun]
  exact ⟨rfl, rfl, rfl, rescale_one_losses run, rfl, rfl⟩

/-- The same profiles, and a sample more, without contributions. -/
def addEmpty (p : Option (Mat m k ℝ) × Option (Mat k n ℝ)) : Option (Mat (m + 1) k ℝ) × Option (Mat k n ℝ) := (p.1.map fun X => Fin.snoc X (fun _ => 0), p.2)

theorem wsLoopStep_addEmpty (inv : Mat k k ℝ → Mat k k ℝ) (V U : Mat m n ℝ) (u : Fin n → ℝ) (v : Bool) (p : Option (Mat m k ℝ) × Option (Mat k n ℝ)) :
    wsLoopStep inv (Fin.snoc V (fun _ => 0)) (weights (Fin.snoc U u)) v (addEmpty p) = addEmpty (wsLoopStep inv V (weights U) v p) := by
  have hw : ∀ i j, weights (Fin.snoc U u : Mat (m + 1) n ℝ) (Fin.castSucc i) j = weights U i j := fun i j => by simp [weights]
  have hW : ∀ X : Mat k n ℝ, wsStepW inv (Fin.snoc V (fun _ => 0) : Mat (m + 1) n ℝ) (weights (Fin.snoc U u)) X = Fin.snoc (wsStepW inv V (weights U) X) (fun _ => 0) := fun X => by
    funext i
    refine Fin.lastCases ?_ (fun i => ?_) i
    · funext b
      simp [wsStepW, wsRhs]
    · have hN : wsNormal (weights (Fin.snoc U u : Mat (m + 1) n ℝ)) X (Fin.castSucc i) = wsNormal (weights U) X i := by
        funext a b
        simp [wsNormal, hw]
      funext b
      simp only [Fin.snoc_castSucc, wsStepW, hN, wsRhs, hw]
  have hpos : ∀ Y : Mat m k ℝ, wsPos (Fin.snoc Y (fun _ => 0) : Mat (m + 1) k ℝ) = Fin.snoc (wsPos Y) (fun _ => 0) := fun Y => by
    funext i
    refine Fin.lastCases ?_ (fun i => ?_) i <;> funext a <;> simp [wsPos]
  have hneg : ∀ Y : Mat m k ℝ, wsNeg (Fin.snoc Y (fun _ => 0) : Mat (m + 1) k ℝ) = Fin.snoc (wsNeg Y) (fun _ => 0) := fun Y => by
    funext i
    refine Fin.lastCases ?_ (fun i => ?_) i <;> funext a <;> simp [wsNeg]
  have lin : ∀ A : Mat m k ℝ, wsLin (Fin.snoc V (fun _ => 0) : Mat (m + 1) n ℝ) (weights (Fin.snoc U u)) (Fin.snoc A (fun _ => 0)) = wsLin V (weights U) A := fun A => by
    funext b j
    unfold wsLin
    rw [Fin.sum_univ_castSucc]
    simp [hw]
  have quad : ∀ (A : Mat m k ℝ) (X : Mat k n ℝ), wsQuad (weights (Fin.snoc U u : Mat (m + 1) n ℝ)) (Fin.snoc A (fun _ => 0)) X = wsQuad (weights U) A X := fun A X => by
    funext b j
    unfold wsQuad
    refine Finset.sum_congr rfl fun a _ => congrArg _ ?_
    rw [Fin.sum_univ_castSucc]
    simp [hw]
  have hH : ∀ (Y : Mat m k ℝ) (X : Mat k n ℝ), wsStepH (Fin.snoc V (fun _ => 0) : Mat (m + 1) n ℝ) (weights (Fin.snoc U u)) (Fin.snoc Y (fun _ => 0)) X = wsStepH V (weights U) Y X := fun Y X => by
    have h1 : wsNum (Fin.snoc V (fun _ => 0) : Mat (m + 1) n ℝ) (weights (Fin.snoc U u)) (Fin.snoc Y (fun _ => 0)) X = wsNum V (weights U) Y X := by
      unfold wsNum
      rw [hpos, hneg, lin, quad]
    have h2 : wsDen (Fin.snoc V (fun _ => 0) : Mat (m + 1) n ℝ) (weights (Fin.snoc U u)) (Fin.snoc Y (fun _ => 0)) X = wsDen V (weights U) Y X := by
      unfold wsDen
      rw [hpos, hneg, lin, quad]
    unfold wsStepH
    rw [h1, h2]
  obtain ⟨Y, _ | X⟩ := p
  · rfl
  · simp only [wsLoopStep, addEmpty, Option.map_some]
    rw [hW, hH]

theorem lsQ_addEmpty (V U : Mat m n ℝ) (u : Fin n → ℝ) (p : Option (Mat m k ℝ) × Option (Mat k n ℝ)) : lsQ (Fin.snoc V (fun _ => 0) : Mat (m + 1) n ℝ) (Fin.snoc U u) (addEmpty p) = lsQ V U p := by
  obtain ⟨_ | Y, _ | X⟩ := p <;> try rfl
  refine congrArg some ?_
  unfold qLoss
  simp only [if_true]
  rw [Fin.sum_univ_castSucc]
  simp [mmul]

/-- **C266 (samples without signal).** A sample of zeros, with whatever uncertainties: the ws-nmf contributions of the sample are zero after every update, for every inverse, and it does not enter the update of the profiles; losses, convergence, profiles
and the other contributions are those of the training without it. (Under ls-nmf such a sample makes the factors NaN: C240.) -/
theorem C266_empty (inv : Mat k k ℝ → Mat k k ℝ) (V U : Mat m n ℝ) (u : Fin n → ℝ) (cfg : LoopCfg ℝ) (hit : 0 < cfg.maxIter) (clock : ℕ → Bool) (W : Mat m k ℝ) (W' : Mat (m + 1) k ℝ) (H : Mat k n ℝ) :
    let run := rustLoop (wsLoopStep inv V (weights U)) (lsQ V U) cfg clock (some W, some H)
    let run' := rustLoop (wsLoopStep inv (Fin.snoc V (fun _ => 0)) (weights (Fin.snoc U u))) (lsQ (Fin.snoc V (fun _ => 0)) (Fin.snoc U u)) cfg clock (some W', some H)
    run'.converged = run.converged ∧ run'.convergeI = run.convergeI ∧ run'.reports = run.reports ∧ run'.losses = run.losses ∧
      run'.factors.1 = run.factors.1.map (fun X => Fin.snoc X (fun _ => 0)) ∧ run'.factors.2 = run.factors.2 := by
  intro run run'
  have hid : ∀ o : Option ℝ, o.map (1 * ·) = o := fun o => by cases o <;> simp
  have key := rustLoop_rescale addEmpty 1 one_pos (wsLoopStep inv V (weights U)) (wsLoopStep inv (Fin.snoc V (fun _ => 0)) (weights (Fin.snoc U u))) (lsQ V U) (lsQ (Fin.snoc V (fun _ => 0)) (Fin.snoc U u))
    (fun v p => wsLoopStep_addEmpty inv V U u v p) (fun p => by rw [hid, lsQ_addEmpty]) cfg clock (some W, some H)
  have hstart : run' = rustLoop (wsLoopStep inv (Fin.snoc V (fun _ => 0)) (weights (Fin.snoc U u))) (lsQ (Fin.snoc V (fun _ => 0)) (Fin.snoc U u)) cfg clock (addEmpty (some W, some H)) := by
    obtain ⟨f, hf⟩ : ∃ f, cfg.maxIter.toNat = f + 1 := ⟨cfg.maxIter.toNat - 1, by omega⟩
    show rustLoop _ _ _ _ _ = _
    unfold rustLoop
    rw [hf]
    rfl
  have hrun : run' = run.rescale addEmpty 1 := by
    rw [hstart]
    refine Eq.trans ?_ key
    rw [one_mul]
  rw [hrun]
  exact ⟨rfl, rfl, rfl, rescale_one_losses run, rfl, rfl⟩

/-- Two samples, the second of twice the values and the same uncertainties: one sample with its uncertainties divided by the square root of five. -/
example (v u : Fin 4 → ℝ) (cfg : LoopCfg ℝ) (clock : ℕ → Bool) (w : Fin 2 → ℝ) (H : Mat 2 4 ℝ) :
    (lsTrain (fun (t : Fin 2) j => ![1, 2] t * v j) (fun (_ : Fin 2) j => 1 * u j) cfg clock false 0 (fun t a => ![1, 2] t * w a) H).factors.2 =
      (lsTrain (fun (_ : Fin 1) j => v j) (fun _ j => u j / √5) cfg clock false 0 (fun _ a => w a) H).factors.2 := by
  have h := (C266_ls (m := 1) (φ := fun _ : Fin 2 => 0) (d := ![1, 2]) (s := fun _ => 1) (fun i => ⟨0, Subsingleton.elim _ _⟩) (fun t => by fin_cases t <;> norm_num) (fun _ => one_ne_zero) (fun _ j => v j) (fun _ j => u j) cfg clock false 0 (fun _ a => w a) H).2.2.2.2.2
  rw [h]
  have e : ∀ i : Fin 1, ∑ t : Fin 2 with (0 : Fin 1) = i, ((![1, 2] : Fin 2 → ℝ) t / 1) ^ 2 = 5 := fun i => by
    rw [Finset.filter_true_of_mem fun _ _ => Subsingleton.elim _ _, Fin.sum_univ_two]
    norm_num
  simp only [e]

/-- ws-nmf with a single factor; the third sample is twice the first, the fourth has no signal. -/
example (V U : Mat 2 4 ℝ) (clock : ℕ → Bool) (W : Mat 2 1 ℝ) (W' : Mat 4 1 ℝ) (H : Mat 1 4 ℝ) :=
  C266_ws (k := 1) (fun A _ _ => (A 0 0)⁻¹) (fun t A _ => by funext a b; exact mul_inv _ _) (![0, 1, 0, 1] : Fin 4 → Fin 2) ![1, 1, 2, 0] (fun _ => 1)
    (fun i => by
      fin_cases i
      · exact ⟨0, rfl, by simp⟩
      · exact ⟨1, rfl, by simp⟩)
    (fun t => by fin_cases t <;> norm_num) (fun _ => one_ne_zero) V U ⟨20, 1, 10, false, 0⟩ (by norm_num) clock W W' H

end samples

end Esat
