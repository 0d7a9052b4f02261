import Verif.Props.Order
import Mathlib.Data.Finset.Sort
import Mathlib.Tactic.FinCases

/-!
# C243, C244: copies of factors and of samples

C243: a run that starts with factors which are multiples of each other is the run of a model with fewer factors.
C244: a run on data with repeated samples is a run on the distinct samples with smaller uncertainties. This is what the bootstrap trains on.
-/

namespace Esat

/-! ## Copies of factors -/

section factors
variable {K : Type*} [Field K] [LinearOrder K] [IsStrictOrderedRing K] {m n k l : ℕ}

/-- Factor `b` of the larger model is factor `χ b` of the smaller one, its contributions multiplied by `c b` and its profile by `d b`. -/
def splitFactors (χ : Fin l → Fin k) (c d : Fin l → K) (p : Option (Mat m k K) × Option (Mat k n K)) : Option (Mat m l K) × Option (Mat l n K) :=
  (p.1.map fun W => fun i b => c b * W i (χ b), p.2.map fun H => fun b j => d b * H (χ b) j)

/-- The copies of a factor add up to it. -/
def CopiesAddUp (χ : Fin l → Fin k) (c d : Fin l → K) : Prop := ∀ a, ∑ b with χ b = a, c b * d b = 1

theorem mmul_split (χ : Fin l → Fin k) (c d : Fin l → K) (h : CopiesAddUp χ c d) (W : Mat m k K) (H : Mat k n K) :
    (mmul (fun i b => c b * W i (χ b)) (fun b j => d b * H (χ b) j)) = W ⬝ H := by
  funext i j
  simp only [mmul]
  rw [← Finset.sum_fiberwise Finset.univ χ]
  refine Finset.sum_congr rfl fun a _ => ?_
  rw [← one_mul (W i a * H a j), ← h a, Finset.sum_mul]
  refine Finset.sum_congr rfl fun b hb => ?_
  rw [(Finset.mem_filter.1 hb).2]
  ring

theorem surj_of_addUp {χ : Fin l → Fin k} {c d : Fin l → K} (h : CopiesAddUp χ c d) (a : Fin k) : ∃ b, χ b = a := by
  by_contra hn
  push Not at hn
  have := h a
  rw [Finset.filter_false_of_mem (fun b _ => hn b), Finset.sum_empty] at this
  exact zero_ne_one this

theorem lsStepH_split (χ : Fin l → Fin k) (c d : Fin l → K) (hc : ∀ b, c b ≠ 0) (h : CopiesAddUp χ c d) (V We : Mat m n K) (W : Mat m k K) (H : Mat k n K) :
    lsStepH V We (fun i b => c b * W i (χ b)) (fun b j => d b * H (χ b) j) = (lsStepH V We W H).map fun H => fun b j => d b * H (χ b) j := by
  have hnum : ∀ b j, lsHNum V We (fun i b => c b * W i (χ b)) b j = c b * lsHNum V We W (χ b) j := fun b j => by
    simp only [lsHNum, mmul, tr, Finset.mul_sum]
    exact Finset.sum_congr rfl fun i _ => mul_assoc _ _ _
  have hden : ∀ b j, lsHDen We (fun i b => c b * W i (χ b)) (fun b j => d b * H (χ b) j) b j = c b * lsHDen We W H (χ b) j := fun b j => by
    unfold lsHDen
    rw [mmul_split χ c d h]
    simp only [mmul, tr, Finset.mul_sum]
    exact Finset.sum_congr rfl fun i _ => mul_assoc _ _ _
  have hz : NoZero (lsHDen We (fun i b => c b * W i (χ b)) (fun b j => d b * H (χ b) j)) ↔ NoZero (lsHDen We W H) := by
    constructor
    · intro h0 a j e
      obtain ⟨b, rfl⟩ := surj_of_addUp h a
      exact h0 b j (by rw [hden, e, mul_zero])
    · intro h0 b j
      rw [hden]
      exact mul_ne_zero (hc b) (h0 _ _)
  unfold lsStepH
  by_cases h0 : NoZero (lsHDen We W H)
  · rw [if_pos h0, if_pos (hz.2 h0), Option.map_some]
    congr 1
    funext b j
    simp only [emul, ediv, hnum, hden]
    rw [mul_div_mul_left _ _ (hc b), mul_assoc]
  · rw [if_neg h0, if_neg (fun h => h0 (hz.1 h))]
    rfl

theorem lsStepW_split (χ : Fin l → Fin k) (c d : Fin l → K) (hd : ∀ b, d b ≠ 0) (h : CopiesAddUp χ c d) (V We : Mat m n K) (W : Mat m k K) (H : Mat k n K) :
    lsStepW V We (fun i b => c b * W i (χ b)) (fun b j => d b * H (χ b) j) = (lsStepW V We W H).map fun W => fun i b => c b * W i (χ b) := by
  rw [lsStepW_eq_transpose, lsStepW_eq_transpose]
  have h' : CopiesAddUp χ d c := fun a => by rw [← h a]; exact Finset.sum_congr rfl fun b _ => mul_comm _ _
  have := lsStepH_split χ d c hd h' (tr V) (tr We) (tr H) (tr W)
  rw [show tr (fun b j => d b * H (χ b) j) = (fun j b => d b * tr H j (χ b)) from rfl, show tr (fun i b => c b * W i (χ b)) = (fun b i => c b * tr W (χ b) i) from rfl, this, Option.map_map, Option.map_map]
  rfl

theorem lsLoopStep_split (χ : Fin l → Fin k) (c d : Fin l → K) (hc : ∀ b, c b ≠ 0) (hd : ∀ b, d b ≠ 0) (h : CopiesAddUp χ c d) (V We : Mat m n K) (u : Bool) (p : Option (Mat m k K) × Option (Mat k n K)) :
    lsLoopStep V We u (splitFactors χ c d p) = splitFactors χ c d (lsLoopStep V We u p) := by
  obtain ⟨_ | W, _ | H⟩ := p
  · cases u <;> rfl
  · cases u <;> rfl
  · cases u <;> rfl
  · cases u
    · simp only [lsLoopStep, splitFactors, Option.map_some, Option.bind_some, Bool.false_eq_true, if_false]
      rw [lsStepW_split χ c d hd h]
    · simp only [lsLoopStep, splitFactors, Option.map_some, Option.bind_some, if_true]
      rw [lsStepH_split χ c d hc h]
      cases lsStepH V We W H with
      | none => rfl
      | some H' =>
        simp only [Option.map_some, Option.bind_some]
        rw [lsStepW_split χ c d hd h]

theorem qLoss_split (χ : Fin l → Fin k) (c d : Fin l → K) (h : CopiesAddUp χ c d) (V U : Mat m n K) (W : Mat m k K) (H : Mat k n K) :
    qLoss V U (fun i b => c b * W i (χ b)) (fun b j => d b * H (χ b) j) = qLoss V U W H := by
  unfold qLoss
  rw [mmul_split χ c d h]

/-- **C243 (copies of factors).** A compiled ls-nmf run whose starting factors are multiples of the `k` factors of a smaller model (the multiples of each factor adding up to it) takes the course of the run of the smaller model: same losses,
convergence and reports, and its factors are the same multiples of the result of the smaller model. It never makes use of the additional factors. -/
theorem C243_run (χ : Fin l → Fin k) (c d : Fin l → K) (hc : ∀ b, c b ≠ 0) (hd : ∀ b, d b ≠ 0) (h : ∀ a, ∑ b with χ b = a, c b * d b = 1) (V U : Mat m n K) (cfg : LoopCfg K) (clock : ℕ → Bool) (rm : Bool) (rn : ℤ) (W : Mat m k K) (H : Mat k n K) :
    let run := lsTrain V U cfg clock rm rn W H
    let run' := lsTrain V U cfg clock rm rn (fun i b => c b * W i (χ b)) (fun b j => d b * H (χ b) j)
    run'.converged = run.converged ∧ run'.convergeI = run.convergeI ∧ run'.reports = run.reports ∧ run'.losses = run.losses ∧
      run'.factors.1 = run.factors.1.map (fun X => fun i b => c b * X i (χ b)) ∧ run'.factors.2 = run.factors.2.map (fun X => fun b j => d b * X (χ b) j) := by
  intro run run'
  have hid : ∀ o : Option K, o.map (1 * ·) = o := fun o => by cases o <;> simp
  have key := rustLoop_rescale (splitFactors χ c d) 1 one_pos (lsLoopStep V (weights U)) (lsLoopStep V (weights U)) (lsQ V U) (lsQ V U) (fun u p => lsLoopStep_split χ c d hc hd h V (weights U) u p)
    (fun p => by
      rw [hid]
      obtain ⟨_ | W, _ | H⟩ := p
      · rfl
      · rfl
      · rfl
      · exact congrArg some (qLoss_split χ c d h V U W H)) cfg clock (some W, some H)
  have hrun : run' = run.rescale (splitFactors χ c d) 1 := by
    refine Eq.trans ?_ key
    rw [one_mul]
    rfl
  rw [hrun]
  refine ⟨rfl, rfl, rfl, ?_, rfl, rfl⟩
  show run.losses.map (Option.map (1 * ·)) = run.losses
  rw [show Option.map (fun x : K => 1 * x) = id from funext hid, List.map_id]

/-- Factor `b` is a multiple of factor `a`. -/
def Multiple (a b : Fin k) (x y : K) (p : Option (Mat m k K) × Option (Mat k n K)) : Prop :=
  (∀ W, p.1 = some W → ∀ i, W i b = x * W i a) ∧ ∀ H, p.2 = some H → ∀ j, H b j = y * H a j

theorem lsStepH_multiple (a b : Fin k) (x y : K) (hx : x ≠ 0) (V We : Mat m n K) (W : Mat m k K) (H H' : Mat k n K) (hW : ∀ i, W i b = x * W i a) (hH : ∀ j, H b j = y * H a j) (h : lsStepH V We W H = some H') (j : Fin n) : H' b j = y * H' a j := by
  unfold lsStepH at h
  split at h
  · cases h
    have h1 : lsHNum V We W b j = x * lsHNum V We W a j := by
      simp only [lsHNum, mmul, tr, hW, Finset.mul_sum]
      exact Finset.sum_congr rfl fun i _ => mul_assoc _ _ _
    have h2 : lsHDen We W H b j = x * lsHDen We W H a j := by
      simp only [lsHDen, mmul, tr, hW, Finset.mul_sum]
      exact Finset.sum_congr rfl fun i _ => by rw [← mul_assoc]
    simp only [emul, ediv, h1, h2, hH]
    rw [mul_div_mul_left _ _ hx, mul_assoc]
  · exact absurd h (by simp)

theorem lsLoopStep_multiple (a b : Fin k) (x y : K) (hx : x ≠ 0) (hy : y ≠ 0) (V We : Mat m n K) (u : Bool) (p : Option (Mat m k K) × Option (Mat k n K)) (hp : Multiple a b x y p) : Multiple a b x y (lsLoopStep V We u p) := by
  obtain ⟨pW, pH⟩ := p
  have key : ∀ H', (if u then (pW.bind fun W => pH.bind fun H => lsStepH V We W H) else pH) = some H' → ∀ j, H' b j = y * H' a j := by
    intro H' h
    cases u
    · exact hp.2 H' h
    · cases pW with
      | none => exact absurd h (by simp)
      | some W =>
        cases pH with
        | none => exact absurd h (by simp)
        | some H => exact lsStepH_multiple a b x y hx V We W H H' (hp.1 W rfl) (hp.2 H rfl) h
  refine ⟨fun W' hW' => ?_, key⟩
  simp only [lsLoopStep] at hW'
  cases pW with
  | none => exact absurd hW' (by simp)
  | some W =>
    revert hW' key
    generalize (if u then ((some W).bind fun W => pH.bind fun H => lsStepH V We W H) else pH) = q
    intro key hW'
    cases q with
    | none => exact absurd hW' (by simp)
    | some H' =>
      have e : lsStepW V We W H' = some W' := hW'
      rw [lsStepW_eq_transpose] at e
      obtain ⟨X, hX, rfl⟩ := Option.map_eq_some_iff.1 e
      exact lsStepH_multiple a b y x hy (tr V) (tr We) (tr H') (tr W) X (key H' rfl) (hp.1 W rfl) hX

theorem rustIter_invariant {σ : Type*} (I : σ → Prop) (step : Bool → σ → σ) (loss : σ → Option K) (cfg : LoopCfg K) (clock : ℕ → Bool) (hI : ∀ u s, I s → I (step u s)) :
    ∀ fuel i (st : RustState σ K), I st.factors → I (rustIter step loss cfg clock fuel i st).factors := by
  intro fuel
  induction fuel with
  | zero => intro i st h; exact h
  | succ f ih =>
    intro i st h
    unfold rustIter
    dsimp only
    split
    · exact hI _ _ h
    · exact ih _ _ (hI _ _ h)

/-- **C243 (proportional factors).** Two starting factors that are multiples of each other (in contributions and in profiles) are the same multiples of each other at the end of every ls-nmf run, whatever the data. -/
theorem C243_proportional (a b : Fin k) (x y : K) (hx : x ≠ 0) (hy : y ≠ 0) (V U : Mat m n K) (cfg : LoopCfg K) (clock : ℕ → Bool) (rm : Bool) (rn : ℤ) (W : Mat m k K) (H : Mat k n K) (hW : ∀ i, W i b = x * W i a) (hH : ∀ j, H b j = y * H a j) :
    (∀ W', (lsTrain V U cfg clock rm rn W H).factors.1 = some W' → ∀ i, W' i b = x * W' i a) ∧ ∀ H', (lsTrain V U cfg clock rm rn W H).factors.2 = some H' → ∀ j, H' b j = y * H' a j :=
  rustIter_invariant (Multiple a b x y) _ _ cfg clock (lsLoopStep_multiple a b x y hx hy V (weights U)) _ 0 _ ⟨fun W' h i => by cases h; exact hW i, fun H' h j => by cases h; exact hH j⟩

end factors

/-! ## Copies of samples -/

section samples
variable {m n k l : ℕ}

/-- How often sample `i` occurs. -/
def drawCount (φ : Fin l → Fin m) (i : Fin m) : ℕ := (Finset.univ.filter fun s => φ s = i).card

/-- The uncertainties of the distinct samples, divided by the square root of the number of occurrences. -/
noncomputable def sharedUncertainty (φ : Fin l → Fin m) (U : Mat m n ℝ) : Mat m n ℝ := fun i j => U i j / √(drawCount φ i : ℝ)

theorem sum_drawCount (φ : Fin l → Fin m) (g : Fin m → ℝ) : ∑ s, g (φ s) = ∑ i, (drawCount φ i : ℝ) * g i := by
  rw [← Finset.sum_fiberwise Finset.univ φ]
  refine Finset.sum_congr rfl fun i _ => ?_
  rw [Finset.sum_congr rfl (g := fun _ => g i) fun s hs => by rw [(Finset.mem_filter.1 hs).2], Finset.sum_const, nsmul_eq_mul]
  rfl

theorem drawCount_pos {φ : Fin l → Fin m} (hφ : Function.Surjective φ) (i : Fin m) : (0 : ℝ) < drawCount φ i := by
  obtain ⟨s, hs⟩ := hφ i
  exact Nat.cast_pos.2 (Finset.card_pos.2 ⟨s, Finset.mem_filter.2 ⟨Finset.mem_univ _, hs⟩⟩)

theorem weights_shared (φ : Fin l → Fin m) (U : Mat m n ℝ) : weights (sharedUncertainty φ U) = fun i j => (drawCount φ i : ℝ) * weights U i j := by
  funext i j
  simp only [weights, sharedUncertainty, div_pow]
  rw [Real.sq_sqrt (Nat.cast_nonneg _), one_div_div, div_eq_mul_one_div]

/-- The same profiles, and the contributions of sample `φ s` for every copy `s` of it. -/
def copySamples (φ : Fin l → Fin m) (p : Option (Mat m k ℝ) × Option (Mat k n ℝ)) : Option (Mat l k ℝ) × Option (Mat k n ℝ) := (p.1.map fun W => fun s a => W (φ s) a, p.2)

theorem qLoss_copies {φ : Fin l → Fin m} (V U : Mat m n ℝ) (W : Mat m k ℝ) (H : Mat k n ℝ) :
    qLoss (fun s j => V (φ s) j) (fun s j => U (φ s) j) (fun s a => W (φ s) a) H = qLoss V (sharedUncertainty φ U) W H := by
  have e : qLoss (fun s j => V (φ s) j) (fun s j => U (φ s) j) (fun s a => W (φ s) a) H = ∑ s, (fun i => ∑ j, (V i j - (W ⬝ H) i j) / U i j * ((V i j - (W ⬝ H) i j) / U i j)) (φ s) := rfl
  rw [e, sum_drawCount φ (fun i => ∑ j, (V i j - (W ⬝ H) i j) / U i j * ((V i j - (W ⬝ H) i j) / U i j))]
  unfold qLoss
  simp only [if_true, Finset.mul_sum]
  refine Finset.sum_congr rfl fun i _ => Finset.sum_congr rfl fun j _ => ?_
  unfold sharedUncertainty
  rw [div_div_eq_mul_div, mul_div_right_comm, mul_mul_mul_comm, Real.mul_self_sqrt (Nat.cast_nonneg _)]
  ring

theorem lsQ_copies {φ : Fin l → Fin m} (V U : Mat m n ℝ) (p : Option (Mat m k ℝ) × Option (Mat k n ℝ)) :
    lsQ (fun s j => V (φ s) j) (fun s j => U (φ s) j) (copySamples φ p) = lsQ V (sharedUncertainty φ U) p := by
  obtain ⟨_ | W, _ | H⟩ := p
  · rfl
  · rfl
  · rfl
  · exact congrArg some (qLoss_copies V U W H)

theorem lsStepH_copies (φ : Fin l → Fin m) (V We : Mat m n ℝ) (W : Mat m k ℝ) (H : Mat k n ℝ) :
    lsStepH (fun s j => V (φ s) j) (fun s j => We (φ s) j) (fun s a => W (φ s) a) H = lsStepH V (fun i j => (drawCount φ i : ℝ) * We i j) W H := by
  have hnum : lsHNum (fun s j => V (φ s) j) (fun s j => We (φ s) j) (fun s a => W (φ s) a) = lsHNum V (fun i j => (drawCount φ i : ℝ) * We i j) W := by
    funext a j
    rw [lsHNum_apply, lsHNum_apply, sum_drawCount φ (fun i => W i a * (We i j * V i j))]
    exact Finset.sum_congr rfl fun i _ => by ring
  have hden : lsHDen (fun s j => We (φ s) j) (fun s a => W (φ s) a) H = lsHDen (fun i j => (drawCount φ i : ℝ) * We i j) W H := by
    funext a j
    rw [lsHDen_apply, lsHDen_apply, sum_drawCount φ (fun i => W i a * (We i j * ∑ b, W i b * H b j))]
    exact Finset.sum_congr rfl fun i _ => by ring
  unfold lsStepH
  rw [hnum, hden]

theorem lsStepW_copies {φ : Fin l → Fin m} (hφ : Function.Surjective φ) (V We : Mat m n ℝ) (W : Mat m k ℝ) (H : Mat k n ℝ) :
    lsStepW (fun s j => V (φ s) j) (fun s j => We (φ s) j) (fun s a => W (φ s) a) H = (lsStepW V (fun i j => (drawCount φ i : ℝ) * We i j) W H).map fun W => fun s a => W (φ s) a := by
  have hnum : ∀ i a, lsWNum V (fun i j => (drawCount φ i : ℝ) * We i j) H i a = drawCount φ i * lsWNum V We H i a := fun i a => by
    rw [lsWNum_apply, lsWNum_apply, Finset.mul_sum]
    exact Finset.sum_congr rfl fun j _ => by ring
  have hden : ∀ i a, lsWDen (fun i j => (drawCount φ i : ℝ) * We i j) W H i a = drawCount φ i * lsWDen We W H i a := fun i a => by
    rw [lsWDen_apply, lsWDen_apply, Finset.mul_sum]
    exact Finset.sum_congr rfl fun j _ => by ring
  have hz : NoZero (lsWDen (fun s j => We (φ s) j) (fun s a => W (φ s) a) H) ↔ NoZero (lsWDen (fun i j => (drawCount φ i : ℝ) * We i j) W H) := by
    constructor
    · intro h0 i a
      obtain ⟨s, rfl⟩ := hφ i
      rw [hden]
      exact mul_ne_zero (drawCount_pos hφ _).ne' (h0 s a)
    · intro h0 s a e
      refine h0 (φ s) a ?_
      rw [hden]
      exact mul_eq_zero_of_right _ e
  unfold lsStepW
  by_cases h0 : NoZero (lsWDen (fun i j => (drawCount φ i : ℝ) * We i j) W H)
  · rw [if_pos h0, if_pos (hz.2 h0), Option.map_some]
    congr 1
    funext s a
    simp only [emul, ediv, hnum, hden]
    rw [mul_div_mul_left _ _ (drawCount_pos hφ _).ne']
    rfl
  · rw [if_neg h0, if_neg (fun h => h0 (hz.1 h))]
    rfl

theorem lsLoopStep_copies {φ : Fin l → Fin m} (hφ : Function.Surjective φ) (V We : Mat m n ℝ) (u : Bool) (p : Option (Mat m k ℝ) × Option (Mat k n ℝ)) :
    lsLoopStep (fun s j => V (φ s) j) (fun s j => We (φ s) j) u (copySamples φ p) = copySamples φ (lsLoopStep V (fun i j => (drawCount φ i : ℝ) * We i j) u p) := by
  obtain ⟨_ | W, _ | H⟩ := p
  · cases u <;> rfl
  · cases u <;> rfl
  · cases u <;> rfl
  · cases u
    · simp only [lsLoopStep, copySamples, Option.map_some, Option.bind_some, Bool.false_eq_true, if_false]
      rw [lsStepW_copies hφ]
    · simp only [lsLoopStep, copySamples, Option.map_some, Option.bind_some, if_true]
      rw [lsStepH_copies φ]
      cases lsStepH V (fun i j => (drawCount φ i : ℝ) * We i j) W H with
      | none => rfl
      | some H' =>
        simp only [Option.bind_some]
        rw [lsStepW_copies hφ]

theorem rescale_one_losses {σ : Type*} {f : σ → τ} (run : RustState σ ℝ) : (run.rescale f 1).losses = run.losses := by
  show run.losses.map (Option.map (1 * ·)) = run.losses
  rw [show Option.map (fun x : ℝ => 1 * x) = id from funext fun o => by cases o <;> simp, List.map_id]

/-- **C244 (ls-nmf).** A compiled ls-nmf run on data in which samples are repeated, copies starting with equal contributions, takes the course of the run on the distinct samples with the uncertainty of each sample divided by the square root of
the number of its occurrences: same losses, convergence, reports and profiles, and every copy gets the contributions of its sample. -/
theorem C244_ls {φ : Fin l → Fin m} (hφ : Function.Surjective φ) (V U : Mat m n ℝ) (cfg : LoopCfg ℝ) (clock : ℕ → Bool) (rm : Bool) (rn : ℤ) (W : Mat m k ℝ) (H : Mat k n ℝ) :
    let run := lsTrain V (fun i j => U i j / √((Finset.univ.filter fun s => φ s = i).card : ℝ)) cfg clock rm rn W H
    let run' := lsTrain (fun s j => V (φ s) j) (fun s j => U (φ s) j) cfg clock rm rn (fun s a => W (φ s) a) H
    run'.converged = run.converged ∧ run'.convergeI = run.convergeI ∧ run'.reports = run.reports ∧ run'.losses = run.losses ∧
      run'.factors.1 = run.factors.1.map (fun X => fun s a => X (φ s) a) ∧ run'.factors.2 = run.factors.2 := by
  intro run run'
  have hid : ∀ o : Option ℝ, o.map (1 * ·) = o := fun o => by cases o <;> simp
  have key := rustLoop_rescale (copySamples φ) 1 one_pos (lsLoopStep V (weights (sharedUncertainty φ U))) (lsLoopStep (fun s j => V (φ s) j) (weights fun s j => U (φ s) j)) (lsQ V (sharedUncertainty φ U)) (lsQ (fun s j => V (φ s) j) (fun s j => U (φ s) j))
    (fun u p => by rw [weights_shared]; exact lsLoopStep_copies hφ V (weights U) u p) (fun p => by rw [hid, lsQ_copies]) cfg clock (some W, some H)
  have hrun : run' = run.rescale (copySamples φ) 1 := by
    refine Eq.trans ?_ key
    rw [one_mul]
    rfl
  rw [hrun]
  exact ⟨rfl, rfl, rfl, rescale_one_losses run, rfl, rfl⟩

theorem wsStepW_copies (inv : Mat k k ℝ → Mat k k ℝ) (hinv : InvHomogeneous inv) {φ : Fin l → Fin m} (hφ : Function.Surjective φ) (V We : Mat m n ℝ) (H : Mat k n ℝ) :
    wsStepW inv (fun s j => V (φ s) j) (fun s j => We (φ s) j) H = fun s a => wsStepW inv V (fun i j => (drawCount φ i : ℝ) * We i j) H (φ s) a := by
  funext s b
  have h0 := drawCount_pos hφ (φ s)
  have hN : wsNormal (fun i j => (drawCount φ i : ℝ) * We i j) H (φ s) = fun a b => (drawCount φ (φ s) : ℝ) * wsNormal We H (φ s) a b := by
    funext a b
    simp only [wsNormal, Finset.mul_sum]
    exact Finset.sum_congr rfl fun j _ => by ring
  have hR : ∀ a, wsRhs V (fun i j => (drawCount φ i : ℝ) * We i j) H (φ s) a = drawCount φ (φ s) * wsRhs V We H (φ s) a := fun a => by
    simp only [wsRhs, Finset.mul_sum]
    exact Finset.sum_congr rfl fun j _ => by ring
  show ∑ a, wsRhs V We H (φ s) a * inv (wsNormal We H (φ s)) a b = ∑ a, wsRhs V (fun i j => (drawCount φ i : ℝ) * We i j) H (φ s) a * inv (wsNormal (fun i j => (drawCount φ i : ℝ) * We i j) H (φ s)) a b
  rw [hN, hinv _ _ h0]
  refine Finset.sum_congr rfl fun a _ => ?_
  rw [hR]
  field_simp

theorem wsLin_copies (φ : Fin l → Fin m) (V We : Mat m n ℝ) (A : Mat m k ℝ) : wsLin (fun s j => V (φ s) j) (fun s j => We (φ s) j) (fun s a => A (φ s) a) = wsLin V (fun i j => (drawCount φ i : ℝ) * We i j) A := by
  funext b j
  unfold wsLin
  rw [sum_drawCount φ (fun i => We i j * V i j * A i b)]
  exact Finset.sum_congr rfl fun i _ => by ring

theorem wsQuad_copies (φ : Fin l → Fin m) (We : Mat m n ℝ) (A : Mat m k ℝ) (H : Mat k n ℝ) : wsQuad (fun s j => We (φ s) j) (fun s a => A (φ s) a) H = wsQuad (fun i j => (drawCount φ i : ℝ) * We i j) A H := by
  funext b j
  unfold wsQuad
  refine Finset.sum_congr rfl fun a _ => ?_
  rw [sum_drawCount φ (fun i => A i a * We i j * A i b)]
  exact congrArg _ (Finset.sum_congr rfl fun i _ => by ring)

theorem wsStepH_copies (φ : Fin l → Fin m) (V We : Mat m n ℝ) (W : Mat m k ℝ) (H : Mat k n ℝ) :
    wsStepH (fun s j => V (φ s) j) (fun s j => We (φ s) j) (fun s a => W (φ s) a) H = wsStepH V (fun i j => (drawCount φ i : ℝ) * We i j) W H := by
  have h1 : wsNum (fun s j => V (φ s) j) (fun s j => We (φ s) j) (fun s a => W (φ s) a) H = wsNum V (fun i j => (drawCount φ i : ℝ) * We i j) W H := by
    unfold wsNum
    rw [show wsPos (fun s a => W (φ s) a) = fun s a => wsPos W (φ s) a from rfl, show wsNeg (fun s a => W (φ s) a) = fun s a => wsNeg W (φ s) a from rfl, wsLin_copies, wsQuad_copies]
  have h2 : wsDen (fun s j => V (φ s) j) (fun s j => We (φ s) j) (fun s a => W (φ s) a) H = wsDen V (fun i j => (drawCount φ i : ℝ) * We i j) W H := by
    unfold wsDen
    rw [show wsPos (fun s a => W (φ s) a) = fun s a => wsPos W (φ s) a from rfl, show wsNeg (fun s a => W (φ s) a) = fun s a => wsNeg W (φ s) a from rfl, wsLin_copies, wsQuad_copies]
  unfold wsStepH
  rw [h1, h2]

theorem wsLoopStep_copies (inv : Mat k k ℝ → Mat k k ℝ) (hinv : InvHomogeneous inv) {φ : Fin l → Fin m} (hφ : Function.Surjective φ) (V We : Mat m n ℝ) (u : Bool) (p : Option (Mat m k ℝ) × Option (Mat k n ℝ)) :
    wsLoopStep inv (fun s j => V (φ s) j) (fun s j => We (φ s) j) u (copySamples φ p) = copySamples φ (wsLoopStep inv V (fun i j => (drawCount φ i : ℝ) * We i j) u p) := by
  obtain ⟨W, _ | H⟩ := p
  · rfl
  · simp only [wsLoopStep, copySamples, Option.map_some]
    rw [wsStepW_copies inv hinv hφ, wsStepH_copies]

/-- **C244 (ws-nmf).** The same for ws-nmf with any homogeneous inverse, and here for every choice of the starting contributions, which ws-nmf does not read: a bootstrap run of ws-nmf is a run on the drawn samples with uncertainties divided by
the square root of how often they were drawn. -/
theorem C244_ws (inv : Mat k k ℝ → Mat k k ℝ) (hinv : InvHomogeneous inv) {φ : Fin l → Fin m} (hφ : Function.Surjective φ) (V U : Mat m n ℝ) (cfg : LoopCfg ℝ) (hit : 0 < cfg.maxIter) (clock : ℕ → Bool) (W : Mat m k ℝ) (W' : Mat l k ℝ) (H : Mat k n ℝ) :
    let U' := fun i j => U i j / √((Finset.univ.filter fun s => φ s = i).card : ℝ)
    let run := rustLoop (wsLoopStep inv V (weights U')) (lsQ V U') cfg clock (some W, some H)
    let run' := rustLoop (wsLoopStep inv (fun s j => V (φ s) j) (weights fun s j => U (φ s) j)) (lsQ (fun s j => V (φ s) j) (fun s j => U (φ s) j)) cfg clock (some W', some H)
    run'.converged = run.converged ∧ run'.convergeI = run.convergeI ∧ run'.reports = run.reports ∧ run'.losses = run.losses ∧
      run'.factors.1 = run.factors.1.map (fun X => fun s a => X (φ s) a) ∧ run'.factors.2 = run.factors.2 := by
  intro U' run run'
  have hid : ∀ o : Option ℝ, o.map (1 * ·) = o := fun o => by cases o <;> simp
  have key := rustLoop_rescale (copySamples φ) 1 one_pos (wsLoopStep inv V (weights (sharedUncertainty φ U))) (wsLoopStep inv (fun s j => V (φ s) j) (weights fun s j => U (φ s) j)) (lsQ V (sharedUncertainty φ U)) (lsQ (fun s j => V (φ s) j) (fun s j => U (φ s) j))
    (fun u p => by rw [weights_shared]; exact wsLoopStep_copies inv hinv hφ V (weights U) u p) (fun p => by rw [hid, lsQ_copies]) cfg clock (some W, some H)
  have hstart : run' = rustLoop (wsLoopStep inv (fun s j => V (φ s) j) (weights fun s j => U (φ s) j)) (lsQ (fun s j => V (φ s) j) (fun s j => U (φ s) j)) cfg clock (copySamples φ (some W, some H)) := by
    obtain ⟨f, hf⟩ : ∃ f, cfg.maxIter.toNat = f + 1 := ⟨cfg.maxIter.toNat - 1, by omega⟩
    show rustLoop _ _ _ _ _ = _
    unfold rustLoop
    rw [hf]
    rfl
  have hrun : run' = run.rescale (copySamples φ) 1 := by
    rw [hstart]
    refine Eq.trans ?_ key
    rw [one_mul]
  rw [hrun]
  exact ⟨rfl, rfl, rfl, rescale_one_losses run, rfl, rfl⟩

/-- The distinct values of a list of drawn samples, in ascending order, and the position of each draw among them. -/
theorem distinct_draws (idx : Fin l → Fin m) : ∃ (d : ℕ) (e : Fin d → Fin m) (φ : Fin l → Fin d), StrictMono e ∧ Function.Surjective φ ∧ ∀ s, e (φ s) = idx s := by
  let e := (Finset.univ.image idx).orderEmbOfFin rfl
  have hr : ∀ s, ∃ t, e t = idx s := fun s => by
    have : idx s ∈ Set.range e := by
      rw [Finset.range_orderEmbOfFin]
      exact Finset.mem_coe.2 (Finset.mem_image_of_mem _ (Finset.mem_univ _))
    exact this
  choose φ hφ using hr
  refine ⟨_, e, φ, e.strictMono, fun t => ?_, hφ⟩
  have : e t ∈ Finset.univ.image idx := Finset.orderEmbOfFin_mem _ _ _
  obtain ⟨s, -, hs⟩ := Finset.mem_image.1 this
  exact ⟨s, e.injective ((hφ s).trans hs)⟩

/-- **C244 (bootstrap).** For every list of drawn samples: the ws-nmf run on the drawn rows, whatever its starting contributions, is the run on the distinct drawn samples with uncertainties divided by the square root of the number of draws.
The draws influence losses, convergence and profiles through these numbers only. -/
theorem C244_bootstrap (inv : Mat k k ℝ → Mat k k ℝ) (hinv : InvHomogeneous inv) (idx : Fin l → Fin m) (V U : Mat m n ℝ) (cfg : LoopCfg ℝ) (hit : 0 < cfg.maxIter) (clock : ℕ → Bool) (W' : Mat l k ℝ) (H : Mat k n ℝ) :
    ∃ (d : ℕ) (e : Fin d → Fin m) (φ : Fin l → Fin d), StrictMono e ∧ Set.range e = Set.range idx ∧ (∀ s, e (φ s) = idx s) ∧ ∀ W : Mat d k ℝ,
      let U' := fun t j => U (e t) j / √((Finset.univ.filter fun s => idx s = e t).card : ℝ)
      let run := rustLoop (wsLoopStep inv (fun t j => V (e t) j) (weights U')) (lsQ (fun t j => V (e t) j) U') cfg clock (some W, some H)
      let run' := rustLoop (wsLoopStep inv (fun s j => V (idx s) j) (weights fun s j => U (idx s) j)) (lsQ (fun s j => V (idx s) j) (fun s j => U (idx s) j)) cfg clock (some W', some H)
      run'.converged = run.converged ∧ run'.convergeI = run.convergeI ∧ run'.losses = run.losses ∧ run'.factors.1 = run.factors.1.map (fun X => fun s a => X (φ s) a) ∧ run'.factors.2 = run.factors.2 := by
  obtain ⟨d, e, φ, he, hφ, h⟩ := distinct_draws idx
  refine ⟨d, e, φ, he, ?_, h, fun W => ?_⟩
  · ext i
    constructor
    · rintro ⟨t, rfl⟩
      obtain ⟨s, rfl⟩ := hφ t
      exact ⟨s, (h s).symm⟩
    · rintro ⟨s, rfl⟩
      exact ⟨φ s, h s⟩
  · obtain ⟨h1, h2, -, h4, h5, h6⟩ := C244_ws inv hinv hφ (fun t j => V (e t) j) (fun t j => U (e t) j) cfg hit clock W W' H
    have hc : ∀ t, (Finset.univ.filter fun s => φ s = t) = Finset.univ.filter fun s => idx s = e t := fun t => by
      ext s
      simp only [Finset.mem_filter, Finset.mem_univ, true_and, ← h s]
      exact he.injective.eq_iff.symm
    simp only [hc, h] at h1 h2 h4 h5 h6
    exact ⟨h1, h2, h4, h5, h6⟩

end samples

/-! ## Cases -/

/-- Two factors, started as the halves of one. -/
example (V U : Mat 3 4 ℚ) (cfg : LoopCfg ℚ) (clock : ℕ → Bool) (W : Mat 3 1 ℚ) (H : Mat 1 4 ℚ) :
    (lsTrain V U cfg clock false 0 (fun i (_ : Fin 2) => 1 * W i 0) (fun (_ : Fin 2) j => 1 / 2 * H 0 j)).losses = (lsTrain V U cfg clock false 0 W H).losses :=
  (C243_run (fun _ => 0) (fun _ => 1) (fun _ => 1 / 2) (fun _ => one_ne_zero) (fun _ => by norm_num) (fun a => by fin_cases a; simp) V U cfg clock false 0 W H).2.2.2.1

/-- Three samples drawn from two, the second one twice: its uncertainty is divided by the square root of two. -/
example (V U : Mat 2 4 ℝ) (cfg : LoopCfg ℝ) (clock : ℕ → Bool) (W : Mat 2 1 ℝ) (H : Mat 1 4 ℝ) :
    (lsTrain (fun s j => V (![0, 1, 1] s) j) (fun s j => U (![0, 1, 1] s) j) cfg clock false 0 (fun s a => W (![0, 1, 1] s) a) H).factors.2 =
      (lsTrain V (fun i j => U i j / √((if i = 0 then 1 else 2 : ℕ) : ℝ)) cfg clock false 0 W H).factors.2 := by
  rw [(C244_ls (l := 3) (φ := ![0, 1, 1]) (by decide) V U cfg clock false 0 W H).2.2.2.2.2]
  have : ∀ i : Fin 2, (Finset.univ.filter fun s : Fin 3 => (![0, 1, 1] : Fin 3 → Fin 2) s = i).card = if i = 0 then 1 else 2 := by decide
  simp only [this]

/-- The bootstrap statement for a single factor, where the inverse of a one by one matrix is homogeneous. -/
example (idx : Fin 5 → Fin 5) (V U : Mat 5 4 ℝ) (clock : ℕ → Bool) (W' : Mat 5 1 ℝ) (H : Mat 1 4 ℝ) :=
  C244_bootstrap (k := 1) (fun A _ _ => (A 0 0)⁻¹) (fun t A _ => by funext a b; exact mul_inv _ _) idx V U ⟨20, 1, 10, false, 0⟩ (by norm_num) clock W' H

end Esat
