import Verif.Props.Copies
import Verif.Props.Ineffective

/-!
# C248: on what the result of a training depends

ws-nmf does not read the starting contributions, ls-nmf with one factor forgets the starting profile and the scale of the contributions, and with held profiles every sample is trained on its own.
-/

namespace Esat

section loops
variable {σ K : Type*} [Field K] [LinearOrder K]

theorem rustLoop_forgets (step : Bool → σ → σ) (loss : σ → Option K) (cfg : LoopCfg K) (clock : ℕ → Bool) (s s' : σ) (h : 0 < cfg.maxIter) (hs : step (rustUpdatesH cfg 0) s = step (rustUpdatesH cfg 0) s') :
    rustLoop step loss cfg clock s = rustLoop step loss cfg clock s' := by
  unfold rustLoop
  obtain ⟨f, hf⟩ : ∃ f, cfg.maxIter.toNat = f + 1 := ⟨cfg.maxIter.toNat - 1, by omega⟩
  have hb : rustBody step loss cfg clock 0 (rustInit s) = rustBody step loss cfg clock 0 (rustInit s') := by
    unfold rustBody rustInit
    dsimp only
    rw [hs]
  rw [hf]
  simp only [rustIter, hb]

end loops

/-- **C248 (ws-nmf).** A compiled ws-nmf run of at least one iteration, with or without held profiles, is the same for all starting contributions: factors, losses, convergence and reports depend on the starting profiles only. -/
theorem C248_ws_start {m n k : ℕ} (inv : Mat k k ℝ → Mat k k ℝ) (V U : Mat m n ℝ) (cfg : LoopCfg ℝ) (clock : ℕ → Bool) (loss : Option (Mat m k ℝ) × Option (Mat k n ℝ) → Option ℝ) (hmax : 0 < cfg.maxIter)
    (W W' : Mat m k ℝ) (H : Mat k n ℝ) :
    rustLoop (wsLoopStep inv V (weights U)) loss cfg clock (some W, some H) = rustLoop (wsLoopStep inv V (weights U)) loss cfg clock (some W', some H) :=
  rustLoop_forgets _ _ _ _ _ _ hmax rfl

section one
variable {K : Type*} [Field K] [LinearOrder K] [IsStrictOrderedRing K] {m n : ℕ}

theorem lsStepH_one (V We : Mat m n K) (W : Mat m 1 K) (H H' : Mat 1 n K) (hH : ∀ j, H 0 j ≠ 0) (h' : ∀ j, H' 0 j ≠ 0) : lsStepH V We W H' = lsStepH V We W H := by
  have den : ∀ (X : Mat 1 n K) (a : Fin 1) j, lsHDen We W X a j = X 0 j * ∑ i, W i 0 * (We i j * W i 0) := fun X a j => by
    obtain rfl : a = 0 := Subsingleton.elim _ _
    rw [lsHDen_apply, Finset.mul_sum]
    refine Finset.sum_congr rfl fun i _ => ?_
    rw [Fin.sum_univ_one]
    ring
  have hz : NoZero (lsHDen We W H') ↔ NoZero (lsHDen We W H) := by
    constructor <;> intro h a j e
    · exact h a j (by rw [den] at e ⊢; rw [(mul_eq_zero.1 e).resolve_left (hH j), mul_zero])
    · exact h a j (by rw [den] at e ⊢; rw [(mul_eq_zero.1 e).resolve_left (h' j), mul_zero])
  unfold lsStepH
  by_cases h : NoZero (lsHDen We W H)
  · rw [if_pos h, if_pos (hz.2 h)]
    congr 1
    funext a j
    simp only [emul, ediv, den]
    obtain rfl : a = 0 := Subsingleton.elim _ _
    have hS : ∑ i, W i 0 * (We i j * W i 0) ≠ 0 := fun e => h 0 j (by rw [den, e, mul_zero])
    have e1 := hH j
    have e2 := h' j
    field_simp
  · rw [if_neg h, if_neg (fun x => h (hz.1 x))]

/-- **C248 (one factor).** A compiled ls-nmf run with one factor and profiles that are not held is the same for all starting profiles without a zero. If the starting contributions are multiplied by a number other than zero as
well, the losses, convergence and reports are the same, the contributions are multiplied by the number and the profile is divided by it. -/
theorem C248_one_factor_start (V U : Mat m n K) (cfg : LoopCfg K) (clock : ℕ → Bool) (rm : Bool) (rn : ℤ) (hmax : 0 < cfg.maxIter) (hhold : cfg.holdH = false) (W : Mat m 1 K) (H H' : Mat 1 n K)
    (hH : ∀ j, H 0 j ≠ 0) (h' : ∀ j, H' 0 j ≠ 0) (c : K) (hc : c ≠ 0) :
    lsTrain V U cfg clock rm rn W H' = lsTrain V U cfg clock rm rn W H ∧
      let run := lsTrain V U cfg clock rm rn W H
      let run' := lsTrain V U cfg clock rm rn (fun i a => c * W i a) H'
      run'.converged = run.converged ∧ run'.convergeI = run.convergeI ∧ run'.reports = run.reports ∧ run'.losses = run.losses ∧
        run'.factors.1 = run.factors.1.map (fun X => fun i a => c * X i a) ∧ run'.factors.2 = run.factors.2.map (fun X => fun a j => X a j / c) := by
  have key : ∀ (X : Mat m 1 K) (A B : Mat 1 n K), (∀ j, A 0 j ≠ 0) → (∀ j, B 0 j ≠ 0) → lsTrain V U cfg clock rm rn X A = lsTrain V U cfg clock rm rn X B := fun X A B hA hB =>
    rustLoop_forgets _ _ _ _ _ _ hmax (by
      have hu : rustUpdatesH cfg 0 = true := by simp [rustUpdatesH, hhold]
      simp only [lsLoopStep, hu, if_true, Option.bind_some, lsStepH_one V (weights U) X A B hA hB])
  refine ⟨key W H' H h' hH, ?_⟩
  intro run run'
  have hsum : ∀ a : Fin 1, ∑ b with (id b : Fin 1) = a, c * c⁻¹ = (1 : K) := fun a => by
    rw [Finset.filter_true_of_mem (fun b _ => Subsingleton.elim _ _), Finset.sum_const, Finset.card_univ, Fintype.card_fin, one_smul, mul_inv_cancel₀ hc]
  have h1 := C243_run (id : Fin 1 → Fin 1) (fun _ => c) (fun _ => c⁻¹) (fun _ => hc) (fun _ => inv_ne_zero hc) hsum V U cfg clock rm rn W H
  have e : run' = lsTrain V U cfg clock rm rn (fun i b => c * W i (id b)) (fun b j => c⁻¹ * H (id b) j) :=
    key _ _ _ h' fun j => mul_ne_zero (inv_ne_zero hc) (hH j)
  rw [e]
  simp only [div_eq_inv_mul]
  exact h1

end one

section rows
variable {K : Type*} [Field K] [LinearOrder K] {m n k r : ℕ}

theorem lsStepW_rows (φ : Fin r → Fin m) (V We : Mat m n K) (W W' : Mat m k K) (H : Mat k n K) (h : lsStepW V We W H = some W') :
    lsStepW (fun i j => V (φ i) j) (fun i j => We (φ i) j) (fun i a => W (φ i) a) H = some fun i a => W' (φ i) a := by
  unfold lsStepW at h ⊢
  split_ifs at h with h0
  cases h
  have h1 : NoZero (lsWDen (fun i j => We (φ i) j) (fun i a => W (φ i) a) H) := fun i a => h0 (φ i) a
  rw [if_pos h1]
  rfl

/-- **C248 (held profiles).** With held profiles the samples are trained independently: if a number of ls-nmf updates completes, the same number of updates on any selection of the samples, in any order and with any repetitions, completes
and gives the same contributions for every selected sample. -/
theorem C248_samples (φ : Fin r → Fin m) (V U : Mat m n K) (t : ℕ) (W W' : Mat m k K) (H H' : Mat k n K) (h : lsRun V (weights U) (List.replicate t true) W H = some (W', H')) :
    H' = H ∧ lsRun (fun i j => V (φ i) j) (weights fun i j => U (φ i) j) (List.replicate t true) (fun i a => W (φ i) a) H = some (fun i a => W' (φ i) a, H) := by
  induction t generalizing W with
  | zero =>
    cases h
    exact ⟨rfl, rfl⟩
  | succ t ih =>
    rw [List.replicate_succ] at h ⊢
    simp only [lsRun] at h ⊢
    obtain ⟨⟨W1, H1⟩, h1, h2⟩ := Option.bind_eq_some_iff.1 h
    obtain ⟨e1, e2⟩ := lsUpdate_eq_some.1 h1
    obtain ⟨-, rfl⟩ : true = true ∧ H1 = H := by
      rcases e1 with ⟨-, e⟩ | ⟨e, -⟩
      · exact ⟨rfl, e⟩
      · cases e
    obtain ⟨f1, f2⟩ := ih W1 h2
    refine ⟨f1, ?_⟩
    have : lsUpdate (fun i j => V (φ i) j) (weights fun i j => U (φ i) j) true (fun i a => W (φ i) a) H1 = some (fun i a => W1 (φ i) a, H1) :=
      lsUpdate_eq_some.2 ⟨.inl ⟨rfl, rfl⟩, lsStepW_rows φ V (weights U) W W1 H1 e2⟩
    rw [this]
    exact f2

/-- **C248 (held profiles, ws-nmf).** The same for the states of a ws-nmf training. -/
theorem C248_ws_samples (φ : Fin r → Fin m) (inv : Mat k k ℝ → Mat k k ℝ) (V U : Mat m n ℝ) (W : Mat m k ℝ) (H : Mat k n ℝ) (t : ℕ) :
    traj (wsLoopStep inv (fun i j => V (φ i) j) (weights fun i j => U (φ i) j)) (fun _ => false) (some fun i a => W (φ i) a, some H) t =
      (((traj (wsLoopStep inv V (weights U)) (fun _ => false) (some W, some H) t).1.map fun X => fun i a => X (φ i) a), some H) := by
  have h2 : ∀ t, (traj (wsLoopStep inv V (weights U)) (fun _ => false) (some W, some H) t).2 = some H := fun t => by
    induction t with
    | zero => rfl
    | succ t ih => simp only [traj, wsLoopStep, ih, Bool.false_eq_true, if_false]
  induction t with
  | zero => rfl
  | succ t ih =>
    simp only [traj] at ih ⊢
    rw [ih]
    simp only [wsLoopStep, h2, Bool.false_eq_true, if_false]
    rfl

end rows

/-! ## Concrete cases -/

/-- Starting profiles `1, 1` and `5, 2` and contributions ten times larger: the same losses. -/
example (cfg : LoopCfg ℚ) (hmax : 0 < cfg.maxIter) (hhold : cfg.holdH = false) (clock : ℕ → Bool) :
    let V : Mat 2 2 ℚ := ![![1, 2], ![3, 1]]
    let U : Mat 2 2 ℚ := ![![1, 2], ![1, 1]]
    (lsTrain V U cfg clock false 0 (fun i a => 10 * (![![1], ![2]] : Mat 2 1 ℚ) i a) ![![5, 2]]).losses = (lsTrain V U cfg clock false 0 ![![1], ![2]] ![![1, 1]]).losses := by
  intro V U
  exact (C248_one_factor_start V U cfg clock false 0 hmax hhold ![![1], ![2]] ![![1, 1]] ![![5, 2]] (by decide) (by decide) 10 (by norm_num)).2.2.2.2.1

/-- Two updates with held profiles on two samples, and on the second one alone. -/
example :
    let V : Mat 2 2 ℚ := ![![1, 2], ![3, 1]]
    let U : Mat 2 2 ℚ := ![![1, 2], ![1, 1]]
    let H : Mat 2 2 ℚ := ![![1, 2], ![3, 1]]
    ∃ W', lsRun V (weights U) [true, true] ![![1, 1], ![1, 2]] H = some (W', H) ∧ W' 1 ≠ ![1, 2] ∧
      lsRun (fun (_ : Fin 1) j => V 1 j) (weights fun _ j => U 1 j) [true, true] (fun _ a => (![![1, 1], ![1, 2]] : Mat 2 2 ℚ) 1 a) H = some (fun _ a => W' 1 a, H) := by
  intro V U H
  have hs : (lsRun V (weights U) [true, true] ![![1, 1], ![1, 2]] H).isSome := by decide +kernel
  obtain ⟨⟨W', H'⟩, hp⟩ := Option.isSome_iff_exists.1 hs
  obtain ⟨rfl, h2⟩ := C248_samples (fun _ : Fin 1 => (1 : Fin 2)) V U 2 ![![1, 1], ![1, 2]] W' H H' hp
  refine ⟨W', hp, ?_, h2⟩
  have : ((lsRun V (weights U) [true, true] ![![1, 1], ![1, 2]] H).map fun p => decide (p.1 1 = ![1, 2])) = some false := by decide +kernel
  rw [hp] at this
  simpa using this

end Esat
