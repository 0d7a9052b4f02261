import Verif.Props.Units
import Verif.Props.RobustAlpha
import Mathlib.LinearAlgebra.Matrix.NonsingularInverse

/-!
# Property C206: the order of samples, features and factors in a whole training run

C05 is about the steps of ls-nmf. Here whole runs are compared, with convergence and progress reports, also for ws-nmf and in Python.
-/

namespace Esat

/-! ### The Python loop under a map of the factors -/

section loop
variable {σ τ K : Type*} [Field K] [LinearOrder K]

/-- The same state with other factors. -/
def PyState.withFactors (f : σ → τ) (st : PyState σ K) : PyState τ K :=
  ⟨f st.factors, st.holdH, st.window, st.losses, st.converged, st.convergeSteps⟩

theorem pyBody_map (f : σ → τ) (step : Bool → σ → σ) (step' : Bool → τ → τ) (l : σ → Option K × Option K) (l' : τ → Option K × Option K)
    (hs : ∀ u s, step' u (f s) = f (step u s)) (hl : ∀ s, l' (f s) = l s) (cfg : LoopCfg K) (a : Bool) (i : ℕ) (st : PyState σ K) :
    pyBody step' l' cfg a i (st.withFactors f) = (pyBody step l cfg a i st).map fun p => (p.1.withFactors f, p.2) := by
  unfold pyBody
  simp only [PyState.withFactors, hs, hl]
  generalize (if (decide (0 < cfg.delayH) && decide (cfg.delayH < (i : ℤ))) = true then false else st.holdH) = hold
  cases a with
  | false => rfl
  | true =>
    simp only [Bool.not_true]
    rw [if_neg Bool.false_ne_true, if_neg Bool.false_ne_true]
    by_cases h1 : ((l (step (!hold) st.factors)).1.isNone || (l (step (!hold) st.factors)).2.isNone) = true
    · rw [if_pos h1, if_pos h1]
      rfl
    · rw [if_neg h1, if_neg h1]
      by_cases h2 : cfg.convergeN < ((st.window ++ [(l (step (!hold) st.factors)).1]).length : ℤ)
      · rw [if_pos h2, if_pos h2]
        cases (st.window ++ [(l (step (!hold) st.factors)).1]).tail with
        | nil => rfl
        | cons first rest =>
          dsimp only
          split <;> rfl
      · rw [if_neg h2, if_neg h2]
        rfl

theorem pyIter_map (f : σ → τ) (step : Bool → σ → σ) (step' : Bool → τ → τ) (l : σ → Option K × Option K) (l' : τ → Option K × Option K)
    (hs : ∀ u s, step' u (f s) = f (step u s)) (hl : ∀ s, l' (f s) = l s) (cfg : LoopCfg K) (a : Bool) (n : ℕ) :
    ∀ i st, pyIter step' l' cfg a n i (st.withFactors f) = (pyIter step l cfg a n i st).map (PyState.withFactors f) := by
  induction n with
  | zero => intro i st; rfl
  | succ n ih =>
    intro i st
    rw [pyIter, pyIter, pyBody_map f step step' l l' hs hl]
    cases pyBody step l cfg a i st with
    | error e => rfl
    | ok p =>
      obtain ⟨st', _ | _⟩ := p
      · exact ih (i + 1) st'
      · rfl

end loop

/-! ### ls-nmf -/

section ls
variable {K : Type*} [Field K] [LinearOrder K] [IsStrictOrderedRing K] {m n k : ℕ}

/-- The factors of the reordered problem. -/
def reorderFactors (π : Equiv.Perm (Fin m)) (ρ : Equiv.Perm (Fin n)) (σ : Equiv.Perm (Fin k)) (p : Option (Mat m k K) × Option (Mat k n K)) :
    Option (Mat m k K) × Option (Mat k n K) :=
  (p.1.map fun W => fun i a => W (π i) (σ a), p.2.map fun H => fun a j => H (σ a) (ρ j))

theorem lsLoopStep_reorder (π : Equiv.Perm (Fin m)) (ρ : Equiv.Perm (Fin n)) (σ : Equiv.Perm (Fin k)) (V We : Mat m n K) (u : Bool)
    (p : Option (Mat m k K) × Option (Mat k n K)) :
    lsLoopStep (relabel π ρ V) (relabel π ρ We) u (reorderFactors π ρ σ p) = reorderFactors π ρ σ (lsLoopStep V We u p) := by
  have hH := (perm_stepEquiv π ρ σ V We).1
  have hW := (perm_stepEquiv π ρ σ V We).2
  obtain ⟨_ | W, _ | H⟩ := p
  · cases u <;> rfl
  · cases u <;> rfl
  · cases u <;> rfl
  · have e1 : lsStepH (relabel π ρ V) (relabel π ρ We) (fun i a => W (π i) (σ a)) (fun a j => H (σ a) (ρ j)) =
        (lsStepH V We W H).map fun X => relabel σ ρ X := hH W H
    have e2 : ∀ H, lsStepW (relabel π ρ V) (relabel π ρ We) (fun i a => W (π i) (σ a)) (relabel σ ρ H) =
        (lsStepW V We W H).map fun X => relabel π σ X := fun H => hW W H
    cases u
    · simp only [lsLoopStep, reorderFactors, Option.map_some, Option.bind_some, Bool.false_eq_true, if_false]
      rw [show (fun a j => H (σ a) (ρ j)) = relabel σ ρ H from rfl, e2]
      rfl
    · simp only [lsLoopStep, reorderFactors, Option.map_some, Option.bind_some, if_true, e1]
      cases lsStepH V We W H with
      | none => rfl
      | some H' =>
        simp only [Option.map_some, Option.bind_some, e2]
        rfl

theorem weights_relabel (π : Equiv.Perm (Fin m)) (ρ : Equiv.Perm (Fin n)) (U : Mat m n K) : weights (relabel π ρ U) = relabel π ρ (weights U) := rfl

theorem lsQ_reorder (π : Equiv.Perm (Fin m)) (ρ : Equiv.Perm (Fin n)) (σ : Equiv.Perm (Fin k)) (V U : Mat m n K)
    (p : Option (Mat m k K) × Option (Mat k n K)) : lsQ (relabel π ρ V) (relabel π ρ U) (reorderFactors π ρ σ p) = lsQ V U p := by
  obtain ⟨_ | W, _ | H⟩ := p
  · rfl
  · rfl
  · rfl
  · exact congrArg some (qLoss_permutation π ρ σ V U W H)

/-- **C206.** A compiled ls-nmf run on reordered data with reordered starting factors takes the same course: same losses, convergence, last iteration
and progress reports, and the factors come out reordered. -/
theorem C206_ls (π : Equiv.Perm (Fin m)) (ρ : Equiv.Perm (Fin n)) (σ : Equiv.Perm (Fin k)) (V U : Mat m n K) (cfg : LoopCfg K) (clock : ℕ → Bool)
    (rm : Bool) (rn : ℤ) (W : Mat m k K) (H : Mat k n K) :
    let run := lsTrain V U cfg clock rm rn W H
    let run' := lsTrain (fun i j => V (π i) (ρ j)) (fun i j => U (π i) (ρ j)) cfg clock rm rn (fun i a => W (π i) (σ a)) (fun a j => H (σ a) (ρ j))
    run'.converged = run.converged ∧ run'.convergeI = run.convergeI ∧ run'.reports = run.reports ∧ run'.losses = run.losses ∧
      run'.factors.1 = run.factors.1.map (fun X => fun i a => X (π i) (σ a)) ∧
      run'.factors.2 = run.factors.2.map (fun X => fun a j => X (σ a) (ρ j)) := by
  intro run run'
  have hid : ∀ o : Option K, o.map (1 * ·) = o := fun o => by cases o <;> simp
  have key := rustLoop_rescale (reorderFactors π ρ σ) 1 one_pos (lsLoopStep V (weights U)) (lsLoopStep (relabel π ρ V) (weights (relabel π ρ U)))
    (lsQ V U) (lsQ (relabel π ρ V) (relabel π ρ U)) (fun u p => lsLoopStep_reorder π ρ σ V (weights U) u p)
    (fun p => by rw [hid, lsQ_reorder]) cfg clock (some W, some H)
  have hrun : run' = run.rescale (reorderFactors π ρ σ) 1 := by
    refine Eq.trans ?_ key
    rw [one_mul]
    rfl
  rw [hrun]
  refine ⟨rfl, rfl, rfl, ?_, rfl, rfl⟩
  show run.losses.map (Option.map (1 * ·)) = run.losses
  rw [show Option.map (fun x : K => 1 * x) = id from funext hid, List.map_id]

end ls

/-! ### The Python run, with the robust loss -/

section py
variable {m n k : ℕ}

theorem qrLossNan_reorder (π : Equiv.Perm (Fin m)) (ρ : Equiv.Perm (Fin n)) (σ : Equiv.Perm (Fin k)) (V U : Mat m n ℝ) (W : Mat m k ℝ)
    (H : Mat k n ℝ) (α : ℝ) :
    qrLossNan (relabel π ρ V) (relabel π ρ U) (fun i a => W (π i) (σ a)) (fun a j => H (σ a) (ρ j)) α = qrLossNan V U W H α := by
  have e : ∀ i j, mmul (fun i a => W (π i) (σ a)) (fun a j => H (σ a) (ρ j)) i j = (W ⬝ H) (π i) (ρ j) := fun i j =>
    Equiv.sum_comp σ (fun a => W (π i) a * H a (ρ j))
  unfold qrLossNan
  simp only [e, relabel]
  have h1 : (∃ i j, robustEntry (V (π i) (ρ j) - (W ⬝ H) (π i) (ρ j)) (U (π i) (ρ j)) α = none) ↔
      ∃ i j, robustEntry (V i j - (W ⬝ H) i j) (U i j) α = none := by
    constructor
    · rintro ⟨i, j, h⟩
      exact ⟨_, _, h⟩
    · rintro ⟨i, j, h⟩
      exact ⟨π.symm i, ρ.symm j, by simpa using h⟩
  rw [Equiv.sum_comp π (fun i => ∑ j, (robustEntry (V i (ρ j) - (W ⬝ H) i (ρ j)) (U i (ρ j)) α).getD 0 ^ 2)]
  have h2 : ∀ i, ∑ j, (robustEntry (V i (ρ j) - (W ⬝ H) i (ρ j)) (U i (ρ j)) α).getD 0 ^ 2 =
      ∑ j, (robustEntry (V i j - (W ⬝ H) i j) (U i j) α).getD 0 ^ 2 := fun i =>
    Equiv.sum_comp ρ (fun j => (robustEntry (V i j - (W ⬝ H) i j) (U i j) α).getD 0 ^ 2)
  simp only [h1, h2]

/-- **C206.** The same for the Python loop, with any `robust_alpha`: losses, convergence, step count and exceptions are the same, the factors
reordered. -/
theorem C206_py (π : Equiv.Perm (Fin m)) (ρ : Equiv.Perm (Fin n)) (σ : Equiv.Perm (Fin k)) (V U : Mat m n ℝ) (α : ℝ) (cfg : LoopCfg ℝ)
    (W : Mat m k ℝ) (H : Mat k n ℝ) :
    lsTrainPyNan (fun i j => V (π i) (ρ j)) (fun i j => U (π i) (ρ j)) α cfg (fun i a => W (π i) (σ a)) (fun a j => H (σ a) (ρ j)) =
      (lsTrainPyNan V U α cfg W H).map fun st => ⟨(st.factors.1.map fun X => fun i a => X (π i) (σ a), st.factors.2.map fun X => fun a j => X (σ a) (ρ j)),
        st.holdH, st.window, st.losses, st.converged, st.convergeSteps⟩ := by
  refine (pyIter_map (reorderFactors π ρ σ) (lsLoopStep V (weights U)) (lsLoopStep (relabel π ρ V) (weights (relabel π ρ U))) (lsQPyNan V U α)
    (lsQPyNan (relabel π ρ V) (relabel π ρ U) α) (fun u p => lsLoopStep_reorder π ρ σ V (weights U) u p) (fun p => ?_) cfg true cfg.maxIter.toNat 0
    ⟨(some W, some H), cfg.holdH, [], [], false, 0⟩)
  obtain ⟨_ | W, _ | H⟩ := p
  · rfl
  · rfl
  · rfl
  · exact Prod.ext (congrArg some (qLoss_permutation π ρ σ V U W H)) (qrLossNan_reorder π ρ σ V U W H α)

end py

/-! ### ws-nmf -/

section ws
variable {m n k : ℕ}

/-- What an inverse does to a matrix with reordered rows and columns. -/
def InvReorders (inv : Mat k k ℝ → Mat k k ℝ) : Prop :=
  ∀ (σ : Equiv.Perm (Fin k)) (A : Mat k k ℝ), inv (fun a b => A (σ a) (σ b)) = fun a b => inv A (σ a) (σ b)

theorem wsStepW_reorder (inv : Mat k k ℝ → Mat k k ℝ) (hinv : InvReorders inv) (π : Equiv.Perm (Fin m)) (ρ : Equiv.Perm (Fin n))
    (σ : Equiv.Perm (Fin k)) (V We : Mat m n ℝ) (H : Mat k n ℝ) :
    wsStepW inv (relabel π ρ V) (relabel π ρ We) (relabel σ ρ H) = relabel π σ (wsStepW inv V We H) := by
  funext i b
  have hN : wsNormal (relabel π ρ We) (relabel σ ρ H) i = fun a b => wsNormal We H (π i) (σ a) (σ b) := by
    funext a b
    exact Equiv.sum_comp ρ (fun j => H (σ a) j * (We (π i) j * H (σ b) j))
  have hR : ∀ a, wsRhs (relabel π ρ V) (relabel π ρ We) (relabel σ ρ H) i a = wsRhs V We H (π i) (σ a) := fun a =>
    Equiv.sum_comp ρ (fun j => H (σ a) j * (We (π i) j * V (π i) j))
  unfold wsStepW
  rw [hN, hinv]
  simp only [hR]
  exact Equiv.sum_comp σ (fun a => wsRhs V We H (π i) a * inv (wsNormal We H (π i)) a (σ b))

theorem wsStepH_reorder (π : Equiv.Perm (Fin m)) (ρ : Equiv.Perm (Fin n)) (σ : Equiv.Perm (Fin k)) (V We : Mat m n ℝ) (W : Mat m k ℝ)
    (H : Mat k n ℝ) :
    wsStepH (relabel π ρ V) (relabel π ρ We) (relabel π σ W) (relabel σ ρ H) = (wsStepH V We W H).map fun X => relabel σ ρ X := by
  have hL : ∀ (A : Mat m k ℝ) b j, wsLin (relabel π ρ V) (relabel π ρ We) (relabel π σ A) b j = wsLin V We A (σ b) (ρ j) := fun A b j =>
    Equiv.sum_comp π (fun i => (We i (ρ j) * V i (ρ j)) * A i (σ b))
  have hQ : ∀ (A : Mat m k ℝ) b j, wsQuad (relabel π ρ We) (relabel π σ A) (relabel σ ρ H) b j = wsQuad We A H (σ b) (ρ j) := fun A b j => by
    have h1 : ∀ a, ∑ i, relabel π σ A i a * relabel π ρ We i j * relabel π σ A i b = ∑ i, A i (σ a) * We i (ρ j) * A i (σ b) := fun a =>
      Equiv.sum_comp π (fun i => A i (σ a) * We i (ρ j) * A i (σ b))
    unfold wsQuad
    simp only [h1]
    exact Equiv.sum_comp σ (fun a => H a (ρ j) * ∑ i, A i a * We i (ρ j) * A i (σ b))
  have hn : ∀ b j, wsNum (relabel π ρ V) (relabel π ρ We) (relabel π σ W) (relabel σ ρ H) b j = wsNum V We W H (σ b) (ρ j) := fun b j => by
    unfold wsNum
    rw [show wsPos (relabel π σ W) = relabel π σ (wsPos W) from rfl, show wsNeg (relabel π σ W) = relabel π σ (wsNeg W) from rfl, hL, hQ]
  have hd : ∀ b j, wsDen (relabel π ρ V) (relabel π ρ We) (relabel π σ W) (relabel σ ρ H) b j = wsDen V We W H (σ b) (ρ j) := fun b j => by
    unfold wsDen
    rw [show wsPos (relabel π σ W) = relabel π σ (wsPos W) from rfl, show wsNeg (relabel π σ W) = relabel π σ (wsNeg W) from rfl, hL, hQ]
  unfold wsStepH
  simp only [hn, hd]
  have h1 : (∀ b j, wsDen V We W H (σ b) (ρ j) ≠ 0 ∧ 0 ≤ wsNum V We W H (σ b) (ρ j) / wsDen V We W H (σ b) (ρ j)) ↔
      ∀ b j, wsDen V We W H b j ≠ 0 ∧ 0 ≤ wsNum V We W H b j / wsDen V We W H b j := by
    constructor
    · intro h b j
      simpa using h (σ.symm b) (ρ.symm j)
    · intro h b j
      exact h _ _
  by_cases h : ∀ b j, wsDen V We W H b j ≠ 0 ∧ 0 ≤ wsNum V We W H b j / wsDen V We W H b j
  · rw [if_pos h, if_pos (h1.2 h)]
    rfl
  · rw [if_neg h, if_neg (fun h' => h (h1.1 h'))]
    rfl

/-- **C206.** A compiled ws-nmf run on reordered data with reordered starting factors takes the same course, for every inverse that commutes with
reordering. -/
theorem C206_ws (inv : Mat k k ℝ → Mat k k ℝ) (hinv : InvReorders inv) (π : Equiv.Perm (Fin m)) (ρ : Equiv.Perm (Fin n)) (σ : Equiv.Perm (Fin k))
    (V U : Mat m n ℝ) (cfg : LoopCfg ℝ) (clock : ℕ → Bool) (W : Mat m k ℝ) (H : Mat k n ℝ) :
    let run := rustLoop (wsLoopStep inv V (weights U)) (lsQ V U) cfg clock (some W, some H)
    let run' := rustLoop (wsLoopStep inv (fun i j => V (π i) (ρ j)) (weights fun i j => U (π i) (ρ j)))
      (lsQ (fun i j => V (π i) (ρ j)) (fun i j => U (π i) (ρ j))) cfg clock (some (fun i a => W (π i) (σ a)), some (fun a j => H (σ a) (ρ j)))
    run'.converged = run.converged ∧ run'.convergeI = run.convergeI ∧ run'.reports = run.reports ∧ run'.losses = run.losses ∧
      run'.factors.1 = run.factors.1.map (fun X => fun i a => X (π i) (σ a)) ∧
      run'.factors.2 = run.factors.2.map (fun X => fun a j => X (σ a) (ρ j)) := by
  intro run run'
  have hid : ∀ o : Option ℝ, o.map (1 * ·) = o := fun o => by cases o <;> simp
  have key := rustLoop_rescale (reorderFactors π ρ σ) 1 one_pos (wsLoopStep inv V (weights U))
    (wsLoopStep inv (relabel π ρ V) (weights (relabel π ρ U)))
    (lsQ V U) (lsQ (relabel π ρ V) (relabel π ρ U))
    (fun u p => by
      obtain ⟨W, _ | H⟩ := p
      · rfl
      · have e1 := wsStepW_reorder inv hinv π ρ σ V (weights U) H
        have e2 := fun W => wsStepH_reorder π ρ σ V (weights U) W H
        show (some (wsStepW inv (relabel π ρ V) (relabel π ρ (weights U)) (relabel σ ρ H)),
          if u then wsStepH (relabel π ρ V) (relabel π ρ (weights U)) (wsStepW inv (relabel π ρ V) (relabel π ρ (weights U)) (relabel σ ρ H))
            (relabel σ ρ H) else some (relabel σ ρ H)) = _
        rw [e1, e2]
        cases u <;> rfl)
    (fun p => by rw [hid, lsQ_reorder]) cfg clock (some W, some H)
  have hrun : run' = run.rescale (reorderFactors π ρ σ) 1 := by
    refine Eq.trans ?_ key
    rw [one_mul]
    rfl
  rw [hrun]
  refine ⟨rfl, rfl, rfl, ?_, rfl, rfl⟩
  show run.losses.map (Option.map (1 * ·)) = run.losses
  rw [show Option.map (fun x : ℝ => 1 * x) = id from funext hid, List.map_id]

/-- The inverse of matrices commutes with reordering. -/
example : InvReorders (k := k) (fun A => ((Matrix.of A)⁻¹ : Matrix (Fin k) (Fin k) ℝ)) := by
  intro σ A
  have := Matrix.inv_submatrix_equiv (Matrix.of A) σ σ
  funext a b
  exact congrFun (congrFun this a) b

end ws

/-- Two samples and two features exchanged: the losses of a run of five iterations on the example data agree. -/
example : (lsTrain (m := 3) (n := 2) (k := 2) (K := ℚ) (fun i j => exV (Equiv.swap 0 2 i) (Equiv.swap 0 1 j)) (fun i j => exU (Equiv.swap 0 2 i) (Equiv.swap 0 1 j))
      ⟨5, 0, 10, false, -1⟩ (fun _ => false) false 0 (fun i a => exW (Equiv.swap 0 2 i) (Equiv.swap 0 1 a)) (fun a j => exH (Equiv.swap 0 1 a) (Equiv.swap 0 1 j))).losses =
    (lsTrain exV exU ⟨5, 0, 10, false, -1⟩ (fun _ => false) false 0 exW exH).losses ∧
    (lsTrain exV exU ⟨5, 0, 10, false, -1⟩ (fun _ => false) false 0 exW exH).losses.length = 5 :=
  ⟨(C206_ls (Equiv.swap 0 2) (Equiv.swap 0 1) (Equiv.swap 0 1) exV exU _ _ _ _ exW exH).2.2.2.1, by decide +kernel⟩

end Esat
