import Verif.Props.Order

/-!
# Property C167 for the Python training loop

`Props/Units.lean` is about the compiled loop. The Python loop (`esat/model/sa.py:430-464`) also checks the robust loss for NaN.
-/

namespace Esat

section loop
variable {σ τ K : Type*} [Field K] [LinearOrder K] [IsStrictOrderedRing K]

/-- The same state with other factors and the losses multiplied by a number. -/
def PyState.rescale (f : σ → τ) (q : K) (st : PyState σ K) : PyState τ K :=
  ⟨f st.factors, st.holdH, st.window.map (Option.map (q * ·)), st.losses.map (Option.map (q * ·)), st.converged, st.convergeSteps⟩

theorem pyBody_rescale (f : σ → τ) (q : K) (hq : 0 < q) (step : Bool → σ → σ) (step' : Bool → τ → τ) (l : σ → Option K × Option K)
    (l' : τ → Option K × Option K) (hs : ∀ u s, step' u (f s) = f (step u s)) (h1 : ∀ s, (l' (f s)).1 = (l s).1.map (q * ·))
    (h2 : ∀ s, (l' (f s)).2.isNone = (l s).2.isNone) (cfg : LoopCfg K) (a : Bool) (i : ℕ) (st : PyState σ K) :
    pyBody step' l' { cfg with delta := q * cfg.delta } a i (st.rescale f q) =
      (pyBody step l cfg a i st).map fun p => (p.1.rescale f q, p.2) := by
  unfold pyBody
  have hw : ∀ o, st.window.map (Option.map (q * ·)) ++ [Option.map (q * ·) o] = (st.window ++ [o]).map (Option.map (q * ·)) := fun o => by
    rw [List.map_append]
    rfl
  have hL : ∀ o, st.losses.map (Option.map (q * ·)) ++ [Option.map (q * ·) o] = (st.losses ++ [o]).map (Option.map (q * ·)) := fun o => by
    rw [List.map_append]
    rfl
  simp only [PyState.rescale, hs, h1, h2, hw, hL, Option.isNone_map, List.length_map]
  generalize (if (decide (0 < cfg.delayH) && decide (cfg.delayH < (i : ℤ))) = true then false else st.holdH) = hold
  cases a with
  | false => rfl
  | true =>
    simp only [Bool.not_true]
    rw [if_neg Bool.false_ne_true, if_neg Bool.false_ne_true]
    by_cases h1 : ((l (step (!hold) st.factors)).1.isNone || (l (step (!hold) st.factors)).2.isNone) = true
    · rw [if_pos h1, if_pos h1]
      rfl
    · rw [if_neg h1, if_neg h1]
      by_cases h2 : cfg.convergeN < ((st.window ++ [(l (step (!hold) st.factors)).1]).length : ℤ)
      · rw [if_pos h2, if_pos h2, ← List.map_tail]
        cases (st.window ++ [(l (step (!hold) st.factors)).1]).tail with
        | nil => rfl
        | cons first rest =>
          simp only [List.map_cons, lossDrop_rescale q hq]
          split <;> rfl
      · rw [if_neg h2, if_neg h2]
        rfl

theorem pyIter_rescale (f : σ → τ) (q : K) (hq : 0 < q) (step : Bool → σ → σ) (step' : Bool → τ → τ) (l : σ → Option K × Option K)
    (l' : τ → Option K × Option K) (hs : ∀ u s, step' u (f s) = f (step u s)) (h1 : ∀ s, (l' (f s)).1 = (l s).1.map (q * ·))
    (h2 : ∀ s, (l' (f s)).2.isNone = (l s).2.isNone) (cfg : LoopCfg K) (a : Bool) (n : ℕ) :
    ∀ i st, pyIter step' l' { cfg with delta := q * cfg.delta } a n i (st.rescale f q) =
      (pyIter step l cfg a n i st).map (PyState.rescale f q) := by
  induction n with
  | zero => intro i st; rfl
  | succ n ih =>
    intro i st
    rw [pyIter, pyIter, pyBody_rescale f q hq step step' l l' hs h1 h2]
    cases pyBody step l cfg a i st with
    | error e => rfl
    | ok p =>
      obtain ⟨st', _ | _⟩ := p
      · exact ih (i + 1) st'
      · rfl

end loop

variable {m n k : ℕ}

/-- **C167, Python loop.** A Python ls-nmf run in other units takes the same course, for every `robust_alpha` that is not negative: the same exceptions, flags
and number of steps; the losses are divided by `s²` and the factors are the original ones in the new units. -/
theorem C167_python (r : Fin m → ℝ) (c : Fin n → ℝ) (d : Fin k → ℝ) (s : ℝ) (hr : ∀ i, r i ≠ 0) (hc : ∀ j, c j ≠ 0) (hd : ∀ a, d a ≠ 0) (hs : s ≠ 0)
    (V U : Mat m n ℝ) (α : ℝ) (hα : 0 ≤ α) (cfg : LoopCfg ℝ) (W : Mat m k ℝ) (H : Mat k n ℝ) :
    lsTrainPyNan (fun i j => r i * V i j * c j) (fun i j => s * (r i * U i j * c j)) α { cfg with delta := cfg.delta / s ^ 2 }
        (fun i a => r i * W i a * d a) (fun a j => H a j * c j / d a) =
      (lsTrainPyNan V U α cfg W H).map fun st =>
        ⟨(st.factors.1.map fun X => fun i a => r i * X i a * d a, st.factors.2.map fun X => fun a j => X a j * c j / d a),
          st.holdH, st.window.map (Option.map (· / s ^ 2)), st.losses.map (Option.map (· / s ^ 2)), st.converged, st.convergeSteps⟩ := by
  have hq : (0 : ℝ) < 1 / s ^ 2 := by positivity
  have hdiv : ∀ x : ℝ, 1 / s ^ 2 * x = x / s ^ 2 := fun x => one_div_mul_eq_div _ _
  have hH : ∀ H : Mat k n ℝ, (fun a j => H a j * c j / d a) = inUnits (fun a => (d a)⁻¹) c H := fun H => by
    funext a j
    simp only [inUnits]
    ring
  have key := pyIter_rescale (factorsInUnits r c d) (1 / s ^ 2) hq (lsLoopStep V (weights U))
    (lsLoopStep (inUnits r c V) (weights fun i j => s * inUnits r c U i j)) (lsQPyNan V U α)
    (lsQPyNan (inUnits r c V) (fun i j => s * inUnits r c U i j) α)
    (fun u p => lsLoopStep_units r c d s hr hc hd hs V U u p)
    (fun p => by
      obtain ⟨_ | W, _ | H⟩ := p
      · rfl
      · rfl
      · rfl
      · simp only [factorsInUnits, Option.map_some, lsQPyNan]
        rw [qLoss_units r c d s hr hc hd hs])
    (fun p => by
      obtain ⟨_ | W, _ | H⟩ := p
      · rfl
      · rfl
      · rfl
      · exact (qrLossNan_isNone _ _ _ _ α hα).trans (qrLossNan_isNone V U W H α hα).symm)
    cfg true cfg.maxIter.toNat 0 ⟨(some W, some H), cfg.holdH, [], [], false, 0⟩
  simp only [hdiv] at key
  unfold lsTrainPyNan pyLoop
  refine Eq.trans ?_ (key.trans ?_)
  · rw [hH H]
    rfl
  · congr 1
    funext st
    unfold PyState.rescale factorsInUnits
    simp only [hdiv]
    rw [show (fun X : Mat k n ℝ => fun a j => X a j * c j / d a) = inUnits (fun a => (d a)⁻¹) c from funext hH]
    rfl

/-- Doubling the unit of the first sample: one iteration gives the same loss. -/
example (cfg : LoopCfg ℝ) (V U : Mat 2 1 ℝ) (W : Mat 2 1 ℝ) (H : Mat 1 1 ℝ) :
    (lsTrainPyNan (fun i j => ![2, 1] i * V i j * 1) (fun i j => 1 * (![2, 1] i * U i j * 1)) 4 ⟨cfg.maxIter, cfg.delta / 1 ^ 2, cfg.convergeN, cfg.holdH, cfg.delayH⟩
        (fun i a => ![2, 1] i * W i a * 1) (fun a j => H a j * 1 / 1)).map (·.losses) = (lsTrainPyNan V U 4 cfg W H).map (·.losses) := by
  rw [C167_python ![2, 1] (fun _ => 1) (fun _ => 1) 1 (by intro i; fin_cases i <;> simp) (by simp) (by simp) one_ne_zero V U 4 (by norm_num) cfg W H]
  cases lsTrainPyNan V U 4 cfg W H with
  | error e => rfl
  | ok st =>
    have hid : Option.map (fun x : ℝ => x / 1 ^ 2) = id := by
      funext o
      cases o <;> simp
    simp only [Except.map, hid, List.map_id]

end Esat
