import Verif.Props.LsNmf
import Verif.Model.PullMatrices
import Mathlib.Tactic.IntervalCases
import Mathlib.Tactic.Linarith

/-!
# C245: the allowed change of Q holds for one iteration

`train` computes the pulls anew in every iteration, from the factors of that iteration (`constrained.py:498-503`), and every search measures the change of Q from there.
-/

namespace Esat
section
variable {K : Type*} [Field K] [LinearOrder K] [IsStrictOrderedRing K] {m n k : ℕ}

/-- **C245 (bound).** `T` iterations of a constrained ls-nmf training with any constraints and expressions, in each of which the pulls together raise Q by at most `lim`: Q is raised by at most `T` times `lim` overall. -/
theorem C245_bound (lsq : Lsq K) (E : CEnv m n k K) (soft baseQ : K) (labeled : List (List (List Char) × K)) (mapping : PyDict (List Char) (ExprEntry K)) (cs : List (Constraint K)) (lim : K) (T : ℕ)
    (s : ℕ → Mat m k K × Mat k n K) (D : ℕ → Mat m k K × Mat k n K) (hV : ∀ i j, 0 ≤ E.V i j)
    (hD : ∀ t < T, calcPull lsq E soft baseQ labeled mapping cs (s t).1 (s t).2 = some (D t))
    (hs : ∀ t < T, pullIteration lsq E soft baseQ labeled mapping cs (lsUpdate E.V (weights E.U) false) (s t) = some (s (t + 1)))
    (hW : ∀ t < T, ∀ i a, 0 ≤ (s t).1 i a + (D t).1 i a)
    (hlim : ∀ t < T, qLoss E.V E.U (fun i a => (D t).1 i a + (s t).1 i a) (fun a j => |(D t).2 a j + (s t).2 a j|) ≤ qLoss E.V E.U (s t).1 (s t).2 + lim) :
    qLoss E.V E.U (s T).1 (s T).2 ≤ qLoss E.V E.U (s 0).1 (s 0).2 + T * lim := by
  induction T with
  | zero => simp
  | succ T ih =>
    have h1 := ih (fun t h => hD t (by omega)) (fun t h => hs t (by omega)) (fun t h => hW t (by omega)) (fun t h => hlim t (by omega))
    have h2 := hs T (by omega)
    have h3 := hlim T (by omega)
    unfold pullIteration at h2
    rw [hD T (by omega), Option.bind_some] at h2
    have h4 := C02_update_le E.V (weights E.U) false _ _ _ _ hV (fun i j => by unfold weights; positivity)
      (fun i a => by have := hW T (by omega) i a; simp only [pulled]; linarith) (fun a j => abs_nonneg _) h2
    rw [← qLoss_eq_WLoss, ← qLoss_eq_WLoss] at h4
    have h5 := h4.trans h3
    push_cast
    linarith

end

/-! ## More than the limit -/

/-- Data reproduced exactly by two factors. -/
def totalEnv : CEnv 2 2 2 ℚ := ⟨![![6, 16], ![11, 48]], fun _ _ => 1, ![![2, 2], ![1, 9]], ![![2, 3], ![1, 5]], 1 / 100000000, 100⟩

/-- A `pull down` of the first element with an allowed change of 5. -/
def totalConstraint : Constraint ℚ := ⟨.pullDown 5, (0, 0), .feature⟩

/-- The factors after `t` iterations. -/
def totalRun : ℕ → Mat 2 2 ℚ × Mat 2 2 ℚ
  | 0 => (totalEnv.W0, totalEnv.H0)
  | t + 1 => (pullIteration (fun _ _ _ _ => none) totalEnv 1 1 [] [] [totalConstraint] (lsUpdate totalEnv.V (weights totalEnv.U) false) (totalRun t)).getD (totalRun t)

/-- The pull matrices of iteration `t`. -/
def totalPull (t : ℕ) : Mat 2 2 ℚ × Mat 2 2 ℚ :=
  (calcPull (fun _ _ _ _ => none) totalEnv 1 1 [] [] [totalConstraint] (totalRun t).1 (totalRun t).2).getD (fun _ _ => 0, fun _ _ => 0)

theorem eq_some_getD {α : Type*} (o : Option α) (d : α) (h : o.isSome = true) : o = some (o.getD d) := by
  cases o with
  | none => exact absurd h (by simp)
  | some x => rfl

theorem total_pull (t : ℕ) (ht : t < 3) : calcPull (fun _ _ _ _ => none) totalEnv 1 1 [] [] [totalConstraint] (totalRun t).1 (totalRun t).2 = some (totalPull t) := by
  refine eq_some_getD _ _ ?_
  interval_cases t <;> decide +kernel

theorem total_step (t : ℕ) (ht : t < 3) :
    pullIteration (fun _ _ _ _ => none) totalEnv 1 1 [] [] [totalConstraint] (lsUpdate totalEnv.V (weights totalEnv.U) false) (totalRun t) = some (totalRun (t + 1)) := by
  refine eq_some_getD _ _ ?_
  interval_cases t <;> decide +kernel

theorem total_contributions (t : ℕ) (ht : t < 3) (i a : Fin 2) : 0 ≤ (totalRun t).1 i a + (totalPull t).1 i a := by
  revert i a
  interval_cases t <;> decide +kernel

theorem total_limit (t : ℕ) (ht : t < 3) :
    |qLoss totalEnv.V totalEnv.U (fun i a => (totalPull t).1 i a + (totalRun t).1 i a) (fun a j => |(totalPull t).2 a j + (totalRun t).2 a j|) - qLoss totalEnv.V totalEnv.U (totalRun t).1 (totalRun t).2| ≤ 5 := by
  interval_cases t <;> decide +kernel

/-- **C245 (exceeds).** Two factors that reproduce the data, and a `pull down` with an allowed change of 5. In each of three iterations the pull changes Q by at most 5, but after the third one Q is above 6. **Disagreement** with the name `dQ_limit`: it does not
limit the change of Q between the base solution and the constrained one. -/
theorem C245_exceeds : ∃ (E : CEnv 2 2 2 ℚ) (c : Constraint ℚ) (s D : ℕ → Mat 2 2 ℚ × Mat 2 2 ℚ), c.kind = .pullDown 5 ∧ s 0 = (E.W0, E.H0) ∧ qLoss E.V E.U E.W0 E.H0 = 0 ∧
    (∀ t < 3, calcPull (fun _ _ _ _ => none) E 1 1 [] [] [c] (s t).1 (s t).2 = some (D t) ∧
      pullIteration (fun _ _ _ _ => none) E 1 1 [] [] [c] (lsUpdate E.V (weights E.U) false) (s t) = some (s (t + 1)) ∧
      (∀ i a, 0 ≤ (s t).1 i a + (D t).1 i a) ∧
      |qLoss E.V E.U (fun i a => (D t).1 i a + (s t).1 i a) (fun a j => |(D t).2 a j + (s t).2 a j|) - qLoss E.V E.U (s t).1 (s t).2| ≤ 5) ∧
    6 < qLoss E.V E.U (s 3).1 (s 3).2 := by
  refine ⟨totalEnv, totalConstraint, totalRun, totalPull, rfl, rfl, by decide +kernel, fun t ht => ⟨total_pull t ht, total_step t ht, total_contributions t ht, total_limit t ht⟩, by decide +kernel⟩

/-- The bound applies to that run: after three iterations Q is at most 15. -/
example : qLoss totalEnv.V totalEnv.U (totalRun 3).1 (totalRun 3).2 ≤ 15 := by
  have := C245_bound (fun _ _ _ _ => none) totalEnv 1 1 [] [] [totalConstraint] 5 3 totalRun totalPull (by decide +kernel) total_pull total_step total_contributions
    (fun t ht => by have := (abs_le.1 (total_limit t ht)).2; linarith)
  have h0 : qLoss totalEnv.V totalEnv.U (totalRun 0).1 (totalRun 0).2 = 0 := by decide +kernel
  rw [h0] at this
  norm_num at this
  exact this

end Esat
