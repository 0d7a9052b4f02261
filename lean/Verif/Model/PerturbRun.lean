import Verif.Model.BsRun
import Verif.Model.Mat
import Mathlib.Algebra.BigOperators.Field

/-!
# Model of running the perturbation and of its figures

`Perturbation.run`, `_parallel_perturb` (`eval/perturbation.py:113-145`), the aligned contributions of `compare` (225-246), the numbers in
`plot_norm_perturb_contributions`, `plot_average_source_contributions` and `plot_correlation_metrics` (275-387). Perturbing the uncertainties
is in `Model/FactorCatalog.lean`, the mapping of the factors in `Model/FactorCompare.lean`. Row sums of contributions are not zero.
-/

namespace Esat

section run
variable {G S M X : Type*}

/-- What changes in a perturbation object. -/
structure PtObj (G M X : Type*) where
  /-- `rng` -/
  rng : G
  /-- `base_model` -/
  base : Option M
  /-- `perturbed_models` with `perturbed_multipliers` -/
  models : Option (List (M × X))

/-- The parts of a run; `none` = an exception. -/
structure PtEnv (G S M X : Type*) where
  /-- `self.rng.integers(0, 1e5)` -/
  draw : G → S × G
  /-- the base model with `random_seed` -/
  trainBase : Option M
  /-- `_parallel_perturb` with the base model and a seed -/
  perturb : M → S → Option (M × X)

/-- `run` (`perturbation.py:117-138`) with `n` models: the pool is opened before the seeds are drawn; `starmap` keeps the order. The flag is false
after an exception. -/
def ptRun (E : PtEnv G S M X) (pool : ℤ) (n : ℕ) (o : PtObj G M X) : PtObj G M X × Bool :=
  match o.base.or E.trainBase with
  | none => (o, false)
  | some b =>
    if poolStarts pool then
      let t := bsTasks E.draw n 0 o.rng
      match t.1.mapM fun t => E.perturb b t.2 with
      | none => (⟨t.2, some b, o.models⟩, false)
      | some ms => (⟨t.2, some b, some ms⟩, true)
    else (⟨o.rng, some b, o.models⟩, false)

end run

section fig
variable {K : Type*} [Field K] {m k N : ℕ}

/-- `(W.T / np.sum(W.T, axis=0)).T` (`perturbation.py:227,238`). -/
def rowShares (W : Mat m k K) : Mat m k K := fun t a => W t a / ∑ b, W t b

/-- `perturb_W[i, t, p]` (`perturbation.py:241-247`). -/
def alignedShares (ws : Fin N → Mat m k K) (maps : Fin N → Fin k → Fin k) (i : Fin k) (t : Fin m) (p : Fin N) : K :=
  rowShares (ws p) t (maps p i)

/-- The bars of the perturbed models (`perturbation.py:297,300`). -/
def perturbBars (ws : Fin N → Mat m k K) (maps : Fin N → Fin k → Fin k) (i : Fin k) : K :=
  100 * ((∑ t, ∑ p, alignedShares ws maps i t p) / ((m : K) * N))

/-- The bars of the base model (`perturbation.py:298,301`). -/
def baseBars (W : Mat m k K) (i : Fin k) : K := 100 * ((∑ t, rowShares W t i) / m)

/-- The values of the box of factor `i` (`perturbation.py:334-337`), one for each model. -/
def contributionBox (ws : Fin N → Mat m k K) (maps : Fin N → Fin k → Fin k) (i : Fin k) (p : Fin N) : K :=
  (∑ t, alignedShares ws maps i t p) / m

/-- The values of the box of factor `i` (`perturbation.py:374-379`): `np.array(perturb_correlations[p])[mapping[p]][i]`. -/
def metricBox (metric : Fin N → Fin k → K) (maps : Fin N → Fin k → Fin k) (i : Fin k) (p : Fin N) : K := metric p (maps p i)

/-- The horizontal line (`perturbation.py:380`). -/
def metricLine (metric : Fin N → Fin k → K) (maps : Fin N → Fin k → Fin k) : K :=
  (∑ p, ∑ i, metricBox metric maps i p) / ((N : K) * k)

end fig

end Esat
