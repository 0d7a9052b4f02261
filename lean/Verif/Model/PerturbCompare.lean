import Verif.Model.FactorCompare
import Verif.Model.Quantile
import Verif.Model.SaveLoad

/-!
# Model of the comparison of perturbed models

`Perturbation.compare` (`eval/perturbation.py:190-273`): the factor maps of `determine_map`, the table of their mean values (206-209), the statistics of the
multipliers (211-218) and the table of profiles (221-263). Each model is its matrix of the chosen metric (row = base factor), its normalised profiles and its
multipliers. Not modelled: metrics that are not numbers, logging, the losses.
-/

namespace Esat

variable {K : Type*} [Field K] [LinearOrder K] [FloorRing K] {N n : ℕ}

/-- The shape of an entry of `mapping_values`. -/
def MapVal.shape : MapVal K → List ℕ
  | .num _ => []
  | .arr l => [l.length]
  | .unset => []

/-- The shape of `np.array` of a list of things with these shapes; `none` = the `ValueError` for shapes that differ (NumPy 2.2.6, `requirements.txt:3`). -/
def stackShape (l : List (Option (List ℕ))) : Option (List ℕ) :=
  match l with
  | [] => some [0]
  | s :: t => if t.all (fun s' => decide (s' = s)) then s.map fun s => l.length :: s else none

/-- `np.mean(np.array(list(perturb_correlations.values())), axis=0)` has a shape for which `pd.DataFrame([…], columns=…)` with `factors` columns works
(`perturbation.py:206-208`): one dimension with that many entries, or a number for one column. -/
def meanTableOk (factors : ℕ) (vals : List (Fin (N + 1) → MapVal K)) : Bool :=
  match stackShape (vals.map fun v => stackShape ((List.ofFn v).map fun x => some x.shape)) with
  | some (_ :: rest) => decide (rest = [factors] ∨ rest = [] ∧ factors = 1)
  | _ => false

/-- What `compare` stores. -/
structure PerturbCompared (N n : ℕ) (K : Type*) where
  /-- `perturb_mapping`, `perturb_correlations` -/
  maps : List ((Fin (N + 1) → Fin (N + 1)) × (Fin (N + 1) → MapVal K))
  /-- `multiplier_stats` -/
  stats : List K
  /-- `perturbed_H_df` -/
  table : Fin n → PerturbRow K

/-- `compare` (`perturbation.py:190-273`) with `self.factors = factors`; `models` is `none` before `run`. `np.percentile` and `np.dstack` raise for empty
arguments. -/
def perturbCompare (factors : ℕ) (better : K → K → Bool) (rnd : K → K) (matching : Mat (N + 1) (N + 1) K → Option (Fin (N + 1) → Fin (N + 1)))
    (base : Mat (N + 1) n K) (models : Option (List (Mat (N + 1) (N + 1) K × Mat (N + 1) n K × List K))) : Outcome (PerturbCompared N n K) :=
  match models with
  | none => .raised
  | some ms =>
    match ms.mapM fun p => determineMap better rnd matching p.1 with
    | none => .raised
    | some ds =>
      if meanTableOk factors (ds.map (·.2)) then
        match multiplierStats (ms.map (·.2.2)), perturbTable base (List.zipWith (fun d p => alignRows d.1 p.2.1) ds ms) with
        | some st, some T => .ret ⟨ds, st, T⟩
        | _, _ => .raised
      else .raised

end Esat
