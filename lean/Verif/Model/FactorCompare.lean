import Verif.Model.Mat
import Verif.Model.Correlation
import Verif.Model.Metrics
import Mathlib.Data.List.Basic
import Mathlib.Data.List.FinRange

/-!
# Model of the factor comparison (`eval/factor_comparison.py`)

`FactorCompare._parse_sa_output` (215-248), `compare` (250-383), `print_results` (385-412), `combine_factors` (426-453), and
`FactorCompareV2.calculate_correlation_matrix` (482-566) and `determine_map` (568-607). Factors are numbered from zero; the
dictionary keys `base-{i}_esat-{j}` become pairs of numbers. NaN is `none`, as are exceptions. `Pool.starmap` returns the
results in the order of its inputs. Not modelled: progress bars, logging, reading of PMF5 files.
-/

namespace Esat

section compare
variable {K : Type*} [Field K] [LinearOrder K]

/-- `itertools.permutations(l, r)` for distinct elements: all arrangements of `r` of them, in lexicographic order of position. -/
def pyPerms {α : Type*} [DecidableEq α] : ℕ → List α → List (List α)
  | 0, _ => [[]]
  | r + 1, l => l.flatMap fun a => (pyPerms r (l.erase a)).map (a :: ·)

/-- The three tables of squared correlations between base and model factors (`factor_comparison.py:258-289`). -/
structure CorrTables (K : Type*) where
  /-- `correlation_results[m]`: profiles -/
  h : ℕ → ℕ → Option K
  /-- `contribution_results[m]`: contributions -/
  w : ℕ → ℕ → Option K
  /-- `wh_results[m]`: products -/
  wh : ℕ → ℕ → Option K

/-- The `method` parameter (`factor_comparison.py:90`). -/
inductive CmpMethod | all | W | H | WH
  deriving DecidableEq

/-- `r_values` of `combine_factors` (`factor_comparison.py:434-449`). -/
def rValues (baseK : Bool) (T : ℕ → ℕ → Option K) (factors : List ℕ) : List (Option K) :=
  factors.mapIdx fun i f => if baseK then T f i else T i f

/-- `np.mean(r_values)` (`factor_comparison.py:450-452`): NaN if a value is NaN or the list is empty. -/
def npMeanOpt (l : List (Option K)) : Option K :=
  if l = [] then none else (l.mapM id).map fun v => v.sum / v.length

/-- `model_avg_r` (`factor_comparison.py:336-343`). -/
def permScore (method : CmpMethod) (baseK : Bool) (t : CorrTables K) (factors : List ℕ) : Option K :=
  let h := npMeanOpt (rValues baseK t.h factors)
  let w := npMeanOpt (rValues baseK t.w factors)
  let wh := npMeanOpt (rValues baseK t.wh factors)
  match method with
  | .all => h.bind fun h => w.bind fun w => wh.map fun wh => (h + w + wh) / 3
  | .W => w
  | .H => h
  | .WH => wh

/-- `if model_avg_r > best_r: …` (`factor_comparison.py:345-354`, `355-367`). -/
def cmpStep {α : Type*} (score : α → Option K) (st : K × Option α) (a : α) : K × Option α :=
  match score a with
  | some s => if st.1 < s then (s, some a) else st
  | none => st

/-- What `compare` stores. -/
structure CompareResult (K : Type*) where
  /-- `self.base_k` -/
  baseK : Bool
  /-- `self.best_model` -/
  model : ℕ
  /-- `self.best_avg_r` -/
  avg : K
  /-- `self.factor_map` -/
  factorMap : List ℕ
  /-- `self.model_results`: average and map of each model -/
  results : ℕ → Option (K × List ℕ)

/-- `compare` (`factor_comparison.py:250-383`) for `M` models, `B` base factors and `S` model factors. `list(best_perm)` raises
if no average exceeded zero. -/
def compareFactors (M B S : ℕ) (t : ℕ → CorrTables K) (method : CmpMethod) : Option (CompareResult K) :=
  let baseK : Bool := decide (S ≤ B)
  let perms := if S ≤ B then pyPerms S (List.range B) else pyPerms B (List.range S)
  let best := ((List.range M).flatMap fun m => perms.map fun p => (m, p)).foldl
    (cmpStep fun a : ℕ × List ℕ => permScore method baseK (t a.1) a.2) ((0 : K), none)
  best.2.map fun a =>
    { baseK := baseK, model := a.1, avg := best.1, factorMap := a.2,
      results := fun m => if M ≤ m then none else
        let b := perms.foldl (cmpStep fun p => permScore method baseK (t m) p) ((0 : K), none)
        b.2.map fun p => (b.1, p) }

/-- The models `compare` works on (`factor_comparison.py:226-248,262-277`): results which are `None` are not stored, but then the
models `0, 1, …` up to the number of stored ones are looked up by their original number (`KeyError` = `none`). -/
def comparedModels {α : Type*} (results : List (Option α)) : Option (List α) :=
  (List.range (results.countP Option.isSome)).mapM fun m => (results[m]?).join

/-- `base_Q` of `print_results` (`factor_comparison.py:396-400`): the data are passed as uncertainty, too. -/
def printedBaseQ {m n k : ℕ} (V _U : Mat m n K) (W : Mat m k K) (H : Mat k n K) : K := qLoss V V W H

end compare

section v2
variable {K : Type*} [Field K] [LinearOrder K] {m n k N : ℕ}

/-- `base_mass_matrix` (`factor_comparison.py:494-495,519-520`): the *first* entry of the mean contributions scales all profiles.
A vanishing total gives NaN. -/
def massMatrix (W : Mat m (k + 1) K) (H : Mat (k + 1) n K) : Option (Mat (k + 1) n K) :=
  let s := vmean fun i => W i 0
  let tot := ∑ a, ∑ j, s * H a j
  if tot = 0 then none else some fun a j => s * H a j / tot

/-- `jk_emc` (`factor_comparison.py:546-547`). -/
def emcMetric (W W' : Mat m (k + 1) K) (H H' : Mat (k + 1) n K) (a b : Fin (k + 1)) : Option K :=
  (massMatrix W H).bind fun M => (massMatrix W' H').bind fun M' => r2 (M' b) (M a)

/-- `jk_raae` (`factor_comparison.py:496,545`), `j` the base and `k` the model contribution; a zero denominator gives NaN or infinity. -/
def raaeMetric (j k : Fin m → K) : Option K :=
  let nn : K := 1 / (m : K)
  if (∑ i, j i) * nn = 0 then none else some ((∑ i, |k i - j i|) * nn / ((∑ i, j i) * nn))

/-- First best index, `argmin`/`argmax` of one column. -/
def argBest (better : K → K → Bool) (v : Fin (N + 1) → K) : Fin (N + 1) :=
  (List.finRange (N + 1)).foldl (fun b j => if better (v j) (v b) then j else b) 0

/-- An entry of `mapping_values` (`factor_comparison.py:580,602-604`). -/
inductive MapVal (K : Type*)
  /-- a number -/
  | num (x : K)
  /-- an array -/
  | arr (l : List K)
  /-- still the initial -1 -/
  | unset

/-- `determine_map` for one model (`factor_comparison.py:578-606`). `A` is the metric, row = base factor, column = model factor.
`better` is `<` for raae and `>` for the others. `matching` stands for `min_weight_full_bipartite_matching`, which returns the
pair (row indices, column indices), here the columns of the rows in order, and may raise. `list(…)` of that pair has two
entries, so that `zip` pairs base factor 0 with the row indices and base factor 1 with the column indices. The returned map is
`optimal_indices` in either case. -/
def determineMap (better : K → K → Bool) (rnd : K → K)
    (matching : Mat (N + 1) (N + 1) K → Option (Fin (N + 1) → Fin (N + 1))) (A : Mat (N + 1) (N + 1) K) :
    Option ((Fin (N + 1) → Fin (N + 1)) × (Fin (N + 1) → MapVal K)) :=
  let optimal : Fin (N + 1) → Fin (N + 1) := fun c => argBest better fun j => A j c
  if ∀ a b, optimal a = optimal b → a = b then
    some (optimal, fun j => .num (rnd (A j (optimal j))))
  else (matching A).map fun cols =>
    (optimal, fun j =>
      if j.1 = 0 then .arr (List.ofFn fun r => rnd (A j r))
      else if j.1 = 1 then .arr (List.ofFn fun r => rnd (A j (cols r)))
      else .unset)

/-- The profiles of the perturbed model arranged by the map (`perturbation.py:241-244`). -/
def alignRows {α : Type*} (map : Fin (N + 1) → Fin (N + 1)) (H : Fin (N + 1) → α) : Fin (N + 1) → α := fun i => H (map i)

end v2

end Esat
