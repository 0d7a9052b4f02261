import Verif.Model.Constrained
import Verif.Model.PyDict
import Verif.Model.SaveLoad
import Mathlib.Algebra.BigOperators.Field

/-!
# Model of the base estimate of a comparison and of the figure of a perturbed factor

`FactorCompare._calculate_base_wh` (`eval/factor_comparison.py:203-213`) with the attributes set before (56-66), and `Perturbation.plot_perturbed_factor` (`eval/perturbation.py:390-431`) with the aligned profiles of `compare`
(222-224, 230-246). Frames are looked up by label; labels of a frame are different. A quotient by zero is `none`. Not modelled: colours and layout.
-/

namespace Esat

section base
variable {K L : Type*} [Field K] [DecidableEq L] {m n : ℕ}

/-- A frame: its labels with the columns. -/
abbrev ColFrame (r : ℕ) (L K : Type*) := PyDict L (Fin r → K)

/-- `base_WH` and `base_V_estimate` (`factor_comparison.py:205-213`); `none` = a label of the profiles is missing in the contributions (`KeyError`). -/
def baseWH (profiles : ColFrame n L K) (contributions : ColFrame m L K) : Option (PyDict L (Mat m n K) × Mat m n K) :=
  let factors := profiles.map (·.1)
  (factors.mapM fun l => (dictGet contributions l).bind fun w => (dictGet profiles l).map fun h => (l, w, h)).map fun cols =>
    (cols.foldl (fun d c => dictSet d c.1 fun i j => c.2.1 i * c.2.2 j) [],
      fun i j => (cols.map fun c => c.2.1 i * c.2.2 j).sum)

end base

section figure
variable {K : Type*} [Field K] [DecidableEq K] {k n N : ℕ}

/-- `H / np.sum(H, axis=0)` (`perturbation.py:223,231,418`). -/
def columnShares (H : Mat k n K) (a : Fin k) (j : Fin n) : Option K := if ∑ b, H b j = 0 then none else some (H a j / ∑ b, H b j)

/-- `perturb_H[i, j, p]` (`perturbation.py:231-246`). -/
def alignedProfiles (hs : Fin N → Mat k n K) (maps : Fin N → Fin k → Fin k) (i : Fin k) (j : Fin n) (p : Fin N) : Option K :=
  columnShares (hs p) (maps p i) j

/-- The figure: a box of each feature with a value of each model, the markers of the base model, the number in the title. -/
structure PerturbFig (n N : ℕ) (K : Type*) where
  /-- values of the boxes -/
  boxes : List (Fin N → Option K)
  /-- markers -/
  base : Fin n → Option K
  /-- number in the title -/
  title : ℤ

/-- `plot_perturbed_factor` (`perturbation.py:408-425`) with `factors` the argument of the constructor; `n0` and `k0` are the sizes of the base model. -/
def perturbedFactor {k0 n0 : ℕ} (compared : Option (Fin k → Fin n → Fin N → Option K)) (base : Mat k0 n0 K) (factors idx : ℤ) : Outcome (Option (PerturbFig n0 N K)) :=
  match compared with
  | none => .ret none
  | some P =>
    if factors ≤ idx then .ret none
    else match (List.range n0).mapM fun j => (axisIndex k idx).bind fun a => if h : j < n then some (P a ⟨j, h⟩) else none with
      | none => .raised
      | some boxes => match axisIndex k0 idx with
        | none => .raised
        | some a => .ret (some ⟨boxes, columnShares base a, idx⟩)

end figure

end Esat
