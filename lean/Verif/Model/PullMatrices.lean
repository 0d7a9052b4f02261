import Verif.Model.Expressions

/-!
# Model of the pulls of one iteration of the constrained model

`_apply_expressions` as a whole (`esat/rotational/constrained.py:360-430`), `_calculate_pull_matrices` (432-439) and the iteration of
`train` with both (498-503). `scipy.optimize.lsq_linear` is a parameter that gets the rows of the system, the number of columns and the two bounds;
`none` = an exception.
-/

namespace Esat

section pull
variable {K : Type*} [Field K] [LinearOrder K] {m n k : ℕ}

/-- A call of `optimize.lsq_linear` (`constrained.py:394`): rows with right hand sides, columns, lower and upper bound. -/
abbrev Lsq (K : Type*) := List ((ℕ → K) × K) → ℕ → K → K → Option (ℕ → K)

/-- `exp_A`, `exp_B` (`constrained.py:373-390`), row by row from row `i` on. -/
def exprSystem (W : Mat m k K) (H : Mat k n K) (mapping : PyDict (List Char) (ExprEntry K)) :
    ℕ → List (List (List Char) × K) → Option (List ((ℕ → K) × K))
  | _, [] => some []
  | i, e :: es =>
    (exprRow W H mapping i e.1 (fun _ => 0) 0).bind fun r => (exprSystem W H mapping (i + 1) es).map fun rs => r :: rs

/-- `np.max(exp_B)` (`constrained.py:393`). -/
def maxRhs : List ((ℕ → K) × K) → K
  | [] => 0
  | r :: rs => lmax r.2 (rs.map Prod.snd)

/-- The solution written into the target matrices (`constrained.py:397-404`). -/
def exprTargets (x : ℕ → K) : PyDict (List Char) (ExprEntry K) → Mat m k K × Mat k n K → Option (Mat m k K × Mat k n K)
  | [], T => some T
  | p :: ps, T =>
    if p.2.kind = "feature".toList then
      (axisIndex k p.2.index.1).bind fun a => (axisIndex n p.2.index.2).bind fun j => exprTargets x ps (T.1, setEntry T.2 a j (x p.2.col))
    else
      (axisIndex m p.2.index.2).bind fun i => (axisIndex k p.2.index.1).bind fun a => exprTargets x ps (setEntry T.1 i a (x p.2.col), T.2)

/-- `np.where(D != 0.0, D - A, 0.0)` (`constrained.py:407-408`). -/
def exprDiff {r c : ℕ} (T A : Mat r c K) : Mat r c K := fun i j => if T i j ≠ 0 then T i j - A i j else 0

/-- `_apply_expressions` (`constrained.py:360-430`). -/
def applyExpressions (lsq : Lsq K) (E : CEnv m n k K) (soft baseQ : K) (labeled : List (List (List Char) × K))
    (mapping : PyDict (List Char) (ExprEntry K)) (W : Mat m k K) (H : Mat k n K) : Option (Mat m k K × Mat k n K) :=
  if labeled = [] then some (fun _ _ => 0, fun _ _ => 0)
  else
    (exprSystem W H mapping 0 labeled).bind fun rows => (lsq rows mapping.length E.eps (maxRhs rows)).bind fun x =>
      (exprTargets x mapping ((fun _ _ => 0, fun _ _ => 0) : Mat m k K × Mat k n K)).map fun T =>
        exprPull E.V E.U E.W0 E.H0 soft baseQ (labeled.map Prod.snd).sum W H (exprDiff T.1 W) (exprDiff T.2 H)

/-- `_calculate_pull_matrices` (`constrained.py:432-439`): the constraints are applied last. -/
def calcPull (lsq : Lsq K) (E : CEnv m n k K) (soft baseQ : K) (labeled : List (List (List Char) × K))
    (mapping : PyDict (List Char) (ExprEntry K)) (cs : List (Constraint K)) (W : Mat m k K) (H : Mat k n K) :
    Option (Mat m k K × Mat k n K) :=
  (applyExpressions lsq E soft baseQ labeled mapping W H).bind (applyConstraints E W H cs)

/-- One iteration (`constrained.py:498-503`); `none` = an exception or a non-finite value. -/
def pullIteration (lsq : Lsq K) (E : CEnv m n k K) (soft baseQ : K) (labeled : List (List (List Char) × K))
    (mapping : PyDict (List Char) (ExprEntry K)) (cs : List (Constraint K))
    (update : Mat m k K → Mat k n K → Option (Mat m k K × Mat k n K)) (s : Mat m k K × Mat k n K) : Option (Mat m k K × Mat k n K) :=
  (calcPull lsq E soft baseQ labeled mapping cs s.1 s.2).bind fun D => update (pulled s.1 s.2 D).1 (pulled s.1 s.2 D).2

end pull

end Esat
