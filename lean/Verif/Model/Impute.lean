import Mathlib.Algebra.BigOperators.Group.Finset.Basic
import Mathlib.Algebra.Field.Defs
import Mathlib.Data.Fintype.Basic
import Verif.Model.Mat
import Verif.Model.PyDict

/-!
# Model of `esat/data/impute.py`

NaN is `none`.  The scikit-learn imputers are a parameter `fill` that gives the value for a missing cell; all three keep the
present cells and drop columns without any present cell (`SimpleImputer`, `KNNImputer` and `IterativeImputer` with
`keep_empty_features=False`, the default).  Tables have at least one row and one column (scikit-learn raises otherwise).
-/

namespace Esat

/-- The exceptions raised in `impute.py`. -/
inductive ImputeExc
  | nameError | importError | valueError | attributeError
  deriving DecidableEq, Repr

/-- The names bound by the import block (`impute.py:8-12`) besides the other imports; `isNone` = the value is `None`.
`from sklearn.impute import …` binds the imported names, not the name `sklearn`. -/
def imputeGlobals (importOk : Bool) : PyDict String Bool :=
  [("logging", false), ("pd", false), ("np", false), ("DataHandler", false)] ++
  (if importOk then [("enable_iterative_imputer", false), ("SimpleImputer", false), ("KNNImputer", false),
    ("IterativeImputer", false)] else [("sklearn", true)]) ++ [("logger", false), ("DataImputer", false)]

/-- `DataImputer.__init__` (`impute.py:27-40`): `if sklearn is None: raise ImportError`, an unbound name is a `NameError`. -/
def imputerInit (importOk : Bool) : Except ImputeExc Unit :=
  match dictGet (imputeGlobals importOk) "sklearn" with
  | none => .error .nameError
  | some isNone => if isNone then .error .importError else .ok ()

variable {K : Type*} {m n : ℕ}

/-- `np.where(X == self.missing_value, np.nan, X)` if a missing value is given (`impute.py:59-61`).  `missing = none` is
`None`, `some none` is `np.nan` (equal to nothing), `some (some x)` is the number `x`. -/
def markMissing [DecidableEq K] (missing : Option (Option K)) (X : Mat m n (Option K)) : Mat m n (Option K) :=
  match missing with
  | some (some x) => fun i j => if X i j = some x then none else X i j
  | _ => X

/-- The columns kept by the imputers. -/
def keptCols (X : Mat m n (Option K)) : List (Fin n) :=
  (List.finRange n).filter fun j => (List.finRange m).any fun i => (X i j).isSome

/-- `imputer.fit_transform(X)` (`impute.py:95-98` and the other two): the kept columns with the missing cells filled. -/
def fitTransform (fill : Mat m n (Option K) → Fin m → Fin n → K) (X : Mat m n (Option K)) : List (Fin m → K) :=
  (keptCols X).map fun j i => (X i j).getD (fill X i j)

/-- The attributes of a `DataImputer` that `impute` sets. -/
structure ImputeState (m n : ℕ) (K : Type*) where
  mask : Option (Fin m → Fin n → Bool)
  data : Option (List (Fin m → K))
  unc : Option (List (Fin m → K))

/-- `pd.DataFrame(imputed, columns=U.columns, index=U.index)` (`impute.py:97-98`): `U` is an array and has no columns after
`np.where`; the number of columns must fit. -/
def mkFrame (isFrame : Bool) (n : ℕ) (cols : List (Fin m → K)) : Except ImputeExc (List (Fin m → K)) :=
  if !isFrame then .error .attributeError else if cols.length ≠ n then .error .valueError else .ok cols

/-- `DataImputer.impute` (`impute.py:42-136`): the outcome (`ok none` = returns `None`) and the attributes afterwards. -/
def impute [DecidableEq K] (fill : Mat m n (Option K) → Fin m → Fin n → K) (strategy : String)
    (missing : Option (Option K)) (handler : Option (Mat m n (Option K) × Mat m n (Option K))) (s : ImputeState m n K) :
    Except ImputeExc (Option (List (Fin m → K) × List (Fin m → K))) × ImputeState m n K :=
  if strategy ∉ ["mean", "median", "most_frequent", "knn", "iterative"] then (.error .valueError, s) else
  match handler with
  | none => (.ok none, s)
  | some (V, U) =>
    let V' := markMissing missing V
    let U' := markMissing missing U
    let s1 := { s with mask := some fun i j => (V' i j).isNone || (U' i j).isNone }
    match mkFrame missing.isNone n (fitTransform fill V') with
    | .error e => (.error e, s1)
    | .ok d =>
      let s2 := { s1 with data := some d }
      match mkFrame missing.isNone n (fitTransform fill U') with
      | .error e => (.error e, s2)
      | .ok u => (.ok (some (d, u)), { s2 with unc := some u })

/-- The present cells of a column. -/
def presentCells (X : Mat m n (Option K)) (j : Fin n) : List K :=
  (List.finRange m).filterMap fun i => X i j

/-- `SimpleImputer(strategy='mean')`: the mean of the present cells of the column. -/
def meanFill [Field K] (X : Mat m n (Option K)) (_ : Fin m) (j : Fin n) : K :=
  (presentCells X j).sum / (presentCells X j).length

end Esat
