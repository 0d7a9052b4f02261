import Verif.Model.FactorCompare
import Verif.Model.PyDict

/-!
# Model of the factor catalog (`eval/factor_catalog.py`) and of the perturbation of uncertainties (`eval/perturbation.py`)

`Factor` (30-41), `check` (72-112), `add` (114-132), `FactorCatalog.__init__` (167-179), `to_df` (189-208), `check_factor`
(210-242), `check_matrix` (46-69, 244-268), `add_factor` (270-314), `add_batch` (316-348), `add_model` (350-372), `compare_factor` (374-402), and
`Perturbation.perturb` (147-188). NaN and exceptions are `none`. Not modelled: logging, progress bars, rounding of the table.
-/

namespace Esat

section catalog
variable {K : Type*} [Field K] [LinearOrder K] {n m : ℕ}

/-- The correlation methods. -/
inductive CatMethod | raae | emc | corr
  deriving DecidableEq

/-- A factor: profile and contribution. -/
structure FacVec (n m : ℕ) (K : Type*) where
  /-- profile -/
  h : Fin n → K
  /-- contribution -/
  w : Fin m → K

/-- `(W_mean * H) / np.sum(W_mean * H)` (`factor_catalog.py:90-91,101-102`); NaN if the sum vanishes. -/
def massVec (x : FacVec n m K) : Option (Fin n → K) :=
  let s := vmean x.w
  let tot := ∑ j, s * x.h j
  if tot = 0 then none else some fun j => s * x.h j / tot

/-- The metric between a stored factor and a new one (`factor_catalog.py:94-109`). -/
def pairCorr (method : CatMethod) (profileOnly : Bool) (f x : FacVec n m K) : Option K :=
  if profileOnly then r2 x.h f.h
  else match method with
    | .raae => raaeMetric f.w x.w
    | .emc => (massVec f).bind fun a => (massVec x).bind fun b => r2 b a
    | .corr => r2 x.w f.w

/-- A catalog entry (`factor_catalog.py:30-41`). -/
structure CatEntry (X K : Type*) where
  /-- `self.factor` -/
  members : List X
  /-- `self.model` -/
  models : List ℕ
  /-- `self.correlation` -/
  corrs : List K

/-- The catalog (`factor_catalog.py:167-179`). -/
structure Catalog (X K : Type*) where
  /-- `self.factors` -/
  factors : PyDict ℕ (CatEntry X K)
  /-- `self.idx` -/
  idx : ℕ
  /-- `self.model_count` -/
  modelCount : ℕ

/-- An empty catalog. -/
def Catalog.empty {X K : Type*} : Catalog X K := ⟨[], 0, 0⟩

variable {X : Type*}

/-- `Factor.check` (`factor_catalog.py:72-112`): the mean of the metrics to all members. -/
def entryCheck (pc : X → X → Option K) (e : CatEntry X K) (x : X) : Option K := npMeanOpt (e.members.map fun f => pc f x)

/-- `check_factor` (`factor_catalog.py:210-242`): lowest metric for raae, highest otherwise; comparisons with NaN are false. -/
def checkFactor (raae : Bool) (pc : X → X → Option K) (c : Catalog X K) (x : X) : Option ℕ × K :=
  c.factors.foldl (fun st p =>
    match entryCheck pc p.2 x with
    | none => st
    | some r => if (if raae then r < st.2 else st.2 < r) then (some p.1, r) else st)
    (none, if raae then 1 else 0)

/-- `add_factor` (`factor_catalog.py:270-314`): the catalog and whether an entry was created. `self.factors[None]` raises. -/
def addFactor (raae : Bool) (thr : K) (pc : X → X → Option K) (c : Catalog X K) (x : X) (model : ℕ) :
    Option (Catalog X K × Bool) :=
  let mc := if c.modelCount < model then model + 1 else c.modelCount
  let best := checkFactor raae pc c x
  let addNew : Bool := decide (c.idx = 0) || (if raae then decide (thr < best.2) else decide (best.2 < thr))
  if addNew then
    some (⟨dictSet c.factors c.idx ⟨[x], [model], [if raae then 0 else 1]⟩, c.idx + 1, mc⟩, true)
  else
    best.1.bind fun key => (dictGet c.factors key).map fun e =>
      (⟨dictSet c.factors key ⟨e.members ++ [x], e.models ++ [model], e.corrs ++ [best.2]⟩, c.idx, mc⟩, false)

/-- A sequence of `add_factor` calls with the list of returned flags. `add_model` (`factor_catalog.py:365-372`) and `add_batch`
(`334-348`) are such sequences and return the sum of the flags. -/
def addFactors (raae : Bool) (thr : K) (pc : X → X → Option K) : Catalog X K → List (X × ℕ) → Option (Catalog X K × List Bool)
  | c, [] => some (c, [])
  | c, a :: l => (addFactor raae thr pc c a.1 a.2).bind fun r =>
      (addFactors raae thr pc r.1 l).map fun s => (s.1, r.2 :: s.2)

/-- A model of a batch: its loss and its factors. A result that is `None` raises and is not modelled. -/
structure BatchModel (X K : Type*) where
  /-- `model.Qtrue` -/
  q : K
  /-- the factors, `model.H[f]` with `model.W[:, f]` -/
  facs : List X

/-- The `add_factor` calls of `add_batch` (`factor_catalog.py:334-347`): models with number `i`, without those whose loss exceeds
`outlier_threshold` times the smallest loss if outliers are excluded. -/
def batchCalls (exclude : Bool) (outThr : K) (models : List (BatchModel X K)) : List (X × ℕ) :=
  let qmin := (models.map (·.q)).min?
  models.zipIdx.flatMap fun p =>
    if exclude ∧ (∃ q ∈ qmin, q * outThr < p.1.q) then [] else p.1.facs.map fun x => (x, p.2)

/-- The occurrence column of `to_df` (`factor_catalog.py:202-203`), without its rounding: `100 * len(f.model) / model_count`;
division by zero raises. -/
def occurrence (c : Catalog X K) : Option (List K) :=
  if c.modelCount = 0 ∧ c.factors ≠ [] then none
  else some (c.factors.map fun p => 100 * (p.2.models.length : K) / (c.modelCount : K))

/-- `compare_factor` (`factor_catalog.py:374-402`) for a factor with the given members: the highest mean wins for every method.
An infinite relative error (a stored contribution that vanishes) is not modelled. -/
def compareFactor (pc : X → X → Option K) (c : Catalog X K) (members : List X) : Option ℕ × K :=
  c.factors.foldl (fun st p =>
    match npMeanOpt (members.map fun x => entryCheck pc p.2 x) with
    | none => st
    | some r => if st.2 < r then (some p.1, r) else st)
    (none, 0)

/-- `np.matmul(f_W, [f_H]).flatten()` (`factor_catalog.py:63-65`). -/
def outerFlat (x : FacVec n m K) : Fin (m * n) → K := fun q => x.w q.divNat * x.h q.modNat

/-- `Factor.check_matrix` (`factor_catalog.py:46-69`): the mean of the squared correlations with the products of all members. -/
def entryCheckMatrix (e : CatEntry (FacVec n m K) K) (wh : Mat m n K) : Option K :=
  npMeanOpt (e.members.map fun f => r2 (fun q : Fin (m * n) => wh q.divNat q.modNat) (outerFlat f))

/-- `FactorCatalog.check_matrix` (`factor_catalog.py:244-268`). -/
def checkMatrix (c : Catalog (FacVec n m K) K) (wh : Mat m n K) : Option ℕ × K :=
  c.factors.foldl (fun st p =>
    match entryCheckMatrix p.2 wh with
    | none => st
    | some r => if st.2 < r then (some p.1, r) else st)
    (none, 0)

end catalog

section perturbation
variable {K : Type*} [Field K] [LinearOrder K] {m n : ℕ}

/-- The types of the parameters `perturb_percent` and `sigma` which the code distinguishes. -/
inductive PParam (K : Type*)
  /-- a `float` -/
  | float (x : K)
  /-- an `int` -/
  | int (x : ℤ)
  /-- a list -/
  | list (l : List K)

/-- The list the loop uses (`perturbation.py:167-174`): an `int` is neither expanded nor iterable, so that `enumerate` or the
subscript raises; a list of the wrong length is replaced by copies of its first entry. -/
def expandParam (n : ℕ) : PParam K → Option (List K)
  | .float x => some (List.replicate n x)
  | .int _ => none
  | .list l => if l.length = n then some l else l.head?.map fun a => List.replicate n a

/-- One column of `perturb` (`perturbation.py:176-187`) at one cell: `draw` is the uniform and `logn` the log-normal number. The
two assignments under the mask copy a value onto itself. -/
def perturbCell (p u draw logn : K) : K × K :=
  let mask : Bool := decide (p < draw)
  let im := logn
  let im := if mask then im else im
  let u1 := u * logn
  let u1 := if mask then u1 else u1
  (if u1 ≤ 0 then 1 / 10 ^ 12 else u1, im)

/-- `perturb` (`perturbation.py:147-188`): perturbed uncertainties and multipliers. -/
def perturb (pp sigma : PParam K) (U draw : Mat m n K) (logn : Fin n → K → Fin m → K) :
    Option (Mat m n K × Mat m n K) :=
  (expandParam n pp).bind fun p => (expandParam n sigma).bind fun s =>
    if hp : p.length = n ∧ s.length = n then
      some (fun i j => (perturbCell (p[j.1]'(by have := j.2; omega)) (U i j) (draw i j)
              (logn j (s[j.1]'(by have := j.2; omega)) i)).1,
            fun i j => (perturbCell (p[j.1]'(by have := j.2; omega)) (U i j) (draw i j)
              (logn j (s[j.1]'(by have := j.2; omega)) i)).2)
    else none

end perturbation

end Esat
