import Verif.Model.PullMatrices
import Verif.Model.Metrics

/-!
# `ConstrainedModel.train` as a whole (`esat/rotational/constrained.py:441-547`)

The loop with the three recorded losses, and what is stored afterwards. `initialize` replaces the entries of the profiles that are not positive in place
(`sa.py:301`), so that `WH`, which is computed after it, belongs to the replaced profiles; the losses were computed before. The constructor of the new
`SA` gets the data of the base model and is taken to succeed. Not modelled: the progress bar and the metadata that repeat arguments.
-/

namespace Esat

section train
variable {K : Type*} [Field K] [LinearOrder K] {m n k : ℕ} {σ : Type*}

/-- `Qtrue_i`, `Qrobust_i`, `Qaux_i` of one iteration. -/
structure ConsQ (K : Type*) where
  /-- `Q(True)` -/
  qt : K
  /-- `Q(Robust)` -/
  qr : K
  /-- `Q(Aux)` -/
  qa : K

/-- The loop (`constrained.py:496-525`) with the lists it fills: iterations left, `qm_list`, state; see `cLoop`. -/
def cLoopQ (step : σ → Option (σ × ConsQ K)) (convN : ℕ) (delta : K) : ℕ → List K → σ → Option (σ × Bool × List (ConsQ K))
  | 0, _, s => some (s, false, [])
  | r + 1, win, s =>
    (step s).bind fun p =>
      if convN < (win ++ [p.2.qt + p.2.qa]).length then
        match windowMet delta (win ++ [p.2.qt + p.2.qa]).tail with
        | none => none
        | some true => some (p.1, true, [p.2])
        | some false => (cLoopQ step convN delta r (win ++ [p.2.qt + p.2.qa]).tail p.1).map fun x => (x.1, x.2.1, p.2 :: x.2.2)
      else (cLoopQ step convN delta r (win ++ [p.2.qt + p.2.qa]) p.1).map fun x => (x.1, x.2.1, p.2 :: x.2.2)

/-- One iteration with its losses (`constrained.py:498-508`); `rob` is `qr_loss`. -/
def consStep (lsq : Lsq K) (E : CEnv m n k K) (soft baseQ : K) (labeled : List (List (List Char) × K))
    (mapping : PyDict (List Char) (ExprEntry K)) (cs : List (Constraint K)) (rob : Mat m k K → Mat k n K → K)
    (update : Mat m k K → Mat k n K → Option (Mat m k K × Mat k n K)) (s : Mat m k K × Mat k n K) :
    Option ((Mat m k K × Mat k n K) × ConsQ K) :=
  (calcPull lsq E soft baseQ labeled mapping cs s.1 s.2).bind fun D =>
    (update (pulled s.1 s.2 D).1 (pulled s.1 s.2 D).2).map fun t =>
      (t, ⟨qLoss E.V E.U t.1 t.2, rob t.1 t.2, qAux soft E.W0 t.1 D.1 E.H0 t.2 D.2⟩)

/-- What `train` stores in `constrained_model` (`constrained.py:526-541`). -/
structure ConsModel (m n k : ℕ) (K : Type*) where
  /-- `W` -/
  W : Mat m k K
  /-- `H` -/
  H : Mat k n K
  /-- `WH` -/
  WH : Mat m n K
  /-- the losses, `none` = all three are `None` -/
  q : Option (ConsQ K)
  /-- `converged` -/
  converged : Bool
  /-- `converge_steps` -/
  steps : ℕ

/-- The attributes `train` reads or writes. -/
structure ConsObj (m n k : ℕ) (K : Type*) where
  /-- `len(self.constraints)` -/
  constraints : ℕ
  /-- `len(self.expressions)` -/
  expressions : ℕ
  /-- `constrained_model` -/
  model : Option (ConsModel m n k K)
  /-- `Q_list`, which does not exist before the first training -/
  qList : Option (List K × List K × List K)
  /-- `Qaux` -/
  qaux : Option K

/-- `train` (`constrained.py:441-547`): the object afterwards, and whether the call returns; otherwise it raises. `step` is `none` if
`_map_expressions` raises; `baseRobust` is `base_model.Qrobust`. The message at the end (543-547) does arithmetic with the losses. -/
def consTrain (step : Option (Mat m k K × Mat k n K → Option ((Mat m k K × Mat k n K) × ConsQ K))) (maxIter convN : ℕ) (delta : K)
    (baseRobust : Option K) (W0 : Mat m k K) (H0 : Mat k n K) (o : ConsObj m n k K) : ConsObj m n k K × Bool :=
  if o.constraints = 0 ∧ o.expressions = 0 then (o, true)
  else match step.bind fun f => cLoopQ f convN delta maxIter [] (W0, H0) with
    | none => (o, false)
    | some (s, conv, qs) =>
      ({ o with
          model := some ⟨s.1, floorPos s.2, s.1 ⬝ floorPos s.2, qs.getLast?, conv, qs.length - 1⟩
          qList := some (qs.map (·.qt), qs.map (·.qr), qs.map (·.qa))
          qaux := qs.getLast?.map (·.qa) }, qs.getLast?.isSome && baseRobust.isSome)

end train

end Esat
