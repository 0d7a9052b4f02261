import Verif.Model.PyDict
import Verif.Model.Metrics
import Verif.Model.SaveLoad
import Mathlib.Data.Int.Notation

/-!
# Model of the constrained model (`esat/rotational/constrained.py`), without expressions

Labels `factor:{i}|feature:{j}` and `factor:{i}|sample:{j}` are represented by their two numbers (decimal formatting is
injective). Floating point rounding, logging and plotting are not modelled.
-/

namespace Esat

/-! ## Adding and removing constraints -/

/-- The `target` argument: any other string than `feature` and `sample` is accepted by the code. -/
inductive CTarget
  /-- `feature` -/
  | feature
  /-- `sample` -/
  | sample
  /-- any other string -/
  | other
  deriving DecidableEq, Repr

/-- Dictionary keys (`constrained.py:215-236`). -/
inductive CLabel
  /-- `factor:{i}|feature:{j}` -/
  | feature (i j : ℤ)
  /-- `factor:{i}|sample:{j}` -/
  | sample (i j : ℤ)
  /-- the empty string -/
  | blank
  deriving DecidableEq, Repr

/-- Constraint types with their `target_values` (`constrained.py:237-243`); any other string is accepted by the code. -/
inductive CKind (K : Type*)
  /-- `pull down` -/
  | pullDown (dQ : K)
  /-- `pull up` -/
  | pullUp (dQ : K)
  /-- `pull to value` -/
  | pullTo (value dQ : K)
  /-- `set to zero` -/
  | zero
  /-- `set to base value` -/
  | base
  /-- `define limits` -/
  | limits (lo hi : K)
  /-- any other string -/
  | other

/-- `Constraint` (`constrained.py:28-77`). -/
structure Constraint (K : Type*) where
  /-- `constraint_type`, `target_values` -/
  kind : CKind K
  /-- `index` -/
  index : ℤ × ℤ
  /-- `target` -/
  target : CTarget

section dict
variable {K : Type*}

/-- The label built by `add_constraint`. -/
def cLabel (c : Constraint K) : CLabel :=
  match c.target with
  | .feature => .feature c.index.1 c.index.2
  | .sample => .sample c.index.1 c.index.2
  | .other => .blank

/-- The index checks (`constrained.py:216-235`) of a model with `m` samples, `n` features and `k` factors; the second index
of a sample constraint is compared with `m`. -/
def cIndexOk (m n k : ℕ) (c : Constraint K) : Bool :=
  match c.target with
  | .feature => decide (¬((k : ℤ) ≤ c.index.1 ∨ c.index.1 < 0) ∧ ¬((n : ℤ) ≤ c.index.2 ∨ c.index.2 < 0))
  | .sample => decide (¬((m : ℤ) ≤ c.index.1 ∨ c.index.1 < 0) ∧ ¬((m : ℤ) ≤ c.index.2 ∨ c.index.2 < 0))
  | .other => true

/-- `add_constraint` (`constrained.py:174-249`): the new dictionary and the returned flag. -/
def addConstraint (m n k : ℕ) (d : PyDict CLabel (Constraint K)) (c : Constraint K) : PyDict CLabel (Constraint K) × Bool :=
  if cIndexOk m n k c = false then (d, false)
  else if d.any (fun p => p.1 = cLabel c) then (d, false)
  else (dictSet d (cLabel c) c, true)

/-- A call of `add_constraint` or `remove_constraint` (`constrained.py:251-263`). -/
inductive COp (K : Type*)
  /-- `add_constraint` -/
  | add (c : Constraint K)
  /-- `remove_constraint` -/
  | remove (label : CLabel)

/-- One call; `remove_constraint` raises `KeyError` for an unknown label and changes nothing then. -/
def cStep (m n k : ℕ) (d : PyDict CLabel (Constraint K)) : COp K → PyDict CLabel (Constraint K)
  | .add c => (addConstraint m n k d c).1
  | .remove l => (dictPop d l).getD d

/-- Any history of calls on a new model. -/
def cRunOps (m n k : ℕ) (ops : List (COp K)) : PyDict CLabel (Constraint K) := ops.foldl (cStep m n k) []

end dict

/-! ## Searches -/

section search
variable {K : Type*} [Field K] [LinearOrder K]

/-- `_pull_down_value` (`constrained.py:581-621`): evaluations left (31), `low_mod`, `high_mod`, `modifier`, `p_mod`, and the
current content of the array entry, which every evaluation overwrites. `f v` is `|iQ - Q|` with the entry set to `v`;
`eps = 1e-8`, `slack = 100`. -/
def pullDownLoop (f : K → K) (lim eps slack : K) : ℕ → K → K → K → K → K → K
  | 0, _, _, _, _, cur => cur
  | n + 1, low, high, md, pmd, cur =>
    let v := cur * md
    if lim < f v then
      let md' := (md + high) / 2
      if |pmd - md'| ≤ eps ∨ n = 0 then v else pullDownLoop f lim eps slack n md high md' md' v
    else if f v < lim - slack then
      let md' := (low + md) / 2
      if |pmd - md'| ≤ eps ∨ n = 0 then v else pullDownLoop f lim eps slack n low md md' md' v
    else v

/-- `_pull_down_value` with its final replacement of zero. -/
def pullDown (f : K → K) (lim eps slack : K) (cur : K) : K :=
  let v := pullDownLoop f lim eps slack 31 0 1 ((1 + 0) / 2) 0 cur
  if v = 0 then eps else v

/-- The doubling search of `_pull_up_value` (`constrained.py:634-650`): evaluations left (30), `low_modifier`,
`high_modifier`. `inl v`: the method returns `v`; `inr (low, high)`: continue. -/
def pullUpBound (f : K → K) (lim base : K) : ℕ → K → K → K ⊕ K × K
  | 0, _, high => .inl (base * high)
  | n + 1, low, high =>
    let v := base * high
    if f v < lim then
      if n = 0 then .inl v else pullUpBound f lim base n high (high * 2)
    else if n = 0 then .inl v else .inr (low, high)

/-- The bisection of `_pull_up_value` (`constrained.py:651-675`). -/
def pullUpLoop (f : K → K) (lim slack base : K) : ℕ → K → K → K → K
  | 0, _, _, md => base * md
  | n + 1, low, high, md =>
    let v := base * md
    if lim < f v then
      if n = 0 then v else pullUpLoop f lim slack base n low md ((md + low) / 2)
    else if f v < lim - slack then
      if n = 0 then v else pullUpLoop f lim slack base n md high ((high + md) / 2)
    else v

/-- `_pull_up_value` (`constrained.py:623-675`). -/
def pullUp (f : K → K) (lim slack base : K) : K :=
  match pullUpBound f lim base 30 0 2 with
  | .inl v => v
  | .inr (low, high) => pullUpLoop f lim slack base 30 low high ((high + low) / 2)

/-- The bisection of `_pull_to_value` (`constrained.py:704-731`): evaluations left (31), `low_value`, `high_value`,
`mid_value`, `p_value`. -/
def pullToLoop (f : K → K) (lim eps slack : K) : ℕ → K → K → K → K → K
  | 0, _, _, mid, _ => mid
  | n + 1, low, high, mid, pv =>
    if lim < f mid then
      let mid' := (mid + high) / 2
      if |pv - mid'| ≤ eps ∨ n = 0 then mid else pullToLoop f lim eps slack n mid high mid' mid'
    else if f mid < lim - slack then
      let mid' := (low + mid) / 2
      if |pv - mid'| ≤ eps ∨ n = 0 then mid else pullToLoop f lim eps slack n low mid mid' mid'
    else mid

/-- `_pull_to_value` (`constrained.py:677-731`). -/
def pullTo (f : K → K) (lim eps slack cur target : K) : K :=
  if f target < lim then target
  else if cur < target then pullToLoop f lim eps slack 31 cur target ((target + cur) / 2) 0
  else pullToLoop f lim eps slack 31 target cur ((cur + target) / 2) 0

end search

/-! ## Applying constraints -/

section apply
variable {K : Type*} [Field K] [LinearOrder K] {m n k : ℕ}

/-- A matrix with one entry replaced. -/
def setEntry {r c : ℕ} {α : Type*} (A : Mat r c α) (i : Fin r) (j : Fin c) (v : α) : Mat r c α :=
  fun i' j' => if i' = i ∧ j' = j then v else A i' j'

/-- An index of an axis of length `r`, as numpy reads it: negative ones count from the end; `none` = `IndexError`. -/
def axisIndex (r : ℕ) (i : ℤ) : Option (Fin r) :=
  if h : 0 ≤ i ∧ i.toNat < r then some ⟨i.toNat, h.2⟩
  else if h : i < 0 ∧ 0 ≤ i + r then some ⟨(i + r).toNat, by omega⟩
  else none

/-- The entry addressed by a constraint (`constrained.py:325-328`): `H` for target `feature`, else `W`. -/
def cEntry (m n k : ℕ) (c : Constraint K) : Option (Fin k × Fin n ⊕ Fin m × Fin k) :=
  match c.target with
  | .feature => (axisIndex k c.index.1).bind fun a => (axisIndex n c.index.2).map fun j => .inl (a, j)
  | _ => (axisIndex m c.index.1).bind fun i => (axisIndex k c.index.2).map fun a => .inr (i, a)

/-- What `_apply_constraints` knows about the base model, and the constants of the searches. -/
structure CEnv (m n k : ℕ) (K : Type*) where
  /-- data -/
  V : Mat m n K
  /-- uncertainty -/
  U : Mat m n K
  /-- base contributions -/
  W0 : Mat m k K
  /-- base profiles -/
  H0 : Mat k n K
  /-- `1e-8` -/
  eps : K
  /-- `1e2` -/
  slack : K

/-- The new difference for an entry with current value `cur`, base value `base` and loss response `f`
(`constrained.py:330-354`). -/
def cDelta (E : CEnv m n k K) (kind : CKind K) (f : K → K) (cur base : K) : K :=
  match kind with
  | .pullDown lim => pullDown f lim E.eps E.slack cur - cur
  | .pullUp lim => pullUp f lim E.slack cur - cur
  | .pullTo v lim => pullTo f lim E.eps E.slack cur v - cur
  | .zero => -1 * cur
  | .base => base - cur
  | .limits lo hi => if cur < lo then lo - cur else if hi < cur then cur - hi else cur
  | .other => 0

/-- The loop body of `_apply_constraints` (`constrained.py:322-358`). -/
def applyOne (E : CEnv m n k K) (W : Mat m k K) (H : Mat k n K) (D : Mat m k K × Mat k n K) (c : Constraint K) :
    Option (Mat m k K × Mat k n K) :=
  match cEntry m n k c with
  | none => none
  | some (.inl (a, j)) =>
    let f := fun v => |qLoss E.V E.U W H - qLoss E.V E.U W (setEntry H a j v)|
    some (D.1, setEntry D.2 a j (cDelta E c.kind f (H a j) (E.H0 a j)))
  | some (.inr (i, a)) =>
    let f := fun v => |qLoss E.V E.U W H - qLoss E.V E.U (setEntry W i a v) H|
    some (setEntry D.1 i a (cDelta E c.kind f (W i a) (E.W0 i a)), D.2)

/-- `_apply_constraints`; `none` = `IndexError`. -/
def applyConstraints (E : CEnv m n k K) (W : Mat m k K) (H : Mat k n K) :
    List (Constraint K) → Mat m k K × Mat k n K → Option (Mat m k K × Mat k n K)
  | [], D => some D
  | c :: cs, D => (applyOne E W H D c).bind fun D' => applyConstraints E W H cs D'

/-- `_Qaux_loss` (`constrained.py:733-738`); `soft_W`, `soft_H` are constant vectors (`constrained.py:145-150`). -/
def qAux (soft : K) (W Wp Dw : Mat m k K) (H Hp Dh : Mat k n K) : K :=
  ∑ i, (∑ a, (W i a + Dw i a - Wp i a) ^ 2) / soft ^ 2 + ∑ a, (∑ j, (H a j + Dh a j - Hp a j) ^ 2) / soft ^ 2

/-- The matrices handed to the update: `W_d = D_w + W_i`, `H_d = np.abs(D_h + H_i)` (`constrained.py:500-501`). -/
def pulled (W : Mat m k K) (H : Mat k n K) (D : Mat m k K × Mat k n K) : Mat m k K × Mat k n K :=
  (fun i a => D.1 i a + W i a, fun a j => |D.2 a j + H a j|)

/-- One iteration (`constrained.py:498-503`) for an arbitrary expression pull; `none` = an exception or a non-finite value. -/
def cIteration (E : CEnv m n k K) (exprPull : Mat m k K → Mat k n K → Mat m k K × Mat k n K)
    (update : Mat m k K → Mat k n K → Option (Mat m k K × Mat k n K)) (cs : List (Constraint K))
    (s : Mat m k K × Mat k n K) : Option (Mat m k K × Mat k n K) :=
  (applyConstraints E s.1 s.2 cs (exprPull s.1 s.2)).bind fun D => update (pulled s.1 s.2 D).1 (pulled s.1 s.2 D).2

end apply

/-! ## The training loop -/

section train
variable {K : Type*} [Field K] [LinearOrder K] {σ : Type*}

/-- `np.max(l)` of a list given with its first element. -/
def lmax (a : K) (l : List K) : K := l.foldl max a

/-- `np.min(l)`. -/
def lmin (a : K) (l : List K) : K := l.foldl min a

/-- `np.max(qm_list) - np.min(qm_list) <= converge_delta` (`constrained.py:519-520`); `none` = `ValueError` of an empty list. -/
def windowMet (delta : K) : List K → Option Bool
  | [] => none
  | a :: l => some (decide (lmax a l - lmin a l ≤ delta))

/-- The loop of `ConstrainedModel.train` (`constrained.py:496-525`): iterations left, `qm_list`, state. `step` is one
iteration (`none`: exception or non-finite values), `q s s'` the value `Qmain` of the new state `s'`. Returns the state,
`converged` and the number of iterations. -/
def cLoop (step : σ → Option σ) (q : σ → σ → K) (convN : ℕ) (delta : K) : ℕ → List K → σ → Option (σ × Bool × ℕ)
  | 0, _, s => some (s, false, 0)
  | r + 1, win, s =>
    (step s).bind fun s' =>
      if convN < (win ++ [q s s']).length then
        match windowMet delta (win ++ [q s s']).tail with
        | none => none
        | some true => some (s', true, 1)
        | some false => (cLoop step q convN delta r (win ++ [q s s']).tail s').map fun x => (x.1, x.2.1, x.2.2 + 1)
      else (cLoop step q convN delta r (win ++ [q s s']) s').map fun x => (x.1, x.2.1, x.2.2 + 1)

/-- `plot_Q("main")` (`constrained.py:776-779`): the plotted x and y; the `+` of two lists is a concatenation. -/
def plotMain (qTrue qAux : List K) : List ℕ × List K := (List.range qTrue.length, qTrue ++ qAux)

end train

/-! ## Saving and loading -/

section files
variable {L β C : Type*} [DecidableEq L]

/-- `ConstrainedModel.save` (`constrained.py:1146-1185`); `sa` is the constrained solution (`None` before training: an
`AttributeError`), `metaText` the encoded metadata. The method has no `return` with a value. -/
def cSave (P : Platform L β) (empty : β) (pickle : SavedModel β → β) (metaText : β) (fs : L → Option (Node β))
    (sa : Option (SavedModel β)) (name dir : String) (pickleModel : Bool) : (L → Option (Node β)) × Outcome (Option String) :=
  let d := P.norm dir
  if P.isAbs d = false then (fs, .ret none)
  else if (fs (P.res d)).isNone then (fs, .ret none)
  else match sa with
    | none => (fs, .raised)
    | some x => match saSave P empty pickle fs x ("constrained_model-" ++ name) d pickleModel true with
      | (fs', .raised) => (fs', .raised)
      | (fs', .ret _) => match writeFile P empty fs' (P.join d ("constrained_model-" ++ name ++ "-metadata.json")) (some metaText) with
        | (fs'', true) => (fs'', .ret none)
        | (fs'', false) => (fs'', .raised)

/-- `ConstrainedModel.load` (`constrained.py:1187-1216`): whatever object is in the file. -/
def cLoad (P : Platform L β) (unpickle : β → Unpickled (SavedModel β ⊕ C)) (fs : L → Option (Node β)) (path : String) :
    Outcome (Option (SavedModel β ⊕ C)) :=
  let p := P.norm path
  if P.isAbs p = false then .ret none
  else match fs (P.res p) with
    | none => .ret none
    | some .dir => .raised
    | some (.file c) => match unpickle c with
      | .ok x => .ret (some x)
      | .pickleError => .ret none
      | .other => .raised

end files

end Esat
