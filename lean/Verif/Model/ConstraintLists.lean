import Verif.Model.Constrained
import Mathlib.Data.Nat.Digits.Defs

/-!
# Model of the names of constraints and of the list of expressions

The labels of `ConstrainedModel.add_constraint` as texts, `remove_constraint`, `list_constraints` (`esat/rotational/constrained.py:213-272`), and `add_expression`,
`list_expressions`, `remove_expression` (`constrained.py:274-320`). `Model/Constrained.lean` keeps the numbers of a label instead of the text; here the dictionary has texts
as keys, and `remove_constraint` gets any text. A line of a listing is represented by the label and the constraint it describes (`constrained.py:79-114`).
-/

namespace Esat

/-- The character of a digit. -/
def digitChar (d : ℕ) : Char := Char.ofNat ('0'.toNat + d)

/-- `str(n)` of a natural number. -/
def natText (n : ℕ) : List Char := if n = 0 then ['0'] else ((Nat.digits 10 n).reverse).map digitChar

/-- `str(i)`, as in `f"{i}"`. -/
def intText : ℤ → List Char
  | .ofNat n => natText n
  | .negSucc n => '-' :: natText (n + 1)

/-- The label (`constrained.py:213,224,235`). -/
def labelText : CLabel → List Char
  | .feature i j => "factor:".toList ++ (intText i ++ "|feature:".toList ++ intText j)
  | .sample i j => "factor:".toList ++ (intText i ++ "|sample:".toList ++ intText j)
  | .blank => []

/-- `add_constraint` with the text as key (`constrained.py:213-249`). -/
def addConstraintText {K : Type*} (m n k : ℕ) (d : PyDict (List Char) (Constraint K)) (c : Constraint K) : PyDict (List Char) (Constraint K) × Bool :=
  if cIndexOk m n k c = false then (d, false)
  else if d.any (fun p => p.1 = labelText (cLabel c)) then (d, false)
  else (dictSet d (labelText (cLabel c)) c, true)

/-- A call. -/
inductive CTextOp (K : Type*)
  /-- `add_constraint` -/
  | add (c : Constraint K)
  /-- `remove_constraint` of any text -/
  | remove (label : List Char)

/-- One call: the dictionary and the result (`none` = `KeyError`; `remove_constraint` returns nothing, here `true`). -/
def cTextStep {K : Type*} (m n k : ℕ) (d : PyDict (List Char) (Constraint K)) : CTextOp K → PyDict (List Char) (Constraint K) × Option Bool
  | .add c => ((addConstraintText m n k d c).1, some (addConstraintText m n k d c).2)
  | .remove l =>
    match dictPop d l with
    | some d' => (d', some true)
    | none => (d, none)

/-- The dictionary after a history of calls on a new model. -/
def cTextRun {K : Type*} (m n k : ℕ) (ops : List (CTextOp K)) : PyDict (List Char) (Constraint K) :=
  ops.foldl (fun d op => (cTextStep m n k d op).1) []

/-- The number and the lines logged by `list_constraints` (`constrained.py:265-272`). -/
def listConstraints {K : Type*} (d : PyDict (List Char) (Constraint K)) : ℕ × List (List Char × Constraint K) :=
  (d.length, d.map fun p => (p.1, p.2))

/-! ### Expressions -/

/-- A call. -/
inductive ExprOp (T : Type*)
  /-- `add_expression`: no check (`constrained.py:274-298`) -/
  | add (text : T)
  /-- `remove_expression` -/
  | remove (i : ℤ)

/-- One call (`constrained.py:297,319-320`). -/
def exprStep {T : Type*} (l : List T) : ExprOp T → List T
  | .add t => l ++ [t]
  | .remove i => if 0 ≤ i ∧ i < l.length then l.eraseIdx i.toNat else l

/-- The expressions after a history of calls on a new model. -/
def exprRun {T : Type*} (ops : List (ExprOp T)) : List T := ops.foldl exprStep []

/-- The lines logged by `list_expressions` (`constrained.py:300-307`). -/
def listExpressions {T : Type*} (l : List T) : List (ℕ × T) := l.zipIdx.map fun p => (p.2, p.1)

end Esat
