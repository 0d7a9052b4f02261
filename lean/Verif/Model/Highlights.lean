import Verif.Model.ConstrainedViews

/-!
# Model of the highlighted elements of the profile figure and of the printed results (`esat/rotational/constrained.py`)

Losses are exact numbers; the texts of numbers are not modelled.
-/

namespace Esat

/-- The colours of the edges of the bars (`constrained.py:932-943,952`). -/
inductive EdgeColour
  /-- `rgb(125,220,157)` -/
  | plain
  /-- `rgb(255,44,44)`, for elements of an expression -/
  | expression
  /-- `rgb(122,44,255)`, for constrained elements -/
  | constraint
  deriving DecidableEq, Repr

/-- `l[i] = v` of a list; `none` = `IndexError`. -/
def pySet {α : Type*} (l : List α) (i : ℤ) (v : α) : Option (List α) := (wrapAxis l.length i).map fun j => l.set j.1 v

section highlights
variable {K : Type*}

/-- The text `feature`. -/
def featureText : List Char := ['f', 'e', 'a', 't', 'u', 'r', 'e']

/-- The body of the loop over the expressions (`constrained.py:934-938`); `f` is the index of the factor, the test is
`'feature' in factor_element`. -/
def markExpression (f : ℤ) (l : List EdgeColour) (p : List Char × ExprEntry K) : Option (List EdgeColour) :=
  if featureText <:+: p.1 ∧ p.2.index.1 = f then pySet l p.2.index.2 .expression else some l

/-- The body of the loop over the constraints (`constrained.py:941-942`), given by `constraint_type` and `index`: it compares the type, not
the target. -/
def markConstraint (f : ℤ) (l : List EdgeColour) (c : String × (ℤ × ℤ)) : Option (List EdgeColour) :=
  if c.1 = "feature" ∧ c.2.1 = f then pySet l c.2.2 .constraint else some l

/-- A loop that stops with the first exception. -/
def markAll {α : Type*} (step : List EdgeColour → α → Option (List EdgeColour)) : List α → List EdgeColour → Option (List EdgeColour)
  | [], l => some l
  | x :: xs, l => (step l x).bind (markAll step xs)

/-- `marker_line_colors` (`constrained.py:932-942`). -/
def markerLineColours (features : ℕ) (f : ℤ) (mapped : PyDict (List Char) (ExprEntry K)) (cs : List (String × (ℤ × ℤ))) : Option (List EdgeColour) :=
  (markAll (markExpression f) mapped (List.replicate features .plain)).bind (markAll (markConstraint f) cs)

variable [Field K] [LinearOrder K] {m n k : ℕ}

/-- `plot_profile` (`constrained.py:899-959`) of a trained model: the numbers of the figure and the colour of the edges of the bars of the
constrained model, which is written out in the call (`constrained.py:952-953`). -/
def profileFigure (tiny : K) (W0 : Mat m k K) (H0 : Mat k n K) (W : Mat m k K) (H : Mat k n K) (features : ℕ)
    (mapped : PyDict (List Char) (ExprEntry K)) (cs : List (String × (ℤ × ℤ))) (f : ℤ) : Outcome (ProfileFig n K × (ℕ → EdgeColour)) :=
  match plotProfile tiny W0 H0 W H f with
  | .raised => .raised
  | .ret fig =>
    match markerLineColours features (f - 1) mapped cs with
    | none => .raised
    | some _ => .ret (fig, fun _ => .plain)

end highlights

end Esat
