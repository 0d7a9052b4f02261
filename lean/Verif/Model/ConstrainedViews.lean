import Verif.Model.Expressions
import Verif.Model.Constrained
import Verif.Model.Analysis

/-!
# Tables and figures of the constrained model (`esat/rotational/constrained.py:793-1144`)

The `plotly` figures are represented by the numbers and axis titles handed to them. Not modelled: colours (the list
`marker_line_colors` of lines 932-943 is computed but never used), time axes and resampling, the printed texts.
-/

namespace Esat

/-! ## `evaluate_constraints` -/

section tables
variable {K : Type*} [Field K] [LinearOrder K] {m n k : ℕ}

/-- A row of the table (`constrained.py:819-824`). -/
structure CRow (K : Type*) where
  /-- `Index` -/
  index : ℤ × ℤ
  /-- `Target` -/
  target : CTarget
  /-- `Type` -/
  kind : CKind K
  /-- `Base Value` -/
  base : K
  /-- `Target Value(s)`: a number or an interval -/
  shown : Option (K ⊕ K × K)
  /-- `Solution Value` -/
  value : K
  /-- `dQ` -/
  dQ : Option K

/-- `target_value` and `dQ` (`constrained.py:801-818`). -/
def cShown (rnd3 rnd4 : K → K) (kind : CKind K) (base : K) : Option (K ⊕ K × K) × Option K :=
  match kind with
  | .pullDown d => (none, some d)
  | .pullUp d => (none, some d)
  | .pullTo v d => (some (.inl v), some d)
  | .zero => (some (.inl 0), none)
  | .limits lo hi => (some (.inr (rnd3 lo, rnd3 hi)), none)
  | .base => (some (.inl (rnd4 base)), none)
  | .other => (none, none)

/-- The loop body of `evaluate_constraints` (`constrained.py:799-824`); `none` = an exception: no trained model, or an index outside
the matrix. -/
def cRowOf (rnd3 rnd4 : K → K) (W0 : Mat m k K) (H0 : Mat k n K) (sol : Option (Mat m k K × Mat k n K)) (c : Constraint K) :
    Option (CRow K) :=
  sol.bind fun s => (cEntry m n k c).map fun e =>
    let base := match e with | .inl p => H0 p.1 p.2 | .inr p => W0 p.1 p.2
    let value := match e with | .inl p => s.2 p.1 p.2 | .inr p => s.1 p.1 p.2
    ⟨c.index, c.target, c.kind, rnd4 base, (cShown rnd3 rnd4 c.kind base).1, rnd4 value, (cShown rnd3 rnd4 c.kind base).2⟩

/-- `evaluate_constraints` (`constrained.py:793-824`): the rows in the order of the dictionary. -/
def evaluateConstraints (rnd3 rnd4 : K → K) (W0 : Mat m k K) (H0 : Mat k n K) (sol : Option (Mat m k K × Mat k n K))
    (d : PyDict CLabel (Constraint K)) : Option (List (CRow K)) :=
  d.mapM fun p => cRowOf rnd3 rnd4 W0 H0 sol p.2

/-! ## `evaluate_expressions` -/

/-- One term: value times coefficient (`constrained.py:846-858`). -/
def evalTerm (W : Mat m k K) (H : Mat k n K) (mapping : PyDict (List Char) (ExprEntry K)) (i : ℕ) (l : List Char) : Option K :=
  (dictGet mapping l).bind fun en => (coefUsed en i).bind fun c => (evaluatedValue W H en).map fun v => v * c

/-- The last three columns of a row of the second table: `dQ`, `Base Eval`, `Solution Eval` (`constrained.py:842-864`). -/
def evalRow (rnd4 : K → K) (W0 : Mat m k K) (H0 : Mat k n K) (W : Mat m k K) (H : Mat k n K)
    (mapping : PyDict (List Char) (ExprEntry K)) (i : ℕ) (e : List (List Char) × K) : Option (K × K × K) :=
  (e.1.mapM (evalTerm W H mapping i)).bind fun v => (e.1.mapM (evalTerm W0 H0 mapping i)).map fun b =>
    (e.2, rnd4 b.sum, rnd4 v.sum)

/-- `evaluate_expressions` (`constrained.py:832-864`) for the parsed expressions (`None` before training: a `TypeError`; an empty
list: the `ValueError` of `np.max([])`) and the solution. -/
def evaluateExpressions (rnd4 : K → K) (W0 : Mat m k K) (H0 : Mat k n K) (W : Mat m k K) (H : Mat k n K)
    (parsed : Option (List (List (List Char) × K) × PyDict (List Char) (ExprEntry K))) : Option (List (K × K × K)) :=
  match parsed with
  | none => none
  | some ([], _) => none
  | some (e :: es, mapping) => (e :: es).zipIdx.mapM fun p => evalRow rnd4 W0 H0 W H mapping p.2 p.1

end tables

/-! ## Figures -/

section figures
variable {K : Type*} [Field K] [LinearOrder K] {m n k : ℕ}

/-- NumPy's `a[i]` for an axis of length `r`, counting from the end for negative numbers; `none` = `IndexError`. -/
def wrapAxis (r : ℕ) (i : ℤ) : Option (Fin r) :=
  if h : 0 ≤ i ∧ i.toNat < r then some ⟨i.toNat, h.2⟩
  else if h : i < 0 ∧ 0 ≤ i + r then some ⟨(i + r).toNat, by omega⟩
  else none

/-- The numbers of the profile figure (`constrained.py:912-931`) before rounding: concentrations and percentages of the base and of the
constrained model. -/
structure ProfileFig (n : ℕ) (K : Type*) where
  /-- grey bars -/
  baseConc : Fin n → K
  /-- green bars -/
  conc : Fin n → K
  /-- grey markers -/
  basePct : Fin n → Option K
  /-- red markers -/
  pct : Fin n → Option K

/-- `plot_profile` (`constrained.py:899-931`) of a trained model; `raised` = `IndexError`. -/
def plotProfile (tiny : K) (W0 : Mat m k K) (H0 : Mat k n K) (W : Mat m k K) (H : Mat k n K) (f : ℤ) :
    Outcome (ProfileFig n K) :=
  match wrapAxis k (f - 1) with
  | none => .raised
  | some a => .ret ⟨concSums tiny (fun i => W0 i a) (H0 a), concSums tiny (fun i => W i a) (H a), fingerprint H0 a, fingerprint H a⟩

/-- `plot_contributions` (`constrained.py:971-986`) of a trained model: base and constrained contributions. -/
def plotContributions (W0 W : Mat m k K) (f : ℤ) : Outcome ((Fin m → Option K) × (Fin m → Option K)) :=
  match wrapAxis k (f - 1) with
  | none => .raised
  | some a => .ret (profileContr (fun i => W0 i a), profileContr (fun i => W i a))

/-- `plot_profile_contributions` (`constrained.py:881-897`): `ret none` = a warning and no figure; with `None` the first figure
computes `None - 1`. -/
def plotBoth (tiny : K) (W0 : Mat m k K) (H0 : Mat k n K) (W : Mat m k K) (H : Mat k n K) (f : Option ℤ) :
    Outcome (Option (ProfileFig n K × (Fin m → Option K) × (Fin m → Option K))) :=
  match f with
  | none => .raised
  | some f =>
    if (k : ℤ) < f ∨ f < 1 then .ret none
    else match plotProfile tiny W0 H0 W H f, plotContributions W0 W f with
      | .ret p, .ret c => .ret (some (p, c))
      | _, _ => .raised

/-- `plot_factor_fingerprints` (`constrained.py:1003-1021`): the bars of both panels, from the last factor to the first; `colors` is the
length of the colour list (10 for `Viridis_r`), which is indexed with the number of the factor. -/
def plotFingerprints (colors : ℕ) (H0 H : Mat k n K) : Option (List ((Fin n → Option K) × (Fin n → Option K))) :=
  (List.finRange k).reverse.mapM fun a => ((List.range colors)[a.1]?).map fun _ => (fingerprint H0 a, fingerprint H a)

/-- A scatter plot with the numbers in the axis titles. -/
structure GSpaceFig (m : ℕ) (K : Type*) where
  /-- horizontal positions -/
  x : Fin m → Option K
  /-- vertical positions -/
  y : Fin m → Option K
  /-- number in the title of the horizontal axis -/
  xTitle : ℤ
  /-- number in the title of the vertical axis -/
  yTitle : ℤ

/-- `plot_g_space` of the constrained model (`constrained.py:1029-1087`), the series of the constrained model. -/
def plotGSpace (W : Mat m k K) (f1 f2 : Option ℤ) : Outcome (Option (GSpaceFig m K)) :=
  let bad : Option ℤ → Bool := fun f => match f with | none => false | some f => decide ((k : ℤ) < f ∨ f < 1)
  if bad f1 then .ret none
  else if bad f2 then .ret none
  else match f1, f2 with
    | some f1, some f2 =>
      match wrapAxis k (f1 - 1), wrapAxis k (f2 - 1) with
      | some a, some b => .ret (some ⟨gSpaceContr fun i => W i a, gSpaceContr fun i => W i b, f2, f1⟩)
      | _, _ => .raised
    | _, _ => .raised

/-- `plot_g_space` of the analysis of a model (`analysis.py:731-748`). -/
def plotGSpaceBase (W : Mat m k K) (f1 f2 : ℤ) : Outcome (Option (GSpaceFig m K)) :=
  if (k : ℤ) < f1 ∨ f1 < 1 then .ret none
  else if (k : ℤ) < f2 ∨ f2 < 1 then .ret none
  else match wrapAxis k (f1 - 1), wrapAxis k (f2 - 1) with
    | some a, some b => .ret (some ⟨gSpaceContr fun i => W i a, gSpaceContr fun i => W i b, f1, f2⟩)
    | _, _ => .raised

/-- The feature of the pie chart of the constrained model (`constrained.py:1101-1112`): numbers from one, `None` is the first; `none` =
a warning and no figure. -/
def pieFeature (n : ℕ) (f : Option ℤ) : Option ℤ :=
  match f with
  | none => some 0
  | some f => if f < 1 ∨ (n : ℤ) < f then none else some (f - 1)

/-- The feature of the pie chart of the analysis of a model (`analysis.py:772-783`): numbers from zero. -/
def pieFeatureBase (n : ℕ) (f : ℤ) : Option ℤ := if (n : ℤ) - 1 < f ∨ f < 0 then none else some f

end figures

end Esat
