import Verif.Model.PyDict
import Verif.Model.Constrained

/-!
# Model of the expressions of the constrained model (`esat/rotational/constrained.py:360-430,549-579,832-879`)

Texts are lists of characters. `int(...)` and `float(...)` are parameters (`none` = `ValueError`). The regular expressions of
the code only use character classes: they are modelled as splitting at (runs of) characters; texts contain no line breaks.
-/

namespace Esat

/-- `text.split(c)`. -/
def splitChar (c : Char) : List Char → List (List Char)
  | [] => [[]]
  | x :: xs =>
    if x = c then [] :: splitChar c xs
    else match splitChar c xs with
      | [] => [[x]]
      | w :: ws => (x :: w) :: ws

/-- `re.split(r"[…]+", text)`: pieces between maximal runs of characters in the class. -/
def splitRuns (p : Char → Bool) : List Char → List (List Char)
  | [] => [[]]
  | x :: xs =>
    if p x then
      match xs with
      | [] => [[], []]
      | y :: _ => if p y then splitRuns p xs else [] :: splitRuns p xs
    else match splitRuns p xs with
      | [] => [[x]]
      | w :: ws => (x :: w) :: ws

/-- `re.findall(r'\[(.*?)]', e)[0]`: from the first `[` to the next `]`; `none` = `IndexError`. -/
def firstBracket (e : List Char) : Option (List Char) :=
  match e.dropWhile (· ≠ '[') with
  | [] => none
  | _ :: rest => if ']' ∈ rest then some (rest.takeWhile (· ≠ ']')) else none

/-- `l[1:-1]`. -/
def inner {α : Type*} (l : List α) : List α := l.tail.dropLast

/-- One entry of `exp_mapping` (`constrained.py:566-571`). -/
structure ExprEntry (K : Type*) where
  /-- `coef` -/
  coef : List K
  /-- `exp_i` -/
  exprs : List ℕ
  /-- `index` -/
  index : ℤ × ℤ
  /-- `type` -/
  kind : List Char
  /-- `coef_index` -/
  col : ℕ
  deriving DecidableEq

section parse
variable {K : Type*} [Field K]

/-- State of the parsing loops: `exp_mapping`, `terms`. -/
structure ExprState (K : Type*) where
  /-- `exp_mapping` -/
  mapping : PyDict (List Char) (ExprEntry K)
  /-- `terms` -/
  terms : ℕ

/-- What the code reads off one term text (`constrained.py:561-565`): label, index, type, unsigned coefficient. -/
def readTerm (pint : List Char → Option ℤ) (pfloat : List Char → Option K) (e : List Char) :
    Option (List Char × (ℤ × ℤ) × List Char × K) :=
  (firstBracket e).bind fun t0 =>
    let t1 := splitRuns (fun c => c = ':' ∨ c = '|') t0
    (t1[1]?).bind fun s1 => (pint s1).bind fun i => (t1[3]?).bind fun s3 => (pint s3).bind fun j =>
      ((splitChar '*' e).head?).bind fun c => (pfloat c).bind fun x => (t1[2]?).map fun ty => (t0, (i, j), ty, x)

/-- Entering one term (`constrained.py:565-571`). -/
def enterTerm (st : ExprState K) (ei : ℕ) (label : List Char) (ix : ℤ × ℤ) (ty : List Char) (c : K) : ExprState K :=
  match dictGet st.mapping label with
  | none => ⟨dictSet st.mapping label ⟨[c], [ei], ix, ty, st.terms⟩, st.terms + 1⟩
  | some en => ⟨dictSet st.mapping label { en with coef := en.coef ++ [c], exprs := en.exprs ++ [ei] }, st.terms⟩

/-- The loop over the pieces of one expression (`constrained.py:559-576`): `neg_term`, labels so far. -/
def parsePieces (pint : List Char → Option ℤ) (pfloat : List Char → Option K) (ei : ℕ) :
    List (List Char) → Bool → ExprState K → List (List Char) → Option (ExprState K × List (List Char))
  | [], _, st, labels => some (st, labels)
  | e :: es, neg, st, labels =>
    if 1 < e.length then
      (readTerm pint pfloat e).bind fun t =>
        parsePieces pint pfloat ei es (decide (e = ['-'])) (enterTerm st ei t.1 t.2.1 t.2.2.1 (t.2.2.2 * if neg then -1 else 1))
          (labels ++ [t.1])
    else parsePieces pint pfloat ei es (decide (e = ['-'])) st labels

/-- One expression (`constrained.py:553-577`). -/
def parseExpression (pint : List Char → Option ℤ) (pfloat : List Char → Option K) (ei : ℕ) (text : List Char)
    (st : ExprState K) : Option (ExprState K × List (List Char) × K) :=
  let full := splitChar '=' text
  (full[1]?).bind fun rhs => ((splitChar ',' rhs)[1]?).bind fun d => (pfloat d).bind fun dQ => (full[0]?).bind fun lhs =>
    (parsePieces pint pfloat ei (inner (splitRuns (fun c => c = '(' ∨ c = ')') lhs)) false st []).map fun p => (p.1, p.2, dQ)

/-- `_map_expressions` (`constrained.py:549-579`): `expression_labeled` and `expression_mapped`. -/
def mapExpressions (pint : List Char → Option ℤ) (pfloat : List Char → Option K) :
    List (List Char) → ℕ → ExprState K → List (List (List Char) × K) →
      Option (List (List (List Char) × K) × PyDict (List Char) (ExprEntry K))
  | [], _, st, labeled => some (labeled, st.mapping)
  | t :: ts, ei, st, labeled =>
    (parseExpression pint pfloat ei t st).bind fun p => mapExpressions pint pfloat ts (ei + 1) p.1 (labeled ++ [p.2])

/-- `exp_details['coef'][exp_details['exp_i'].index(i)]` (`constrained.py:384-386`); `none` = an exception. -/
def coefUsed (en : ExprEntry K) (i : ℕ) : Option K :=
  if i ∈ en.exprs then en.coef[en.exprs.idxOf i]? else none

end parse

/-! ## Applying expressions -/

section apply
variable {K : Type*} [Field K] [LinearOrder K] {m n k : ℕ}

/-- The dQ search (`constrained.py:412-429`): evaluations that may accept left (101), current scale. The pull is multiplied by
`c = 0.98` after each rejected evaluation; after the last one it is replaced by zeros (scale 0). -/
def scaleLoop (dQ : K → K) (total c : K) : ℕ → K → K
  | 0, _ => 0
  | r + 1, s => if dQ s < total then s else scaleLoop dQ total c r (s * c)

/-- The matrices scaled. -/
def scaled {r c : ℕ} (s : K) (D : Mat r c K) : Mat r c K := fun i j => s * D i j

/-- The change of the loss the search looks at (`constrained.py:415-419`). -/
def exprDQ (V U : Mat m n K) (W0 : Mat m k K) (H0 : Mat k n K) (soft baseQ : K) (W : Mat m k K) (H : Mat k n K)
    (Dw : Mat m k K) (Dh : Mat k n K) : K :=
  qLoss V U (fun i a => W i a + Dw i a) (fun a j => H a j + Dh a j) +
    qAux soft W0 (fun i a => W i a + Dw i a) Dw H0 (fun a j => H a j + Dh a j) Dh - baseQ

/-- The final pull of `_apply_expressions` for the requested pull `(Dw, Dh)` and the summed limits. -/
def exprPull (V U : Mat m n K) (W0 : Mat m k K) (H0 : Mat k n K) (soft baseQ total : K) (W : Mat m k K) (H : Mat k n K)
    (Dw : Mat m k K) (Dh : Mat k n K) : Mat m k K × Mat k n K :=
  let s := scaleLoop (fun s => exprDQ V U W0 H0 soft baseQ W H (scaled s Dw) (scaled s Dh)) total (98 / 100) 101 1
  (scaled s Dw, scaled s Dh)

/-- The current value of an element (`constrained.py:376-379`); sample elements are written `factor:I|sample:J` and read at
`W[J, I]`; negative numbers count from the end. -/
def elementValue (W : Mat m k K) (H : Mat k n K) (en : ExprEntry K) : Option K :=
  if en.kind = "feature".toList then
    (axisIndex k en.index.1).bind fun a => (axisIndex n en.index.2).map fun j => H a j
  else (axisIndex m en.index.2).bind fun i => (axisIndex k en.index.1).map fun a => W i a

/-- The value read by `evaluate_expressions` (`constrained.py:852-855`): `W[ele_index]`. -/
def evaluatedValue (W : Mat m k K) (H : Mat k n K) (en : ExprEntry K) : Option K :=
  if en.kind = "feature".toList then
    (axisIndex k en.index.1).bind fun a => (axisIndex n en.index.2).map fun j => H a j
  else (axisIndex m en.index.1).bind fun i => (axisIndex k en.index.2).map fun a => W i a

/-- One row of `exp_A` as a function of the column, and the entry of `exp_B` (`constrained.py:371-389`); `none` = an
exception. -/
def exprRow (W : Mat m k K) (H : Mat k n K) (mapping : PyDict (List Char) (ExprEntry K)) (i : ℕ) :
    List (List Char) → (ℕ → K) → K → Option ((ℕ → K) × K)
  | [], row, b => some (row, b)
  | e :: es, row, b =>
    (dictGet mapping e).bind fun en => (elementValue W H en).bind fun v => (coefUsed en i).bind fun c =>
      exprRow W H mapping i es (fun x => if x = en.col then c else row x) (b + v)

end apply

end Esat
