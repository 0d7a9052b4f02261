import Verif.Model.ConstraintLists
import Mathlib.Algebra.BigOperators.Group.List.Basic

/-!
# Model of the fingerprints of `CompareAnalyzer`

`esat/data/test_tools.py`: the constructor (12-43), `_standardize` (45-49) on frames, and `plot_fingerprints` (81-127). A frame is its column labels with the
numbers below them; column labels are not repeated. A figure is its kind, the number shown in the title and the bars in the order they are stacked. An exception is
`none`. Not modelled: the rounding of the number in the title, the labels on the axis, layout.
-/

namespace Esat

/-- `f"Factor {i}"`. -/
def factorName (i : ℕ) : List Char := "Factor ".toList ++ natText i

/-- A frame of profiles: column labels, and the value of a column for each feature. -/
structure ProfFrame (n : ℕ) (K : Type*) where
  /-- `columns` -/
  cols : List (List Char)
  /-- the values -/
  val : List Char → Fin n → K

/-- The attributes used (`test_tools.py:12-43`). -/
structure CompareObj (n : ℕ) (K : Type*) where
  /-- `pmf_profile_df` -/
  pmf : ProfFrame n K
  /-- `ls_profile_df` -/
  ls : ProfFrame n K
  /-- `ws_profile_df` -/
  ws : ProfFrame n K
  /-- `ls_mapping` -/
  lsMap : List (List Char)
  /-- `ws_mapping` -/
  wsMap : List (List Char)

/-- `factor_n` and `factor_columns` (`test_tools.py:41-42`): one column less than in the PMF frame, numbered from one. -/
def compareColumns {n : ℕ} {K : Type*} (p : ProfFrame n K) : List (List Char) := (List.range' 1 (p.cols.length - 1)).map factorName

/-- `int(name.split(' ')[1])` (`test_tools.py:95,97`) for digits; `none` = an exception. -/
def secondNumber (name : List Char) : Option ℕ :=
  if ' ' ∈ name then
    let w := ((name.dropWhile (· ≠ ' ')).drop 1).takeWhile (· ≠ ' ')
    if w ≠ [] ∧ w.all Char.isDigit then some (w.foldl (fun a c => 10 * a + (c.toNat - '0'.toNat)) 0) else none
  else none

section
variable {n : ℕ} {K : Type*} [Field K] [LinearOrder K]

/-- One column of `_standardize` (`test_tools.py:45-46`): divided by the sum over the factor columns; `none` = NaN or infinite. -/
def stdColumn (columns : List (List Char)) (f : ProfFrame n K) (c : List Char) (j : Fin n) : Option K :=
  let s := (columns.map fun c => f.val c j).sum
  if s = 0 then none else some (f.val c j / s)

/-- One bar (`test_tools.py:91-97`): the number in its name and its heights; the species column and the column of the factor have to exist. -/
def fingerprintBar (columns : List (List Char)) (f : ProfFrame n K) (c : List Char) : Option (ℕ × (Fin n → Option K)) :=
  if "species".toList ∈ f.cols ∧ c ∈ columns then
    (secondNumber c).map fun q => (q, fun j => (stdColumn columns f c j).map fun x => 100 * x)
  else none

/-- A figure: kind, number in the title, bars. -/
structure FpFigure (n : ℕ) (K : Type*) where
  /-- `PMF`, `LS-NMF`, `WS-NMF` -/
  kind : String
  /-- R2 -/
  r2 : Option K
  /-- the bars -/
  bars : List (ℕ × (Fin n → Option K))

/-- `plot_fingerprints` (`test_tools.py:81-127`): the three figures in the order they are shown. -/
def cmpFingerprints (o : CompareObj n K) (lsR2 wsR2 : K) : Option (List (FpFigure n K)) :=
  let columns := compareColumns o.pmf
  if (∀ c ∈ columns, c ∈ o.pmf.cols) ∧ (∀ c ∈ columns, c ∈ o.ls.cols) ∧ (∀ c ∈ columns, c ∈ o.ws.cols) then
    ((List.range columns.length).reverse.mapM fun f =>
      (columns[f]?.bind (fingerprintBar columns o.pmf)).bind fun p =>
      (o.wsMap[f]?.bind (fingerprintBar columns o.ws)).bind fun w =>
      (o.lsMap[f]?.bind (fingerprintBar columns o.ls)).map fun l => (p, l, w)).map fun b =>
    [⟨"PMF", none, b.map (·.1)⟩, ⟨"LS-NMF", if 0 < lsR2 then some lsR2 else none, b.map (·.2.1)⟩,
      ⟨"WS-NMF", if 0 < wsR2 then some wsR2 else none, b.map (·.2.2)⟩]
  else none

end

end Esat
