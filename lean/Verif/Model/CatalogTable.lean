import Verif.Model.FactorCatalog
import Verif.Model.Quantile

/-!
# Model of the reports of the factor catalog

`FactorCatalog.to_df` (`eval/factor_catalog.py:189-208`) and the numbers printed by `summary` (181-187) with `Factor.__repr__` (43-44). Arithmetic is exact;
`round` and `np.round` are rounding to the nearest number with the given digits, halves to the even one. An exception is `none`. Not modelled: the text around
the numbers.
-/

namespace Esat

variable {X K : Type*} [Field K] [LinearOrder K] [FloorRing K]

/-- A row of the table (`factor_catalog.py:202-205`). -/
structure CatRow (K : Type*) where
  /-- `factor` -/
  factor : ℕ
  /-- `count` -/
  count : ℕ
  /-- `% occurrence` -/
  occ : K
  /-- `mean corr`; `none` = NaN -/
  corr : Option K
  deriving DecidableEq

/-- The row of an entry: `round(100 * len(f.model)/self.model_count, 2)`, `len(f.model)`, `round(np.mean(f.correlation), 4)` (`factor_catalog.py:203-205`). -/
def catRow (c : Catalog X K) (p : ℕ × CatEntry X K) : CatRow K :=
  ⟨p.1, p.2.models.length, roundTo 2 (100 * (p.2.models.length : K) / (c.modelCount : K)), (listMean p.2.corrs).map (roundTo 4)⟩

/-- The rows in the order of the dictionary (`factor_catalog.py:199-206`); the division by a model count of zero raises. -/
def catRows (c : Catalog X K) : Option (List (CatRow K)) :=
  if c.modelCount = 0 ∧ c.factors ≠ [] then none else some (c.factors.map (catRow c))

/-- `t` is a possible result of `to_df`: `sort_values(by='% occurrence', ascending=False)` uses quicksort, which may put rows with the same value in any
order (`factor_catalog.py:207`). -/
def CatTable (c : Catalog X K) (t : List (CatRow K)) : Prop :=
  ∃ rows, catRows c = some rows ∧ t.Perm rows ∧ t.Pairwise fun a b => b.occ ≤ a.occ

/-- The numbers printed by `summary` (`factor_catalog.py:185-187`, 43-44), in the order of the dictionary: the count, the mean correlation with four digits and the
percentage without digits. -/
def catSummary (c : Catalog X K) : Option (List (ℕ × Option K × K)) :=
  if c.modelCount = 0 ∧ c.factors ≠ [] then none
  else some (c.factors.map fun p => (p.2.models.length, (listMean p.2.corrs).map (roundTo 4), roundTo 0 (100 * (p.2.models.length : K) / (c.modelCount : K))))

end Esat
