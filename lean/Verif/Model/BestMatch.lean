import Verif.Model.FactorCompare

/-!
# The best match of each base factor (`eval/factor_comparison.py:523-566`)

`FactorCompareV2.calculate_correlation_matrix` keeps, besides the whole matrices, the best value of each row and its column. A value `none` is NaN or
infinite, for which the comparisons are false.
-/

namespace Esat

variable {K : Type*} [LinearOrder K]

/-- `corr`, `corr_mapping` and `emc`, `emc_mapping` (`factor_comparison.py:528-529,538-539,549-551,555-557`) of one base factor. -/
def bestUp [Zero K] (vals : List (Option K)) : K × ℤ :=
  vals.zipIdx.foldl (fun s v => match v.1 with
    | some x => if s.1 < x then (x, (v.2 : ℤ)) else s
    | none => s) (0, -1)

/-- `raae`, `raae_mapping` (`factor_comparison.py:533-534,552-554`) of one base factor; the value `none` is the initial infinity. -/
def bestDown (vals : List (Option K)) : Option K × ℤ :=
  vals.zipIdx.foldl (fun s v => match v.1, s.1 with
    | some x, some b => if x < b then (some x, (v.2 : ℤ)) else s
    | some x, none => (some x, (v.2 : ℤ))
    | none, _ => s) (none, -1)

end Esat
