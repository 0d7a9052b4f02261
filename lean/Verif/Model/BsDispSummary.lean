import Verif.Model.Displacement

/-!
# Model of the mean columns of BS-DISP (`esat/error/bs_disp.py:210-248`)

`Model/Displacement.lean` has the merged intervals (`bsCompile`), `Model/ErrorSummary.lean` the counters and tables. `R` is the set of rows
of the compiled results.
-/

namespace Esat

variable {R K : Type*}

/-- The averaged columns of one displacement run. -/
structure BsMeanRun (R K : Type*) where
  /-- column `profile` -/
  profile : R → K
  /-- column `conc` -/
  conc : R → K

/-- The runs read by the loop (`bs_disp.py:224-225`): the first of the dictionary, then the keys `1 … len-1`; `none` = `IndexError` or
`KeyError`. -/
def bsRead {D : Type*} (results : PyDict ℕ D) : Option (D × List D) :=
  match results with
  | [] => none
  | (_, d0) :: _ => ((List.range' 1 (results.length - 1)).mapM fun i => dictGet results i).map fun ds => (d0, ds)

/-- The mean columns `profiles` and `conc` and the column `profile` of the compiled results (`bs_disp.py:221-222,233,236,242-246`). -/
def bsMeans [Field K] (results : PyDict ℕ (BsMeanRun R K)) : Option ((R → K) × (R → K) × (R → K)) :=
  (bsRead results).map fun p =>
    (fun r => ((p.1 :: p.2).map fun d => d.profile r).sum / (p.1 :: p.2).length,
     fun r => ((p.1 :: p.2).map fun d => d.conc r).sum / (p.1 :: p.2).length,
     p.1.profile)

end Esat
