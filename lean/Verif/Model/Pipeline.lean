import Verif.Model.DataHandler
import Verif.Model.SA
import Verif.Model.LsNmf

/-!
# From the loaded tables to the model

`V, U = data_handler.get_data(); SA(V=V, U=U, ...)` (`esat/cli/esat_cli.py:464-483`, `esat/main.py:81-95`, `esat/model/batch_sa.py:221-229`): the arrays of
`DataHandler.get_data` (`esat/data/datahandler.py:170-196`) as arguments of the constructor of the model (`esat/model/sa.py:58-140`).
-/

namespace Esat

/-- The rows handed over by `get_data` as an array of the given shape (`datahandler.py:193-196`). -/
def frameArray {K : Type*} (m n : ℕ) (rows : List (List (Option K))) : Mat m n (Option K) := fun i j => (rows.getD i.1 []).getD j.1 none

/-- `SA(V=V, U=U, factors=k, method=method)` for the arrays of `get_data`. -/
def modelOf {K R : Type*} [Field K] [LinearOrder K] (m n k : ℕ) (D : List (List (Option K)) × List (List (Option K))) (method : String) :
    SA m n k K R :=
  SA.construct k (frameArray m n D.1) ⟨m, n, frameArray m n D.2⟩ method

end Esat
