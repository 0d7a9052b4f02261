import Verif.Model.PyDict
import Verif.Model.ConstraintLists
import Mathlib.Data.String.Basic

/-!
# Model of the runtime evaluations (`eval/runtime_test.py`, `eval/runtime_optimization.py`)

The measured times and losses are arbitrary numbers. The JSON file of the results is the dictionary itself (JSON keeps the order
of the keys, texts and numbers). Plotting is modelled up to the lists of points handed to plotly.
-/

namespace Esat

section runtime
variable {K : Type*}

/-- One entry of `runtime_analysis.json`; `values` holds `{method}-runtime` and `{method}-Q`. -/
structure RunEntry (K : Type*) where
  /-- `dataset` -/
  dataset : String
  /-- `factors` -/
  factors : ℕ
  /-- the other keys -/
  values : PyDict String K

/-- `run_key = f"{dataset}-{factors}"` (`runtime_test.py:122`). -/
def runKey (d : String) (f : ℕ) : String := String.ofList (d.toList ++ '-' :: natText f)

/-- One finished batch: data set, number of factors, method, runtime, best loss. -/
structure RunDone (K : Type*) where
  /-- `dataset` -/
  dataset : String
  /-- `factors` -/
  factors : ℕ
  /-- `method` -/
  method : String
  /-- `runtime` -/
  runtime : K
  /-- `current_q` -/
  q : K

/-- `current_results[run_key].update({k: v})` for all keys of the new entry (`runtime_test.py:150-151`). -/
def updateEntry (e : RunEntry K) (r : RunDone K) : RunEntry K :=
  ⟨r.dataset, r.factors, dictSet (dictSet e.values (r.method ++ "-runtime") r.runtime) (r.method ++ "-Q") r.q⟩

/-- `dict(sorted(current_results.items()))` (`runtime_test.py:157`): the keys differ, so only they are compared. -/
def sortKeys {β : Type*} (d : PyDict String β) : PyDict String β := d.mergeSort fun a b => decide (a.1 ≤ b.1)

/-- Storing one result (`runtime_test.py:136-158`); a missing file is the empty dictionary. -/
def recordRun (cur : PyDict String (RunEntry K)) (r : RunDone K) : PyDict String (RunEntry K) :=
  sortKeys (dictSet cur (runKey r.dataset r.factors)
    (updateEntry ((dictGet cur (runKey r.dataset r.factors)).getD ⟨r.dataset, r.factors, []⟩) r))

/-- The script: one batch after the other, starting without a file (`runtime_test.py:80-81,112-158`). -/
def recordRuns (rs : List (RunDone K)) : PyDict String (RunEntry K) := rs.foldl recordRun []

/-- The methods of the plot (`runtime_test.py:30`). -/
def plotMethods : List String := ["ls-nmf", "ws-nmf"]

/-- `plot_data[dataset]` after the check for the data set (`runtime_test.py:27-28`). -/
def ensureKey {κ β : Type*} [DecidableEq κ] (d : PyDict κ (List β)) (key : κ) : PyDict κ (List β) :=
  if (dictGet d key).isSome then d else dictSet d key []

/-- The body of the loop over the methods (`runtime_test.py:31-35`). -/
def addPoint (e : RunEntry K) (pd : PyDict String (PyDict String (List (ℕ × K)))) (m : String) :
    PyDict String (PyDict String (List (ℕ × K))) :=
  match dictGet e.values (m ++ "-runtime") with
  | none => pd
  | some r =>
    let md := (dictGet pd e.dataset).getD []
    dictSet pd e.dataset (dictSet md m ((dictGet md m).getD [] ++ [(e.factors, r)]))

/-- The loop over the results (`runtime_test.py:23-35`). -/
def plotData (cur : PyDict String (RunEntry K)) : PyDict String (PyDict String (List (ℕ × K))) :=
  cur.foldl (fun pd p => plotMethods.foldl (addPoint p.2) (ensureKey pd p.2.dataset)) []

/-- The traces of the figure (`runtime_test.py:40-50`): data set, method, points in the (stable) order of the factors. -/
def runTraces (cur : PyDict String (RunEntry K)) : List (String × String × List (ℕ × K)) :=
  (plotData cur).flatMap fun p => p.2.filterMap fun q =>
    if q.2.isEmpty then none else some (p.1, q.1, q.2.mergeSort fun a b => decide (a.1 ≤ b.1))

/-- The clean up at the start of the script (`runtime_test.py:80-83`): the second test asks for the file that has just been
removed. The arguments tell whether the results and the figure exist. -/
def runtimeCleanup (results figure : Bool) : Bool × Bool :=
  let results' := if results then false else results
  (results', if results' then false else figure)

/-- One row of `results` in `benchmark_sa_on` (`runtime_optimization.py:45-53`). -/
structure BenchRow (K : Type*) where
  /-- `size` -/
  size : ℕ
  /-- `gpu` -/
  gpu : Bool
  /-- `time` -/
  time : K

/-- The rows in the order in which they are produced (`runtime_optimization.py:15-53`); `t i gpu` is the measured time of the
`i`-th entry of `sizes`. -/
def benchRows (t : ℕ → Bool → K) (sizes : List ℕ) : List (BenchRow K) :=
  sizes.zipIdx.flatMap fun p => [false, true].map fun g => ⟨p.1, g, t p.2 g⟩

/-- The two lines of the figure (`runtime_optimization.py:57-59`): the sorted sizes, and for each the time of the first matching
row; `none` = `StopIteration`. -/
def benchLines (rows : List (BenchRow K)) : Option (List ℕ × List K × List K) :=
  let xs := (rows.map (·.size)).dedup.mergeSort
  (xs.mapM fun s => (rows.find? fun r => decide (r.size = s) && r.gpu).map (·.time)).bind fun g =>
    (xs.mapM fun s => (rows.find? fun r => decide (r.size = s) && !r.gpu).map (·.time)).map fun c => (xs, c, g)

end runtime

end Esat
