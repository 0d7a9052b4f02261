import Verif.Model.Batch
import Verif.Model.Training

/-!
# Model of the views of a batch

`BatchSA.details` (`esat/model/batch_sa.py:142-168`), `BatchAnalysis.plot_loss` and `plot_loss_distribution` (`esat/data/analysis.py:942-995`), the
commands `analysis-batch plot-loss` and `plot-distribution` (`esat/cli/esat_cli.py:298-337`) and `SA.summary` (`esat/model/sa.py:310-323`). The numbers
are those given to the figures and to the log before they are formatted; NaN is `none`. The data are not empty.
-/

namespace Esat

/-- What the views use of a trained model. -/
structure BatchResult (K : Type*) where
  /-- `Qtrue` -/
  qTrue : Option K
  /-- `Qrobust` -/
  qRobust : Option K
  /-- `q_list` -/
  qList : List (Option K)
  /-- `seed` -/
  seed : ℤ
  /-- `converged` -/
  converged : Bool
  /-- `converge_steps` -/
  steps : ℕ

/-- A curve of `plot_loss`. -/
structure LossCurve (K : Type*) where
  /-- the number in the name -/
  name : ℕ
  /-- `x` -/
  x : List ℕ
  /-- `y` -/
  y : List (Option K)

section
variable {K : Type*}

/-- `plot_loss` (`analysis.py:950-954`). -/
def lossCurves (results : List (Option (BatchResult K))) : List (LossCurve K) :=
  results.zipIdx.filterMap fun p => p.1.map fun r => ⟨p.2 + 1, List.range r.qList.length, r.qList⟩

/-- `plot_loss_distribution` (`analysis.py:973-985`): values of Q(true), of Q(robust), and the texts shown at the points. -/
def lossBoxes (results : List (Option (BatchResult K))) : List (Option K) × List (Option K) × List ℕ :=
  let l := results.zipIdx.filterMap fun p => p.1.map fun r => (r, p.2)
  (l.map fun p => p.1.qTrue, l.map fun p => p.1.qRobust, l.map Prod.snd)

/-- The lines of `details` after the parameters. -/
inductive DetailLine (K : Type*)
  /-- `Model: ...` (157-162) -/
  | model (number : ℕ) (q mse qr mser : Option K) (seed : ℤ) (converged : Bool) (steps : ℕ) (maxIter : ℤ)
  /-- `Results - Best Model: ...` (163-168) -/
  | best (number : ℤ) (q mse qr mser : Option K) (converged : Bool)

/-- `details` (`batch_sa.py:150-168`) with `size = V.size`; false after an exception (`None + 1`, an attribute of `None`, an index out of range). -/
def batchDetails [Field K] (size : ℕ) (maxIter : ℤ) (results : List (Option (BatchResult K))) (best : Option ℤ) : List (DetailLine K) × Bool :=
  if results.length > 0 then
    let lines := results.zipIdx.filterMap fun p => p.1.map fun r =>
      DetailLine.model (p.2 + 1) r.qTrue (r.qTrue.map (· / size)) r.qRobust (r.qRobust.map (· / size)) r.seed r.converged r.steps maxIter
    match best with
    | none => (lines, false)
    | some b =>
      match pyIndex results b with
      | some (some r) =>
        (lines ++ [.best (b + 1) r.qTrue (r.qTrue.map (· / size)) r.qRobust (r.qRobust.map (· / size)) r.converged], true)
      | _ => (lines, false)
  else ([], true)

/-- What a command of `analysis-batch` does. -/
inductive BatchCmdOut (β : Type*)
  /-- the directory cannot be made: a message (`esat_cli.py:309-313,330-334`) -/
  | message
  /-- an exception -/
  | raised
  /-- the figure -/
  | shown (fig : β)

/-- `plot-loss` and `plot-distribution` (`esat_cli.py:300-337`): `isThere` says whether the path exists, `made` what `os.mkdir` does to it otherwise
(`none` = an exception other than `FileNotFoundError`, `some false` = that exception), `batch` what `get_batchsa` gives for an existing directory;
a directory that was just made is empty, and reading the configuration raises. -/
def batchCmd {β : Type*} (isThere : Bool) (made : Option Bool) (batch : Option (List (Option (BatchResult K))))
    (view : List (Option (BatchResult K)) → β) : BatchCmdOut β :=
  if isThere then
    match batch with
    | some rs => .shown (view rs)
    | none => .raised
  else
    match made with
    | none => .raised
    | some false => .message
    | some true => .raised

end

/-- The model after a training with the compiled loop (`sa.py:417-426,466-470`): `q` and `qr` are Q(true) and Q(robust) of factors. -/
def trainedResult {σ K : Type*} (q qr : σ → Option K) (seed : ℤ) (r : RustState σ K) : BatchResult K :=
  ⟨q r.factors, qr r.factors, r.losses, seed, r.converged, r.convergeI⟩

end Esat
