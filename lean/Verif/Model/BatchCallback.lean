import Verif.Model.Batch

/-!
# The progress callback of a batch

`BatchSA.__init__` keeps the callback if it is callable (`batch_sa.py:118`). With `parallel=True` the callback is one of the
arguments of every task of `pool.starmap` (`batch_sa.py:248-252,257`), although the tasks only use it when there is no queue
(`batch_sa.py:484`), which is when there is no callback. `Pool` pickles the arguments; an argument that cannot be
pickled fails its task and `starmap` raises. What the calls report is in `Model/BatchProgress.lean`.
-/

namespace Esat

/-- The argument `progress_callback`. -/
inductive CbArg where
  /-- `None` or another object that cannot be called -/
  | notCallable
  /-- something that can be called; whether `pickle` accepts it (a lambda or a local function is refused) -/
  | callable (picklable : Bool)
  deriving DecidableEq

/-- `progress_callback if callable(progress_callback) else None` (`batch_sa.py:118`): whether it can be pickled, if it is kept. -/
def keptCb : CbArg → Option Bool
  | .notCallable => none
  | .callable p => some p

section
variable {σ α K G : Type*} [LinearOrder K]

/-- `_train_task` with its pickled arguments (`batch_sa.py:248-252,475-496`). -/
def trainTaskCb (cb : Option Bool) (E : BatchEnv σ α K G) (cfg : BatchCfg α) (p : ℕ × σ) : Option (ℕ × σ) :=
  if cb = some false then none else trainTask E cfg p

/-- `train` (`batch_sa.py:170-352`) of a batch with the given callback. -/
def batchTrain (E : BatchEnv σ α K G) (cfg : BatchCfg α) (parallel : Bool) (cb : CbArg) (order : List ℕ) (tooLong : ℕ → Bool)
    (prev : List (Option σ)) (g : G) : BatchOut σ G :=
  if parallel then
    match prepare E cfg cfg.models 1 g with
    | (none, g') => ⟨false, prev, none, g'⟩
    | (some tasks, g') =>
      match starmap (trainTaskCb (keptCb cb) E cfg) tasks order with
      | none => ⟨false, prev, none, g'⟩
      | some res => finishBatch cfg prev g'
          (collectResults E cfg res (List.replicate (res.length + 1) none) (none, -1))
  else batchSequential E cfg tooLong g

end

end Esat
