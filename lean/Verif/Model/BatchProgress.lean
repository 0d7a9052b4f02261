import Verif.Model.TrainLoop

/-!
# Model of the progress reports of a batch

`BatchSA.train` with a progress callback (`esat/model/batch_sa.py:189-267,279-303`), the task of a worker process
(`_train_task`, lines 475-496) and the listener thread (`_progress_listener`, lines 536-541).

In the parallel mode the worker processes put their reports on a queue shared through a manager, a thread of the main
process takes them off and calls the callback, and the main process puts `"DONE"` once the pool is done and joins the
thread.  The three kinds of actors run concurrently; the model is a transition system whose steps are the atomic queue
operations, in any order the program allows.  Which workers run at the same time depends on the number of cores and on
how `starmap` divides the tasks; the model lets all of them run, which only adds executions.  The queue is first in,
first out.  Messages of the logging queue, the start of the processes and the pickling of the arguments are not
modelled.
-/

namespace Esat

/-- A message on the progress queue: the report of a model (lines 480-482) or `"DONE"` (line 263). -/
inductive ProgMsg where
  /-- `progress_queue.put(args)`, the first of the arguments being the model -/
  | report (model : ℕ) (r : Report)
  /-- `progress_queue.put("DONE")` -/
  | done
  deriving DecidableEq, Repr

/-- Where the main process is. -/
inductive MainPhase where
  /-- in `pool.starmap` (line 257) -/
  | training
  /-- in `progress_listener.join()` (line 264) -/
  | joining
  /-- past the join (line 265) -/
  | joined
  /-- in the exception handler after `starmap` raised (lines 348-350) -/
  | failed
  deriving DecidableEq, Repr

/-- The state of a batch that is trained in parallel with a progress callback. -/
structure ProgState where
  /-- by model: the reports its training has still to make -/
  todo : ℕ → List Report
  /-- `progress_queue` -/
  queue : List ProgMsg
  /-- the calls of the callback so far, oldest first -/
  calls : List (ℕ × Report)
  /-- whether the listener thread is alive -/
  listening : Bool
  /-- the main process -/
  main : MainPhase

/-- Before the pool is started, `reports i` being the reports of model `i` (lines 210-217). -/
def ProgState.init (reports : ℕ → List Report) : ProgState :=
  { todo := reports, queue := [], calls := [], listening := true, main := .training }

/-- One atomic step. `raises cs` says whether the last of the calls `cs` raises an exception, the callback having been
called with `cs` so far. -/
inductive ProgStep (models : ℕ) (raises : List (ℕ × Report) → Bool) : ProgState → ProgState → Prop
  /-- `queue_callback` in a worker (lines 480-482), called from the compiled loop -/
  | send (s : ProgState) (i : ℕ) (r : Report) (rest : List Report) (hi : 1 ≤ i ∧ i ≤ models)
      (hm : s.main = .training) (ht : s.todo i = r :: rest) :
      ProgStep models raises s
        { s with todo := Function.update s.todo i rest, queue := s.queue ++ [.report i r] }
  /-- `pool.starmap` returns, `progress_queue.put("DONE")` (lines 257-263) -/
  | finish (s : ProgState) (hm : s.main = .training) (ht : ∀ i, 1 ≤ i → i ≤ models → s.todo i = []) :
      ProgStep models raises s { s with queue := s.queue ++ [.done], main := .joining }
  /-- `callback(*msg)` in the listener (line 541); an exception ends the thread -/
  | deliver (s : ProgState) (i : ℕ) (r : Report) (rest : List ProgMsg) (hl : s.listening = true)
      (hq : s.queue = .report i r :: rest) :
      ProgStep models raises s
        { s with queue := rest, calls := s.calls ++ [(i, r)], listening := !raises (s.calls ++ [(i, r)]) }
  /-- `if msg == "DONE": break` (lines 539-540) -/
  | stop (s : ProgState) (rest : List ProgMsg) (hl : s.listening = true) (hq : s.queue = .done :: rest) :
      ProgStep models raises s { s with queue := rest, listening := false }
  /-- `progress_listener.join()` returns (line 264) -/
  | join (s : ProgState) (hm : s.main = .joining) (hl : s.listening = false) :
      ProgStep models raises s { s with main := .joined }
  /-- an exception of a worker is raised by `pool.starmap` (lines 257, 348) -/
  | fail (s : ProgState) (hm : s.main = .training) :
      ProgStep models raises s { s with main := .failed }

/-- The states of all executions. -/
inductive ProgReach (models : ℕ) (raises : List (ℕ × Report) → Bool) (reports : ℕ → List Report) : ProgState → Prop
  /-- the start -/
  | init : ProgReach models raises reports (ProgState.init reports)
  /-- one more step -/
  | step (s s' : ProgState) : ProgReach models raises reports s → ProgStep models raises s s' →
      ProgReach models raises reports s'

/-- The calls of the callback in the sequential mode (lines 283-303): the compiled loop calls it directly and drops the
result of the call, so that an exception changes nothing (`let _ = cb.call1(...)`, `rust/lib.rs:391,762`). -/
def seqProgress (models : ℕ) (reports : ℕ → List Report) : List (ℕ × Report) :=
  (List.range models).flatMap fun k => (reports (k + 1)).map fun r => (k + 1, r)

end Esat
