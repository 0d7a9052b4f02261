import Verif.Model.LsNmf
import Mathlib.Order.Basic

/-!
# Model of the training loops

* `rustLoop` – the iteration of `ls_nmf_update_cpu` (`rust/lib.rs:353-398`) and `ws_nmf_update_cpu`
  (`rust/lib.rs:693-769`); the two loops differ only in the update of the factors, which is a parameter (`step`).
* `pyLoop` – the Python loop of `SA.train` (`esat/model/sa.py:430-464`).

The factor state is abstract (`σ`), `step u s` is one update, `u` telling whether H is updated as well.  A loss is
`Option K`, `none` standing for NaN; the clock that throttles progress callbacks is an arbitrary oracle.  The progress
bar and terminal output are not modelled.
-/

namespace Esat

/-- Parameters of a training run (`sa.py:325-336`, `lib.rs:202-208`). `i32` parameters are unbounded integers here. -/
structure LoopCfg (K : Type*) where
  /-- `max_iter` -/
  maxIter : ℤ
  /-- `converge_delta` -/
  delta : K
  /-- `converge_n` -/
  convergeN : ℤ
  /-- `hold_h` / `static_h` -/
  holdH : Bool
  /-- `delay_h` -/
  delayH : ℤ

/-- `front - back < converge_delta` on losses, NaN comparing false (`lib.rs:372`, `sa.py:452-453`). -/
def lossDrop {K : Type*} [Field K] [LinearOrder K] (front back : Option K) (delta : K) : Bool :=
  match front, back with
  | some a, some b => decide (a - b < delta)
  | _, _ => false

/-- One call of the progress callback, reduced to the iteration index and the `completed` flag
(`lib.rs:389-392,760-763`). -/
structure Report where
  /-- iteration index `i` -/
  iter : ℕ
  /-- the `completed` argument -/
  completed : Bool
  deriving DecidableEq, Repr

/-- Mutable variables of the compiled loop (`lib.rs:319-351`). -/
structure RustState (σ K : Type*) where
  /-- `new_w`, `new_h` -/
  factors : σ
  /-- `q` -/
  q : Option K
  /-- `converged` -/
  converged : Bool
  /-- `converge_i` -/
  convergeI : ℕ
  /-- `q_list` -/
  window : List (Option K)
  /-- `q_list_full` -/
  losses : List (Option K)
  /-- progress callback invocations so far, oldest first -/
  reports : List Report

section
variable {σ K : Type*} [Field K] [LinearOrder K]

/-- Initial values (`lib.rs:319-323,350-351`). -/
def rustInit (s : σ) : RustState σ K :=
  { factors := s, q := some 0, converged := false, convergeI := 0, window := [], losses := [], reports := [] }

/-- `!hold_h || (delay_h > 0 && i > delay_h)` (`lib.rs:354,708`). -/
def rustUpdatesH (cfg : LoopCfg K) (i : ℕ) : Bool :=
  !cfg.holdH || (decide (0 < cfg.delayH) && decide (cfg.delayH < i))

/-- One pass through the loop body (`lib.rs:354-394`, `695-765`). `clock i` is the outcome of
`now.duration_since(last_update) >= update_interval` at iteration `i`. -/
def rustBody (step : Bool → σ → σ) (loss : σ → Option K) (cfg : LoopCfg K) (clock : ℕ → Bool) (i : ℕ)
    (st : RustState σ K) : RustState σ K :=
  let s' := step (rustUpdatesH cfg i) st.factors
  let q := loss s'
  let window := st.window ++ [q]
  let losses := st.losses ++ [q]
  let full := decide (cfg.convergeN ≤ (window.length : ℤ))
  let converged := if full && lossDrop (window.headD none) q cfg.delta then true else st.converged
  let window := if full then window.tail else window
  let last := decide ((i : ℤ) + 1 = cfg.maxIter)
  let reports := if clock i || converged || last
    then st.reports ++ [⟨i, converged || last⟩] else st.reports
  { factors := s', q := q, converged := converged, convergeI := i, window := window, losses := losses,
    reports := reports }

/-- `for i in 0..max_iter { ...; if converged { break } }` with `fuel` iterations left. -/
def rustIter (step : Bool → σ → σ) (loss : σ → Option K) (cfg : LoopCfg K) (clock : ℕ → Bool) :
    ℕ → ℕ → RustState σ K → RustState σ K
  | 0, _, st => st
  | fuel + 1, i, st =>
    let st' := rustBody step loss cfg clock i st
    if st'.converged then st' else rustIter step loss cfg clock fuel (i + 1) st'

/-- `ls_nmf_update_cpu` / `ws_nmf_update_cpu` (`lib.rs:299-408`, `631-779`). -/
def rustLoop (step : Bool → σ → σ) (loss : σ → Option K) (cfg : LoopCfg K) (clock : ℕ → Bool) (s : σ) :
    RustState σ K :=
  rustIter step loss cfg clock cfg.maxIter.toNat 0 (rustInit s)

/-- Python exceptions the loop can raise. -/
inductive PyErr
  /-- `update_step` got an unexpected keyword argument `hold_h` (`sa.py:437` with `WSNMF.update`, `ws_nmf.py:9-14`) -/
  | typeError
  /-- `prior_q[0]` on an empty list (`sa.py:450`) -/
  | indexError
  deriving DecidableEq, Repr

/-- Mutable variables of the Python loop (`sa.py:395-396,430`) and the two attributes it changes (`sa.py:462,464`). -/
structure PyState (σ K : Type*) where
  /-- `self.W`, `self.H` -/
  factors : σ
  /-- `hold_h` (reassigned in the loop, line 436) -/
  holdH : Bool
  /-- `prior_q` -/
  window : List (Option K)
  /-- `q_list` -/
  losses : List (Option K)
  /-- `self.converged` -/
  converged : Bool
  /-- `self.converge_steps` -/
  convergeSteps : ℕ

/-- One pass through the Python loop body (`sa.py:435-464`). The Boolean says whether the loop is left by `break`.
`loss` is the pair Q(true), Q(robust); `acceptsHold` says whether `update_step` has a `hold_h` parameter. -/
def pyBody (step : Bool → σ → σ) (loss : σ → Option K × Option K) (cfg : LoopCfg K) (acceptsHold : Bool) (i : ℕ)
    (st : PyState σ K) : Except PyErr (PyState σ K × Bool) :=
  let hold := if decide (0 < cfg.delayH) && decide (cfg.delayH < i) then false else st.holdH
  if !acceptsHold then .error .typeError
  else
    let s' := step (!hold) st.factors
    let (q, qr) := loss s'
    let window := st.window ++ [q]
    let losses := st.losses ++ [q]
    if q.isNone || qr.isNone then
      .ok ({ st with factors := s', holdH := hold, window := window, losses := losses }, true)
    else if cfg.convergeN < (window.length : ℤ) then
      match window.tail with
      | [] => .error .indexError
      | first :: _ =>
        if lossDrop first q cfg.delta then
          .ok ({ factors := s', holdH := hold, window := window.tail, losses := losses, converged := true,
                 convergeSteps := st.convergeSteps }, true)
        else
          .ok ({ factors := s', holdH := hold, window := window.tail, losses := losses, converged := st.converged,
                 convergeSteps := st.convergeSteps + 1 }, false)
    else
      .ok ({ factors := s', holdH := hold, window := window, losses := losses, converged := st.converged,
             convergeSteps := st.convergeSteps + 1 }, false)

/-- `for i in trange(max_iter)` with `fuel` iterations left (`sa.py:434`). -/
def pyIter (step : Bool → σ → σ) (loss : σ → Option K × Option K) (cfg : LoopCfg K) (acceptsHold : Bool) :
    ℕ → ℕ → PyState σ K → Except PyErr (PyState σ K)
  | 0, _, st => .ok st
  | fuel + 1, i, st =>
    match pyBody step loss cfg acceptsHold i st with
    | .error e => .error e
    | .ok (st', true) => .ok st'
    | .ok (st', false) => pyIter step loss cfg acceptsHold fuel (i + 1) st'

/-- The Python training loop (`sa.py:430-464`); `converged0`, `steps0` are the values of `self.converged` and
`self.converge_steps` before the call (not reset by `train`). -/
def pyLoop (step : Bool → σ → σ) (loss : σ → Option K × Option K) (cfg : LoopCfg K) (acceptsHold : Bool)
    (converged0 : Bool) (steps0 : ℕ) (s : σ) : Except PyErr (PyState σ K) :=
  pyIter step loss cfg acceptsHold cfg.maxIter.toNat 0
    { factors := s, holdH := cfg.holdH, window := [], losses := [], converged := converged0, convergeSteps := steps0 }

end

end Esat
