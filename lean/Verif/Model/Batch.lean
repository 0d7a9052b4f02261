import Mathlib.Data.Int.Notation
import Mathlib.Data.Nat.Notation
import Mathlib.Data.List.Basic
import Mathlib.Order.Defs.LinearOrder
import Mathlib.Tactic.TypeStar

/-!
# Model of `BatchSA.train` (`esat/model/batch_sa.py:170-352`, `_train_task` 475-496)

The individual models are abstract: `σ` is an `SA` object, `init` is construction plus `initialize` with a seed
(`none` = it raises), `train` is `SA.train` (`none` = it raises). What the batch code does with them (seeds, slicing of H
and W, the process pool, choice of the best model, return value) is modelled statement by statement. Logging, progress
reporting and the run time are not modelled, except for the `min_limit` test. An infinite loss counts as NaN.
-/

namespace Esat

/-- The `Qrobust`/`Qtrue` attribute of a model. -/
inductive QV (K : Type*)
  /-- `None`: the model was never trained -/
  | unset
  /-- NaN -/
  | nan
  /-- a number -/
  | val (q : K)
  deriving DecidableEq

/-- The H / W argument of the batch (`batch_sa.py:103-104`), after `np.array`. -/
inductive FArg (α : Type*)
  /-- a 2-D array, shared by all models -/
  | two (a : α)
  /-- a 3-D array, one slice per model -/
  | three (l : List α)

/-- Batch configuration. -/
structure BatchCfg (α : Type*) where
  /-- `self.models` -/
  models : ℕ
  /-- `self.H` -/
  H : Option (FArg α)
  /-- `self.W` -/
  W : Option (FArg α)
  /-- `self.hold_h` -/
  holdH : Bool
  /-- `self.delay_h` -/
  delayH : ℤ
  /-- `self.best_robust` -/
  bestRobust : Bool
  /-- `self.verbose` -/
  verbose : Bool

/-- The operations of the `SA` class used by the batch. -/
structure BatchEnv (σ α K G : Type*) where
  /-- one draw `self.rng.integers(low=0, high=1e5)` -/
  draw : G → ℕ × G
  /-- `SA(...)` and `initialize(H=, W=)`; `none` = raises -/
  init : ℕ → Option (FArg α) → Option (FArg α) → Option σ
  /-- `train(model_i=, hold_h=, delay_h=)`; `none` = raises -/
  train : ℕ → Bool → ℤ → σ → Option σ
  /-- `Qrobust` -/
  qRobust : σ → QV K
  /-- `Qtrue` -/
  qTrue : σ → QV K

/-- What a `train` call of the batch leaves behind. -/
structure BatchOut (σ G : Type*) where
  /-- first component of the returned pair -/
  ok : Bool
  /-- `self.results` -/
  results : List (Option σ)
  /-- `self.best_model`, `none` = not assigned by this call -/
  best : Option ℤ
  /-- generator state afterwards -/
  rng : G

section
variable {σ α K G : Type*} [LinearOrder K]

/-- `_nmf_q < best_q` with `best_q = inf` as `none`; the outer `none` is a `TypeError` (`None < float`). -/
def qLess (q : QV K) (best : Option K) : Option Bool :=
  match q, best with
  | .unset, _ => none
  | .nan, _ => some false
  | .val _, none => some true
  | .val x, some b => some (decide (x < b))

/-- `_sa.Qrobust if self.best_robust else _sa.Qtrue` (`batch_sa.py:273,312`). -/
def batchQ (E : BatchEnv σ α K G) (cfg : BatchCfg α) (s : σ) : QV K := if cfg.bestRobust then E.qRobust s else E.qTrue s

/-- The best-model bookkeeping for one finished model (`batch_sa.py:274-276`, `313-315`). -/
def bestStep (q : QV K) (i : ℤ) (b : Option K × ℤ) : Option (Option K × ℤ) :=
  match qLess q b.1, q with
  | none, _ => none
  | some true, .val x => some (some x, i)
  | some _, _ => some b

/-- Slicing of a factor argument for model `i` (1-based) in the parallel branch (`batch_sa.py:231-244`); `none` =
`IndexError`. -/
def sliceArg (a : Option (FArg α)) (i : ℕ) : Option (Option (FArg α)) :=
  match a with
  | none => some none
  | some (.two x) => some (some (.two x))
  | some (.three l) => (l[i - 1]?).map fun x => some (.two x)

/-- Preparation of the inputs of the parallel branch (`batch_sa.py:219-252`): models `i, i+1, …` (`n` of them). -/
def prepare (E : BatchEnv σ α K G) (cfg : BatchCfg α) : ℕ → ℕ → G → Option (List (ℕ × σ)) × G
  | 0, _, g => (some [], g)
  | n + 1, i, g =>
    let d := E.draw g
    match sliceArg cfg.H i with
    | none => (none, d.2)
    | some h => match sliceArg cfg.W i with
      | none => (none, d.2)
      | some w => match E.init d.1 h w with
        | none => (none, d.2)
        | some s => match prepare E cfg n (i + 1) d.2 with
          | (none, g') => (none, g')
          | (some l, g') => (some ((i, s) :: l), g')

/-- `pool.starmap` with workers finishing in the order `order` (task indices): every finished task fills its own slot of
the result list; a raising task makes the whole call raise. -/
def starmap {β γ : Type*} (f : β → Option γ) (tasks : List β) (order : List ℕ) : Option (List γ) :=
  let slots := order.foldl (fun (sl : List (Option γ)) t => sl.set t ((tasks[t]?).bind f)) (tasks.map fun _ => none)
  slots.mapM id

/-- `_train_task` (`batch_sa.py:475-496`). -/
def trainTask (E : BatchEnv σ α K G) (cfg : BatchCfg α) (p : ℕ × σ) : Option (ℕ × σ) :=
  (E.train p.1 cfg.holdH cfg.delayH p.2).map fun s => (p.1, s)

/-- The loop over the pool results (`batch_sa.py:267-277`). -/
def collectResults (E : BatchEnv σ α K G) (cfg : BatchCfg α) :
    List (ℕ × σ) → List (Option σ) → Option K × ℤ → Option (List (Option σ) × ℤ)
  | [], ord, b => some (ord, b.2)
  | (i, s) :: rest, ord, b =>
    match bestStep (batchQ E cfg s) i b with
    | none => none
    | some b' => collectResults E cfg rest (ord.set (i - 1) (some s)) b'

/-- Python's `l[i]` with negative indices; `none` = `IndexError`. -/
def pyIndex {β : Type*} (l : List β) (i : ℤ) : Option β :=
  if 0 ≤ i then l[i.toNat]? else if 0 ≤ i + l.length then l[(i + l.length).toNat]? else none

/-- The tail of `train` (`batch_sa.py:318-352`): best index, the verbose report (which reads `results[best_model]` and
raises if that is `None` or does not exist), removal of the trailing `None`. -/
def finishBatch (cfg : BatchCfg α) (prevResults : List (Option σ)) (g : G) :
    Option (List (Option σ) × ℤ) → BatchOut σ G
  | none => ⟨false, prevResults, none, g⟩
  | some (rs, b) =>
    let best := b - 1
    if cfg.verbose ∧ (pyIndex rs best).join.isNone then ⟨false, rs, none, g⟩
    else match rs.getLast? with
      | none => ⟨false, rs, some best, g⟩
      | some none => ⟨true, rs.dropLast, some best, g⟩
      | some (some _) => ⟨true, rs, some best, g⟩

/-- `train` with `parallel=True` (`batch_sa.py:207-277,318-352`). -/
def batchParallel (E : BatchEnv σ α K G) (cfg : BatchCfg α) (order : List ℕ) (prev : List (Option σ)) (g : G) :
    BatchOut σ G :=
  match prepare E cfg cfg.models 1 g with
  | (none, g') => ⟨false, prev, none, g'⟩
  | (some tasks, g') =>
    match starmap (trainTask E cfg) tasks order with
    | none => ⟨false, prev, none, g'⟩
    | some res => finishBatch cfg prev g'
        (collectResults E cfg res (List.replicate (res.length + 1) none) (none, -1))

/-- The loop of the sequential branch (`batch_sa.py:279-316`): models `i, i+1, …` (`n` of them). `tooLong` is the outcome
of the `min_limit` test. `delay_h` is not passed on, H and W are passed unsliced. The result is `none` when the method
returned or raised, with the results so far. -/
def seqLoop (E : BatchEnv σ α K G) (cfg : BatchCfg α) (tooLong : ℕ → Bool) :
    ℕ → ℕ → List (Option σ) → Option K × ℤ → G → (Option ℤ × List (Option σ)) × G
  | 0, _, rs, b, g => ((some b.2, rs), g)
  | n + 1, i, rs, b, g =>
    let d := E.draw g
    match E.init d.1 cfg.H cfg.W with
    | none => ((none, rs), d.2)
    | some s => match E.train i cfg.holdH (-1) s with
      | none => ((none, rs), d.2)
      | some s' =>
        if tooLong i then ((none, rs), d.2)
        else match bestStep (batchQ E cfg s') i b with
          | none => ((none, rs), d.2)
          | some b' => seqLoop E cfg tooLong n (i + 1) (rs ++ [some s']) b' d.2

/-- `train` with `parallel=False` (`batch_sa.py:278-352`). -/
def batchSequential (E : BatchEnv σ α K G) (cfg : BatchCfg α) (tooLong : ℕ → Bool) (g : G) : BatchOut σ G :=
  match seqLoop E cfg tooLong cfg.models 1 [] (none, -1) g with
  | ((none, rs), g') => ⟨false, rs, none, g'⟩
  | ((some b, rs), g') => finishBatch cfg rs g' (some (rs, b))

/-- The compiled training functions take the model number as a signed byte (`lib.rs:206,540`): a larger number raises an
`OverflowError`, which `SA.train` does not catch (`sa.py:423`). -/
def i8Train (compiled : ℕ → Bool → ℤ → σ → Option σ) : ℕ → Bool → ℤ → σ → Option σ :=
  fun i h d s => if 127 < i then none else compiled i h d s

end

end Esat
