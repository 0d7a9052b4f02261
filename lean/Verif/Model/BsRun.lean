import Verif.Model.PyDict
import Mathlib.Data.List.Basic
import Mathlib.Algebra.Order.Group.Int

/-!
# Model of running the bootstrap, and the numbers of worker processes

`Bootstrap.run`, `_train`, `_p_train` (`esat/error/bootstrap.py:345-488`); the sizes of the process pools (`bootstrap.py:95,412`,
`esat/error/displacement.py:80,339,495`, `esat/error/bs_disp.py:94,139-142,165,173`, `esat/estimator.py:137`, `eval/perturbation.py:121-122`,
`eval/factor_comparison.py:300`). Resampling, training and mapping are functions (`Model/Bootstrap.lean`, `Model/SA.lean`); in a worker they act
on copies of the bootstrap object. Progress output is left out.
-/

namespace Esat

/-! ### Process pools -/

/-- `mp.Pool(processes)`: fewer than one process is a `ValueError`. -/
def poolStarts (processes : ℤ) : Bool := decide (1 ≤ processes)

/-- `int(cpu_count * 0.75)`. -/
def threeQuarters (cpu : ℕ) : ℤ := ((cpu * 3 / 4 : ℕ) : ℤ)

/-- `Bootstrap.cpus` (`bootstrap.py:95`), the size of its pool. -/
def bootstrapPool (cpu : ℕ) (cpus : ℤ) : ℤ := if 0 < cpus then cpus else (cpu : ℤ) - 1

/-- `Displacement.cores` (`displacement.py:80`), the size of its pools. -/
def displacementPool (cpu : ℕ) (cores : ℤ) : ℤ := if 0 < cores then cores else max (threeQuarters cpu) 1

/-- `BSDISP.cores` (`bs_disp.py:94`), which nothing uses. -/
def bsDispCores (cpu : ℕ) (cores : ℤ) : ℤ := if 0 < cores then min cores (threeQuarters cpu) else max (threeQuarters cpu) 1

/-- The pool of the displacement stage with `parallel=True` (`bs_disp.py:165,173`). -/
def bsDispPool (cpu : ℕ) (_cores : ℤ) : ℤ := threeQuarters cpu

/-- The pool of the bootstrap that BS-DISP runs itself (`bs_disp.py:139-142`): `cpus` has its default -1. -/
def bsDispBootstrapPool (cpu : ℕ) (_cores : ℤ) : ℤ := bootstrapPool cpu (-1)

/-- The pool of the factor estimation (`estimator.py:137`). -/
def estimatorPool (cpu : ℕ) : ℤ := (cpu : ℤ) - 1

/-- The pool of the perturbation (`perturbation.py:121-122`). -/
def perturbationPool (cpu : ℕ) : ℤ := threeQuarters cpu

/-- The pool of the comparison of factors (`factor_comparison.py:300`). -/
def comparePool (cpu : ℕ) : ℤ := (cpu : ℤ) - 1

/-! ### The bootstrap -/

section run
variable {G S D I M P Q : Type*}

/-- The parts of a bootstrap run; `none` = an exception. -/
structure BsEnv (G S D I M P Q : Type*) where
  /-- `self.rng.integers(low=0, high=1e10, size=1)` -/
  draw : G → S × G
  /-- `_block_resample` or `_resample` of copies of the data: `block`, `overlapping`, seed; the data and the index list -/
  resample : Bool → Bool → S → Option (D × I)
  /-- a new `SA` with that seed, `initialize(H=…)` and `train` with the settings of the base model -/
  train : S → Option P → D → Option M
  /-- `map_contributions` with the base model -/
  mapping : M → Q
  /-- `self.base_seed` -/
  baseSeed : S
  /-- `self.base_H` -/
  baseH : P

/-- The arguments of `run`. -/
structure BsArgs where
  /-- `keep_H` -/
  keepH : Bool
  /-- `reuse_seed` -/
  reuseSeed : Bool
  /-- `block` -/
  block : Bool
  /-- `overlapping` -/
  overlapping : Bool

/-- An entry of `bs_results`. -/
structure BsEntry (I M Q : Type*) where
  /-- `"model"` -/
  model : M
  /-- `"index"` -/
  index : I
  /-- `"mapping"` -/
  mapping : Q

/-- What changes in a bootstrap object. -/
structure BsObj (G R : Type*) where
  /-- `rng` -/
  rng : G
  /-- `bs_results` -/
  results : PyDict ℕ R

/-- One run (`bootstrap.py:426-453`, the same statements as in `457-487`). -/
def bsOne (E : BsEnv G S D I M P Q) (a : BsArgs) (seed : S) : Option (BsEntry I M Q) :=
  (E.resample a.block a.overlapping seed).bind fun d =>
    (E.train (if a.reuseSeed then E.baseSeed else seed) (if a.keepH then some E.baseH else none) d.1).map fun m =>
      ⟨m, d.2, E.mapping m⟩

/-- The loop with `parallel=False` (`bootstrap.py:420-455`): `n` more runs from number `i` on; the flag is false after an exception. -/
def bsSequential (E : BsEnv G S D I M P Q) (a : BsArgs) : ℕ → ℕ → BsObj G (BsEntry I M Q) → BsObj G (BsEntry I M Q) × Bool
  | 0, _, o => (o, true)
  | n + 1, i, o =>
    let s := E.draw o.rng
    match bsOne E a s.1 with
    | none => (⟨s.2, o.results⟩, false)
    | some r => bsSequential E a n (i + 1) ⟨s.2, dictSet o.results i r⟩

/-- The arguments of the workers (`bootstrap.py:402-409`): number and seed of each run. -/
def bsTasks (draw : G → S × G) : ℕ → ℕ → G → List (ℕ × S) × G
  | 0, _, g => ([], g)
  | n + 1, i, g =>
    let t := bsTasks draw n (i + 1) (draw g).2
    ((i, (draw g).1) :: t.1, t.2)

/-- `parallel=True` (`bootstrap.py:401-419`): `sched` puts the tasks into the order in which they finish; after an exception in a worker nothing
is stored. -/
def bsParallel (E : BsEnv G S D I M P Q) (a : BsArgs) (pool : ℤ) (n : ℕ) (sched : List (ℕ × S) → List (ℕ × S))
    (o : BsObj G (BsEntry I M Q)) : BsObj G (BsEntry I M Q) × Bool :=
  let t := bsTasks E.draw n 1 o.rng
  if poolStarts pool then
    match (sched t.1).mapM fun t => (bsOne E a t.2).map fun r => (t.1, r) with
    | none => (⟨t.2, o.results⟩, false)
    | some rs => (⟨t.2, rs.foldl (fun d r => dictSet d r.1 r.2) o.results⟩, true)
  else (⟨t.2, o.results⟩, false)

end run

end Esat
