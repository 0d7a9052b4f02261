import Verif.Model.Correlation

/-!
# Model of `esat/utils.py` and of the choice of worker processes (`esat/model/batch_sa.py:122-127`)
-/

namespace Esat

/-! ## Factor comparison -/

section compare
variable {K : Type*} [Field K] [LinearOrder K]

/-- `a > b` for values that can be NaN. -/
def r2Gt (a b : Option K) : Bool := match a, b with | some x, some y => decide (y < x) | _, _ => false

/-- `compare_all_factors` (`utils.py:66-79`): the two loops with the flag `swap`; `j == i` is not skipped (`pass`). -/
def compareAll {k n : ℕ} (m1 m2 : Fin k → Fin n → K) : Bool :=
  (List.finRange k).foldl (fun swap i =>
    (List.finRange k).foldl (fun swap j => if r2Gt (r2 (m1 i) (m2 j)) (r2 (m1 i) (m2 i)) then true else swap) swap) false

end compare

/-! ## Memory and worker processes -/

/-- `max_bytes` (`utils.py:103`). -/
def maxBytes (features samples factors : ℕ) : ℕ := 32 * (features * samples * 3 + features * factors + samples * factors) + 150 * 1024 ^ 2

/-- `max_cores` (`utils.py:108-109`) with the number of cores passed by the caller or found by the system. -/
def maxCores (available bytes : ℕ) (cores : ℤ) : ℤ := min ((available / bytes : ℕ) : ℤ) cores

/-- The number of processes of a batch (`batch_sa.py:122-127`): `cpus` is `os.cpu_count()`, used when no number is given;
`int(x * 0.75)` for non-negative `x` is `⌊3x/4⌋` (the case of a negative `max_cores` is covered by `max(…, 1)`: truncation
towards zero). -/
def batchCores (available bytes cpus : ℕ) (cores : Option ℤ) : ℤ :=
  let mc := maxCores available bytes (cores.getD cpus)
  let c := cores.getD (-1)
  if 0 < c then c else max (Int.tdiv (3 * mc) 4) 1

/-! ## Time steps -/

/-- `min_timestep` (`utils.py:31-55`) on the timestamps in seconds. `none` is Python's `None`: the strings are stored in a local
variable that is never returned, the only `return` is in the last branch. Slices: `index[1:-1] - index[0:-2]`; the minimum of
an empty index is `NaT`, all comparisons with it are false. -/
def minTimestep (ts : List ℤ) : Option String :=
  match (List.zipWith (fun a b => a - b) (ts.drop 1).dropLast ts.dropLast.dropLast).min? with
  | none => some "D"
  | some d =>
    if 1 ≤ d / 86400 then none
    else if d % 86400 < 60 then none
    else if d % 86400 < 60 * 60 then none
    else if 60 * 60 < d % 86400 ∧ d / 86400 ≤ 0 then none
    else some "D"

end Esat
