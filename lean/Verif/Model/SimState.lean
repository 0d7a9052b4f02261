import Verif.Model.Simulator
import Verif.Model.Metrics

/-!
# Model of a simulator object over several calls

`eval/simulator.py`: the time axis (113-115), and what `generate_profiles` (128-163), `update_contribution` (165-228), `_generate_dfs` (268-282), `_create_sa` (284-296) and `get_data`
(298-310) do to the attributes, including that arrays are shared: `syn_sa.H` and `syn_sa.W` are the arrays `syn_profiles` and `syn_contributions` themselves, a custom profile
array of the right shape is used and clipped in place, and `update_contribution` writes into the array of contributions. The arrays of profiles are in a list, addresses are positions in it; there is only one array of
contributions. Draws are inputs. Not modelled: results that are not finite (`none`), the sharing of memory between frames and arrays, logging.
-/

namespace Esat

/-! ### The time axis -/

/-- `pd.date_range(start, end, freq='1min')` in microseconds. -/
def minuteRange (start stop : ℤ) : List ℤ :=
  if stop < start then [] else (List.range ((stop - start) / 60000000 + 1).toNat).map fun i : ℕ => start + (i : ℤ) * 60000000

/-- `time_steps` (`simulator.py:113-115`): `t1` and `t2` are the two values of `datetime.now()` in microseconds, the end is the midnight before `t2`; `x[i:]` counts a negative `i` from the end. -/
def simTimes (t1 t2 : ℤ) (samples : ℕ) : List ℤ :=
  let start := t1 - 86400000000 - (samples : ℤ) * 60000000
  let stop := t2 / 86400000000 * 86400000000
  let all := minuteRange start stop
  let i : ℤ := (all.length : ℤ) - samples
  if 0 ≤ i then all.drop i.toNat else all.drop ((all.length : ℤ) + i).toNat

/-! ### The object -/

section state
variable {m n f : ℕ}

/-- The attributes of `syn_sa` that `_create_sa` sets (`simulator.py:289-294`): the address of the profiles; `W` is the array of contributions of the simulator. `qr_loss` returns a pair, and the pair is stored. -/
structure SynSa (m n : ℕ) where
  /-- `V` -/
  V : Mat m n ℝ
  /-- `U` -/
  U : Mat m n ℝ
  /-- address of `H` -/
  H : ℕ
  /-- `WH` -/
  WH : Mat m n ℝ
  /-- `Qrobust` -/
  qRobust : ℝ × Mat m n ℝ
  /-- `Qtrue` -/
  qTrue : ℝ

/-- The simulator: the arrays of profiles in memory, the address of `syn_profiles`, `syn_contributions`, and after `get_data` the data, uncertainty and `syn_sa`. -/
structure SimRec (m n f : ℕ) where
  /-- arrays of shape (factors, features) -/
  heap : List (Mat f n ℝ)
  /-- address of `syn_profiles` -/
  prof : ℕ
  /-- `syn_contributions` and `syn_sa.W` -/
  W : Mat m f ℝ
  /-- `syn_data`, `syn_uncertainty` and `syn_sa` -/
  out : Option (Mat m n ℝ × Mat m n ℝ × SynSa m n)

/-- The calls. -/
inductive SimCall (m n f : ℕ)
  /-- `generate_profiles` without an array, or with one of another shape: the entries before clipping -/
  | random (P : Mat f n ℝ)
  /-- `generate_profiles` with the array at this address -/
  | custom (a : ℕ)
  /-- `update_contribution`: the factor and the new column -/
  | update (i : Fin f) (y : Fin m → ℝ)
  /-- `get_data` with its draws -/
  | getData (cfg : OutlierCfg ℝ) (d : DataDraws m n ℝ)

/-- `syn_profiles[syn_profiles <= 0.0] = 1e-12` (`simulator.py:161`). -/
noncomputable def clipMat (P : Mat f n ℝ) : Mat f n ℝ := fun a j => clipPos (1 / 10 ^ 12) (P a j)

/-- One call; `none` = an exception or a result that is not finite. -/
noncomputable def simCall (s : SimRec m n f) : SimCall m n f → Option (SimRec m n f)
  | .random P => some { s with heap := s.heap ++ [clipMat P], prof := s.heap.length }
  | .custom a => s.heap[a]?.map fun P => { s with heap := s.heap.set a (clipMat P), prof := a }
  | .update i y => some { s with W := fun t a => if a = i then y t else s.W t a }
  | .getData cfg d => s.heap[s.prof]?.bind fun H =>
      let g := generateData cfg s.W H d
      if h : ∀ t j, (g t j).isSome then
        let V : Mat m n ℝ := fun t j => ((g t j).get (h t j)).1
        let U : Mat m n ℝ := fun t j => ((g t j).get (h t j)).2
        some { s with out := some (V, U, ⟨V, U, s.prof, s.W ⬝ H, qrLoss V U s.W H 4, qLoss V U s.W H⟩) }
      else none

/-- Several calls. -/
noncomputable def simRun : SimRec m n f → List (SimCall m n f) → Option (SimRec m n f)
  | s, [] => some s
  | s, c :: cs => (simCall s c).bind fun s' => simRun s' cs

/-- What `syn_sa.H` and `syn_sa.W` are at a moment: the arrays as they are then. -/
def saFactors (s : SimRec m n f) : Option (Mat m f ℝ × Mat f n ℝ) :=
  s.out.bind fun o => s.heap[o.2.2.H]?.map fun H => (s.W, H)

end state

end Esat
