import Verif.Model.Mat
import Mathlib.Data.List.Basic
import Mathlib.Data.Int.Order.Basic
import Mathlib.Algebra.Order.Floor.Defs
import Mathlib.Analysis.SpecialFunctions.Trigonometric.Basic

/-!
# Model of the simulator (`eval/simulator.py`)

`generate_profiles` (128-163), `update_contribution` (165-228) and `_generate_data` (235-266). The random draws are inputs, so
every theorem holds for every seed. Arithmetic is exact; an exception, and a result which contains NaN or infinity, is `none`.
Not modelled: data frames, plots, logging, and the order in which numbers are taken from the generator.
-/

namespace Esat

section profiles
variable {K : Type*} [Field K] [LinearOrder K] {f n m : ℕ}

/-- `a[a <= 0.0] = eps` on one cell (`simulator.py:161,226,255,263`). -/
def clipPos (eps x : K) : K := if x ≤ 0 then eps else x

/-- The random profiles before clipping (`simulator.py:149-158`): zeros, on which for every feature the drawn values are stored
for the drawn factors, in order. `self.rng.integers(1, self.factors_n, 1)` raises for fewer than two factors; it is not executed
if there are no features. -/
def randomProfiles (f n : ℕ) (sel : Fin n → List (Fin f × K)) : Option (Mat f n K) :=
  if 0 < n ∧ f ≤ 1 then none
  else some fun j i => (sel i).foldl (fun acc p => if p.1 = j then p.2 else acc) 0

/-- `self.syn_profiles[i] = _profiles[i]` for every row of the custom profiles (`simulator.py:161-163`): raises if there are
more rows than factors, or if the width is neither the number of features nor one (which NumPy broadcasts). -/
def overwriteRows (H : Mat f n K) (r c : ℕ) (P : ℕ → ℕ → K) : Option (Mat f n K) :=
  if r = 0 then some H
  else if f < r then none
  else if c = n then some fun j i => if j.1 < r then P j.1 i.1 else H j i
  else if c = 1 then some fun j i => if j.1 < r then P j.1 0 else H j i
  else none

/-- `generate_profiles` (`simulator.py:128-165`). A custom profile is its shape `(r, c)` with its entries. A custom profile of
the requested shape replaces the random ones; of any other shape it overwrites the first rows of the random ones. -/
def generateProfiles (f n : ℕ) (custom : Option (ℕ × ℕ × (ℕ → ℕ → K))) (sel : Fin n → List (Fin f × K)) :
    Option (Mat f n K) :=
  let H : Option (Mat f n K) := match custom with
    | none => randomProfiles f n sel
    | some (r, c, P) =>
      if r = f ∧ c = n then some fun j i => P j.1 i.1
      else (randomProfiles f n sel).bind fun H => overwriteRows H r c P
  H.map fun H j i => clipPos (1 / 10 ^ 12) (H j i)

/-- What the generator guarantees for the draws of one feature: at least one and fewer than `f` different factors, and values
in `[0, 1)`. -/
def SelContract (sel : Fin n → List (Fin f × K)) : Prop :=
  ∀ i, 1 ≤ (sel i).length ∧ (sel i).length < f ∧ ((sel i).map Prod.fst).Nodup ∧ ∀ p ∈ sel i, 0 ≤ p.2 ∧ p.2 < 1

/-- The noise added to one cell (`simulator.py:241-245`): `z` is the normal and `s` the uniform draw. -/
def noisyCell (x z s : K) : K := x + (if s < 1 / 2 then x * z * (-1) else x * z)

/-- The outlier step on one cell (`simulator.py:248-252`), in the order of the code: cells with draw at most `1 - p/2` are
multiplied, then cells with draw at least `p/2` are divided. Division by zero gives NaN or infinity, `none`. -/
def outlierCell (p mag draw x : K) : Option K :=
  let x1 := if draw ≤ 1 - p * (1 / 2) then x * mag else x
  if p * (1 / 2) ≤ draw then (if mag = 0 then none else some (x1 / mag)) else some x1

/-- The outlier parameters: switched off, or rate and magnitude. -/
structure OutlierCfg (K : Type*) where
  /-- `self.outliers` -/
  on : Bool
  /-- `self.outlier_p` -/
  p : K
  /-- `self.outlier_mag` -/
  mag : K

/-- The draws of `_generate_data`. -/
structure DataDraws (m n : ℕ) (K : Type*) where
  /-- normal draws of the noise -/
  z : Mat m n K
  /-- uniform draws for its sign -/
  sgn : Mat m n K
  /-- uniform draws for the outliers -/
  out : Mat m n K
  /-- normal draws of the relative uncertainty -/
  unc : Mat m n K

/-- One cell of `_generate_data` (`simulator.py:235-266`): data and uncertainty. -/
def dataCell (cfg : OutlierCfg K) (x z s o u : K) : Option (K × K) :=
  let y := noisyCell x z s
  let y : Option K := if cfg.on then outlierCell cfg.p cfg.mag o y else some y
  y.map fun y =>
    let d := clipPos (1 / 10 ^ 12) y
    (d, clipPos (1 / 10 ^ 4) (d * u))

/-- `_generate_data` (`simulator.py:235-266`): `syn_data` and `syn_uncertainty`, cell by cell. -/
def generateData (cfg : OutlierCfg K) (W : Mat m f K) (H : Mat f n K) (d : DataDraws m n K) :
    Fin m → Fin n → Option (K × K) :=
  fun i j => dataCell cfg ((W ⬝ H) i j) (d.z i j) (d.sgn i j) (d.out i j) (d.unc i j)

end profiles

section curves
open Real

/-- The documented curve types; any other string is treated as `uniform`. -/
inductive Curve | uniform | increasing | decreasing | logistic | periodic
  deriving DecidableEq

/-- `np.linspace(a, b, num)`: raises for a negative number of points. -/
noncomputable def linspace (a b : ℝ) (num : ℤ) : Option (List ℝ) :=
  if num < 0 then none
  else some ((List.range num.toNat).map fun i : ℕ => a + (i : ℝ) * ((b - a) / ((num : ℝ) - 1)))

/-- `int(1.0/frequency) + 1` for a positive frequency (`simulator.py:203,217`). -/
noncomputable def nPeriods (freq : ℝ) : ℕ := ⌊1 / freq⌋₊ + 1

/-- The pieces of the logistic curve (`simulator.py:204-213`). -/
noncomputable def logisticPieces (N p : ℕ) : List (Option (List ℝ)) :=
  (List.range (p + 1)).map fun i =>
    let steps : ℤ := if i = p then (N : ℤ) - 2 * (N / p : ℕ) else (N / p : ℕ)
    if i % 2 = 0 then linspace (-100) 100 steps else linspace 100 (-100) steps

/-- The logistic curve (`simulator.py:201-215`). -/
noncomputable def logisticCurve (N p : ℕ) (mn mx : ℝ) : Option (List ℝ) :=
  ((logisticPieces N p).mapM id).map fun xs => xs.flatten.map fun x => mn + (mx - mn) / (1 + exp (-x))

/-- `np.min`, which raises on an empty array. -/
noncomputable def npMin : List ℝ → Option ℝ
  | [] => none
  | a :: l => some (l.foldl min a)

/-- The periodic curve (`simulator.py:216-222`): one period without its last point, repeated, and cut to the sample count. -/
noncomputable def periodicCurve (N p : ℕ) (mn mx : ℝ) : Option (List ℝ) :=
  (linspace (-π) π ((N / p : ℕ) : ℤ)).bind fun a =>
    let x := ((List.replicate (p + 1) (a.take (a.length - 1))).flatten).take N
    let y := x.map fun t => sin t * ((mx - mn) / 2)
    (npMin y).map fun lo => y.map fun t => t + |lo| + mn

/-- Exchange of minimum and maximum (`simulator.py:191-194`). -/
noncomputable def curveBounds (mn mx : ℝ) : ℝ × ℝ :=
  if mx < mn then (mx, mn) else if mn = mx then (mn, mx * 2) else (mn, mx)

/-- The curve before the noise, cut to the sample count (`simulator.py:196-225`). `draw` are the uniform draws. A zero frequency
raises; for negative frequencies every branch which uses them raises as well (`np.concatenate` of nothing, a division by zero, a
negative number of points or the minimum of nothing). -/
noncomputable def curveY (c : Curve) (N : ℕ) (freq mn mx : ℝ) (draw : ℕ → ℝ) : Option (List ℝ) :=
  let b := curveBounds mn mx
  let y : Option (List ℝ) := match c with
    | .increasing => linspace b.1 b.2 N
    | .decreasing => linspace b.2 b.1 N
    | .logistic => if freq ≤ 0 then none else logisticCurve N (nPeriods freq) b.1 b.2
    | .periodic => if freq ≤ 0 then none else periodicCurve N (nPeriods freq) b.1 b.2
    | .uniform => some ((List.range N).map fun i => draw i * b.2)
  y.map fun y => y.take N

/-- `self.syn_contributions[:, factor_i] = y_data` (`simulator.py:228`): the lengths have to agree, a single value is broadcast. -/
def assignCol {K : Type*} (N : ℕ) (y : List K) : Option (Fin N → K) :=
  if h : y.length = N then some fun i => y[i.1]
  else match y with
    | [a] => some fun _ => a
    | _ => none

/-- `update_contribution` (`simulator.py:165-228`): the new column. `draw` are uniform, `z` standard normal draws; a negative
scale raises. -/
noncomputable def updateContribution (c : Curve) (N : ℕ) (scale freq mn mx : ℝ) (draw z : ℕ → ℝ) : Option (Fin N → ℝ) :=
  (curveY c N freq mn mx draw).bind fun y =>
    if scale < 0 then none
    else assignCol N (y.mapIdx fun i t => clipPos (1 / 10 ^ 12) (t + scale * z i))

end curves

end Esat
